import Verif.Lemmas.Junction
/-!
# Runs of a junction, decomposed into polls of its inputs
-/
namespace Verif

/-- One look at one input: a run of `motion_worker` with its trace and result. -/
structure Poll where
  pull : Pull
  tr : List Ev
  res : Except MErr WorkerResult

def PollRun (pushs : List Push) (spy : Option Nat) (w : Poll) : Prop :=
  MRuns (motionWorker w.pull {} pushs spy true) w.tr w.res

def Poll.isRead (w : Poll) : Bool := match w.res with | .ok x => x.read | .error _ => false
def Poll.isFin (w : Poll) : Bool := match w.res with | .ok x => x.finished | .error _ => false
def Poll.isOk (w : Poll) : Bool := match w.res with | .ok _ => true | .error _ => false

def pollTrace (ws : List Poll) : List Ev := (ws.map Poll.tr).flatten

@[simp] theorem pollTrace_nil : pollTrace [] = [] := rfl
@[simp] theorem pollTrace_cons (w ws) : pollTrace (w :: ws) = w.tr ++ pollTrace ws := by simp [pollTrace]
@[simp] theorem pollTrace_append (a b) : pollTrace (a ++ b) = pollTrace a ++ pollTrace b := by simp [pollTrace]

/-- Indices, counted from `i`, of the inputs found finished. -/
def idxFin : Nat → List Poll → List Nat
  | _, [] => []
  | i, w :: ws => if w.isFin then i :: idxFin (i + 1) ws else idxFin (i + 1) ws

theorem idxFin_snoc (i : Nat) (ws : List Poll) (w : Poll) :
    idxFin i (ws ++ [w]) = idxFin i ws ++ if w.isFin then [i + ws.length] else [] := by
  induction ws generalizing i with
  | nil => simp [idxFin]
  | cons v ws ih =>
    simp only [List.cons_append, idxFin, ih, List.length_cons]
    have : i + 1 + ws.length = i + (ws.length + 1) := by omega
    rw [this]
    split <;> simp

theorem junctionLoop_inv {pushs spy pulls i acc tr} {r : Except MErr MotionOneResult}
    (h : MRuns (junctionLoop pushs spy pulls i acc) tr r) (hacc : ∀ k ∈ acc.finishedPulls, k < i) :
    ∃ ws, tr = pollTrace ws ∧ (∀ w ∈ ws, PollRun pushs spy w) ∧
      (∀ acc', r = .ok acc' → ws.map Poll.pull = pulls ∧ (∀ w ∈ ws, w.isOk = true) ∧
        acc'.finishedPulls = acc.finishedPulls ++ idxFin i ws ∧
        acc'.readFrom.length = acc.readFrom.length + ws.countP Poll.isRead ∧
        acc'.skipped.length + ws.countP Poll.isRead = acc.skipped.length + ws.length) ∧
      (∀ e, r = .error e → ws.map Poll.pull <+: pulls ∧
        ∃ ws' w, ws = ws' ++ [w] ∧ w.res = .error e ∧ ∀ v ∈ ws', v.isOk = true) := by
  induction pulls generalizing i acc tr with
  | nil =>
    simp [junctionLoop] at h
    obtain ⟨rfl, rfl⟩ := h
    exact ⟨[], rfl, by simp, by simp +contextual [idxFin], by simp⟩
  | cons p ps ih =>
    simp only [junctionLoop] at h
    have hnot : i ∉ acc.finishedPulls := fun hm => by have := hacc i hm; omega
    rw [if_neg hnot, mruns_bind] at h
    rcases h with ⟨e, rfl, h⟩ | ⟨t1, a, t2, rfl, h1, h2⟩
    · refine ⟨[⟨p, tr, .error e⟩], by simp, by simpa [PollRun] using h, by simp, ?_⟩
      intro e' he'
      simp at he'; subst he'
      exact ⟨by simp, [], _, rfl, rfl, by simp⟩
    · generalize hacc' : (if a.finished then
        { (if !a.read then { acc with skipped := acc.skipped ++ [i] } else { acc with readFrom := acc.readFrom ++ [i] }) with
          finishedPulls := (if !a.read then { acc with skipped := acc.skipped ++ [i] } else { acc with readFrom := acc.readFrom ++ [i] }).finishedPulls ++ [i] }
        else (if !a.read then { acc with skipped := acc.skipped ++ [i] } else { acc with readFrom := acc.readFrom ++ [i] })) = acc1 at h2
      have e1 : acc1.finishedPulls = acc.finishedPulls ++ if a.finished then [i] else [] := by
        subst hacc'; cases a.finished <;> cases a.read <;> simp
      have e2 : acc1.readFrom.length = acc.readFrom.length + if a.read then 1 else 0 := by
        subst hacc'; cases a.finished <;> cases a.read <;> simp
      have e3 : acc1.skipped.length + (if a.read then 1 else 0) = acc.skipped.length + 1 := by
        subst hacc'; cases a.finished <;> cases a.read <;> simp
      obtain ⟨ws, rfl, i1, i2, i3⟩ := ih h2 (by
        intro k hk
        rw [e1] at hk
        simp only [List.mem_append] at hk
        rcases hk with hk | hk
        · have := hacc k hk; omega
        · split at hk <;> simp at hk; omega)
      refine ⟨⟨p, t1, .ok a⟩ :: ws, by simp, ?_, ?_, ?_⟩
      · intro w hw
        simp at hw
        rcases hw with rfl | hw
        · exact h1
        · exact i1 w hw
      · intro acc' hr
        obtain ⟨j1, j2, j3, j4, j5⟩ := i2 acc' hr
        refine ⟨by simp [j1], ?_, ?_, ?_, ?_⟩
        · intro w hw
          simp at hw
          rcases hw with rfl | hw
          · rfl
          · exact j2 w hw
        · rw [j3, e1]
          have hf : (⟨p, t1, .ok a⟩ : Poll).isFin = a.finished := rfl
          simp only [idxFin, hf]
          by_cases hb : a.finished = true <;> simp [hb]
        · have hf : (⟨p, t1, .ok a⟩ : Poll).isRead = a.read := rfl
          rw [j4, e2, List.countP_cons, hf]
          omega
        · have hf : (⟨p, t1, .ok a⟩ : Poll).isRead = a.read := rfl
          rw [List.countP_cons, hf, List.length_cons]
          omega
      · intro e hr
        obtain ⟨j1, ws', w, rfl, j2, j3⟩ := i3 e hr
        refine ⟨by simpa using j1, ⟨p, t1, .ok a⟩ :: ws', w, rfl, j2, ?_⟩
        intro v hv
        simp at hv
        rcases hv with rfl | hv
        · rfl
        · exact j3 v hv

/-- A pass over the inputs, in groups `G`: all inputs of the first `k` groups were looked at and had
nothing (`ws1`), then some of group `k` (`ws2`). -/
structure Pass (pushs : List Push) (spy : Option Nat) (G : List (List Pull)) (k : Nat) (ws1 ws2 : List Poll) : Prop where
  runs1 : ∀ w ∈ ws1, PollRun pushs spy w
  runs2 : ∀ w ∈ ws2, PollRun pushs spy w
  before : ws1.map Poll.pull = (G.take k).flatten
  skipped : ∀ w ∈ ws1, w.res = .ok ⟨false, false⟩
  group : ws2.map Poll.pull <+: (G[k]?).getD []

/-- Not reading means reporting just that. -/
theorem notRead {pushs spy w} (h : PollRun pushs spy w) (hok : w.isOk = true) (hr : w.isRead = false) :
    w.res = .ok ⟨false, false⟩ := by
  unfold Poll.isOk at hok
  split at hok
  · rename_i x hx
    unfold Poll.isRead at hr
    rw [hx] at hr
    simp at hr
    unfold PollRun at h
    rw [hx] at h ⊢
    rcases motionWorker_inv h with ⟨e, h0, _⟩ | ⟨_, h0⟩ | ⟨_, t1, t2, _, _, _, h2⟩
    · simp at h0
    · exact h0
    · rcases h2 with ⟨e, h0, _⟩ | ⟨_, _, _, _, h4⟩
      · simp at h0
      · rcases h4 with ⟨e, h0, _⟩ | ⟨_, _, _, _, _, h6⟩
        · simp at h0
        · rcases h6 with ⟨e, h0, _⟩ | ⟨_, h0⟩
          · simp at h0
          · simp at h0; rw [h0] at hr; simp at hr
  · simp at hok

theorem countP_isRead_eq_length {ws : List Poll} : ws.countP Poll.isRead = 0 → ∀ w ∈ ws, w.isRead = false := by
  intro h w hw
  rw [List.countP_eq_zero] at h
  simpa using h w hw

theorem idxFin_nil_of_skipped {i} {ws : List Poll} (h : ∀ w ∈ ws, w.res = .ok ⟨false, false⟩) : idxFin i ws = [] := by
  induction ws generalizing i with
  | nil => rfl
  | cons w ws ih =>
    have := h w (by simp)
    simp [idxFin, Poll.isFin, this]
    exact ih (fun v hv => h v (by simp [hv]))

theorem iterationLoop_inv {pushs spy G i0 f0 n0 tr} {r : Except MErr (List (Nat × Nat) × Bool × Nat)}
    (h : MRuns (iterationLoop pushs spy G i0 f0 n0) tr r) :
    ∃ k ws1 ws2, tr = pollTrace (ws1 ++ ws2) ∧ Pass pushs spy G k ws1 ws2 ∧
      (∀ f any n, r = .ok (f, any, n) → (∀ w ∈ ws2, w.isOk = true) ∧
        f = f0 ++ (idxFin 0 ws2).map (fun j => (i0 + k, j)) ∧ n = n0 + ws2.countP Poll.isRead ∧
        (any = true → ∃ g, G[k]? = some g ∧ ws2.map Poll.pull = g ∧ ∃ w ∈ ws2, w.isRead = true) ∧
        (any = false → k = G.length ∧ ws2 = [])) ∧
      (∀ e, r = .error e → k < G.length ∧ ∃ ws' w, ws2 = ws' ++ [w] ∧ w.res = .error e ∧ ∀ v ∈ ws', v.isOk = true) := by
  induction G generalizing i0 f0 n0 tr with
  | nil =>
    simp [iterationLoop] at h
    obtain ⟨rfl, rfl⟩ := h
    refine ⟨0, [], [], rfl, ⟨by simp, by simp, by simp, by simp, by simp⟩, ?_, by simp⟩
    intro f any n hr
    simp at hr
    obtain ⟨rfl, rfl, rfl⟩ := hr
    simp [idxFin]
  | cons g G ih =>
    simp only [iterationLoop] at h
    rw [mruns_bind] at h
    rcases h with ⟨e, rfl, h⟩ | ⟨t1, a, t2, rfl, h1, h2⟩
    · obtain ⟨ws, rfl, i1, _, i3⟩ := junctionLoop_inv h (by simp)
      obtain ⟨j1, j2⟩ := i3 e rfl
      refine ⟨0, [], ws, by simp, ⟨by simp, i1, by simp, by simp, by simpa using j1⟩, by simp, ?_⟩
      intro e' he
      simp at he; subst he
      exact ⟨by simp, j2⟩
    · obtain ⟨ws, rfl, i1, i2, _⟩ := junctionLoop_inv h1 (by simp)
      obtain ⟨j1, j2, j3, j4, j5⟩ := i2 a rfl
      simp at j3 j4 j5
      have hlen : ws.length = g.length := by rw [← j1]; simp
      have hle : ws.countP Poll.isRead ≤ ws.length := List.countP_le_length
      split at h2
      · rename_i hlt
        simp at h2
        obtain ⟨rfl, rfl⟩ := h2
        refine ⟨0, [], ws, by simp, ⟨by simp, i1, by simp, by simp, by simp [j1]⟩, ?_, by simp⟩
        intro f any n hr
        simp at hr
        obtain ⟨rfl, rfl, rfl⟩ := hr
        refine ⟨j2, by simp [j3], by simp [j4], ?_, by simp⟩
        intro _
        refine ⟨g, by simp, j1, ?_⟩
        apply Classical.byContradiction
        intro hno
        have : ws.countP Poll.isRead = 0 := by
          rw [List.countP_eq_zero]
          intro w hw hr
          exact hno ⟨w, hw, hr⟩
        omega
      · rename_i hlt
        have hz : ws.countP Poll.isRead = 0 := by omega
        have hskip : ∀ w ∈ ws, w.res = .ok ⟨false, false⟩ :=
          fun w hw => notRead (i1 w hw) (j2 w hw) (countP_isRead_eq_length hz w hw)
        obtain ⟨k, ws1, ws2, rfl, hp, p1, p2⟩ := ih h2
        refine ⟨k + 1, ws ++ ws1, ws2, by simp, ⟨?_, hp.runs2, ?_, ?_, ?_⟩, ?_, ?_⟩
        · intro w hw
          simp at hw
          rcases hw with hw | hw
          · exact i1 w hw
          · exact hp.runs1 w hw
        · simp [j1, hp.before]
        · intro w hw
          simp at hw
          rcases hw with hw | hw
          · exact hskip w hw
          · exact hp.skipped w hw
        · simpa using hp.group
        · intro f any n hr
          obtain ⟨q1, q2, q3, q4, q5⟩ := p1 f any n hr
          refine ⟨q1, ?_, ?_, ?_, ?_⟩
          · rw [q2, j3, idxFin_nil_of_skipped hskip]
            have : i0 + 1 + k = i0 + (k + 1) := by omega
            simp [this]
          · rw [q3, j4, hz]; omega
          · simpa using q4
          · intro ha; have := q5 ha; simp [this]
        · intro e he
          obtain ⟨q1, q2⟩ := p2 e he
          exact ⟨by simpa using q1, q2⟩

/-- What dropping an input looks like. -/
def dropActs : Pull → List Act
  | .receiver _ c => [.close .data c]
  | _ => []

theorem dropPull_runs {p : Pull} {tr} {r : Except MErr Unit} (h : MRuns (dropPull p) tr r) :
    r = .ok () ∧ acts tr = dropActs p := by
  cases p with
  | none => simp [dropPull] at h; simp [h, dropActs]
  | stream => simp [dropPull] at h; simp [h, dropActs]
  | receiver j c =>
    obtain ⟨v, rfl, rfl⟩ := (mruns_ask (q := .close .data c) (r := r)).mp h
    exact ⟨rfl, rfl⟩

theorem dropAll_runs {ps : List Pull} {tr} {r : Except MErr Unit} (h : MRuns (dropAll ps) tr r) :
    r = .ok () ∧ acts tr = ps.flatMap dropActs := by
  induction ps generalizing tr with
  | nil => simp [dropAll] at h; simp [h]
  | cons p ps ih =>
    simp only [dropAll] at h
    rw [mruns_bind] at h
    rcases h with ⟨e, rfl, h⟩ | ⟨t1, a, t2, rfl, h1, h2⟩
    · have := (dropPull_runs h).1; simp at this
    · have := ih h2
      simp [(dropPull_runs h1).2, this]

theorem removeFinished_runs {ws : List Poll} {k : Nat} {kept : List Pull} {stdin : List (List Pull)} {tr}
    {r : Except MErr (List (List Pull))}
    (hk : stdin[k]? = some (ws.map Poll.pull ++ kept))
    (h : MRuns (removeFinished ((idxFin 0 ws).map (fun j => (k, j))).reverse stdin) tr r) :
    r = .ok (stdin.set k ((ws.filter (fun w => !w.isFin)).map Poll.pull ++ kept)) ∧
    acts tr = ((ws.filter Poll.isFin).reverse.map Poll.pull).flatMap dropActs := by
  induction ws using snoc_induction generalizing kept stdin tr with
  | nil =>
    simp [idxFin, removeFinished] at h
    obtain ⟨rfl, rfl⟩ := h
    simp at hk
    simp
    rw [List.getElem?_eq_some_iff] at hk
    obtain ⟨hlt, hk⟩ := hk
    rw [← hk]; simp
  | append_singleton ws w ih =>
    rw [idxFin_snoc] at h
    by_cases hf : w.isFin = true
    · simp only [hf, if_true, List.map_append, List.map_cons, List.map_nil, List.reverse_append, List.reverse_cons,
        List.reverse_nil, List.nil_append, List.singleton_append, Nat.zero_add] at h
      simp only [removeFinished] at h
      rw [hk] at h
      have hidx : ((ws ++ [w]).map Poll.pull ++ kept)[ws.length]? = some w.pull := by simp
      dsimp only at h
      rw [hidx] at h
      dsimp only at h
      have hrem : removeVecVecIndex stdin k ws.length = stdin.set k (ws.map Poll.pull ++ kept) := by
        simp only [removeVecVecIndex, hk]
        rw [if_pos (by simp)]
        congr 1
        simp
        rw [List.eraseIdx_append_of_length_le (by simp)]; simp
      rw [hrem, mruns_bind] at h
      rcases h with ⟨e, rfl, h⟩ | ⟨t1, a, t2, rfl, h1, h2⟩
      · have := (dropPull_runs h).1; simp at this
      · have hlt : k < stdin.length := by
          rw [List.getElem?_eq_some_iff] at hk; exact hk.1
        have := ih (stdin := stdin.set k (ws.map Poll.pull ++ kept)) (kept := kept) (by simp [hlt]) h2
        obtain ⟨rfl, ha⟩ := this
        refine ⟨by simp [hf], ?_⟩
        rw [acts_append, (dropPull_runs h1).2, ha]
        simp [hf]
    · simp only [hf, List.append_nil] at h
      have := ih (kept := w.pull :: kept) (by simpa using hk) (by simpa using h)
      obtain ⟨rfl, ha⟩ := this
      simp [hf, ha]

end Verif

namespace Verif

/-- All outputs are channels (junction.rs:145-149). -/
def AllSenders (pushs : List Push) : Prop := ∀ p ∈ pushs, ∃ j c, p = .sender j c

theorem closeAll_runs {pushs : List Push} {tr} {r : Except MErr Unit} (hs : AllSenders pushs)
    (h : MRuns (closeAll pushs) tr r) : r = .ok () ∧ acts tr = pushs.flatMap (fun p => closeActs p {}) := by
  induction pushs generalizing tr with
  | nil => simp [closeAll] at h; simp [h]
  | cons p ps ih =>
    obtain ⟨j, c, hp⟩ := hs p (by simp)
    simp only [closeAll] at h
    rw [mruns_bind] at h
    rcases h with ⟨e, rfl, h⟩ | ⟨t1, a, t2, rfl, h1, h2⟩
    · rcases motionClose_runs h with ⟨h, _⟩ | ⟨_, _, h, _⟩
      · simp at h
      · rw [hp] at h; simp at h
    · have := ih (fun q hq => hs q (by simp [hq])) h2
      rcases motionClose_runs h1 with ⟨_, h⟩ | ⟨_, _, h, _⟩
      · simp [h, this]
      · rw [hp] at h; simp at h

/-- The groups after a pass: the inputs found finished are gone, and so are empty groups. -/
def nextGroups (G : List (List Pull)) (k : Nat) (ws : List Poll) : List (List Pull) :=
  (G.set k ((ws.filter (fun w => !w.isFin)).map Poll.pull)).filter (fun g => !g.isEmpty)

/-- What happens at the end of a pass. -/
def finActs (ws : List Poll) : List Act := ((ws.filter Poll.isFin).reverse.map Poll.pull).flatMap dropActs

/-- How a round of the junction's loop ends after the polls: with an error, dropping all inputs; going
round again; or with all inputs gone, closing the outputs. -/
def RoundEnd (pushs : List Push) (s : JState) (k : Nat) (ws2 : List Poll) (tail : List Ev)
    (x : JState ⊕ Except MErr Nat) : Prop :=
  (∃ e ws' w, x = .inr (.error e) ∧ ws2 = ws' ++ [w] ∧ w.res = .error e ∧ (∀ v ∈ ws', v.isOk = true) ∧
          acts tail = s.stdin.flatten.flatMap dropActs) ∨
       ((∀ w ∈ ws2, w.isOk = true) ∧
        (((s.stdin[k]? = some (ws2.map Poll.pull)) ∧ ∃ w ∈ ws2, w.isRead = true) ∨ (k = s.stdin.length ∧ ws2 = [])) ∧
        ((∃ s', x = .inl s' ∧ s'.stdin = nextGroups s.stdin k ws2 ∧ s'.stdin ≠ [] ∧
            s'.readCount = s.readCount + ws2.countP Poll.isRead ∧
            ((ws2 = [] ∧ acts tail = [.sleep (s.backOff.count * s.backOff.count)] ∧
                s'.backOff.count = min (s.backOff.count + 1) (max 51 s.backOff.count)) ∨
             (ws2 ≠ [] ∧ acts tail = finActs ws2 ∧ s'.backOff.count = 0))) ∨
         (nextGroups s.stdin k ws2 = [] ∧ x = .inr (.ok (s.readCount + ws2.countP Poll.isRead)) ∧
            acts tail = finActs ws2 ++ pushs.flatMap (fun p => closeActs p {}))))

theorem junctionBody_inv {pushs spy s tr x} (h : (junctionBody pushs spy s).Runs tr x) (hs : AllSenders pushs) :
    ∃ k ws1 ws2 tail, tr = pollTrace (ws1 ++ ws2) ++ tail ∧ Pass pushs spy s.stdin k ws1 ws2 ∧
      RoundEnd pushs s k ws2 tail x := by
  unfold junctionBody at h
  rw [Prog.runs_bind] at h
  obtain ⟨t1, r, t2, rfl, h1, h2⟩ := h
  change MRuns _ t1 r at h1
  unfold iteration at h1
  rw [mruns_bind] at h1
  rcases h1 with ⟨e, rfl, h1⟩ | ⟨t3, ⟨f, any, n⟩, t4, rfl, h1, h3⟩
  · obtain ⟨k, ws1, ws2, rfl, hp, _, p2⟩ := iterationLoop_inv h1
    obtain ⟨_, ws', w, e1, e2, e3⟩ := p2 e rfl
    dsimp only at h2
    rw [Prog.runs_bind] at h2
    obtain ⟨t5, r5, t6, rfl, h5, h6⟩ := h2
    simp at h6
    obtain ⟨rfl, rfl⟩ := h6
    have := (dropAll_runs h5).2
    exact ⟨k, ws1, ws2, t5, by simp, hp, Or.inl ⟨e, ws', w, rfl, e1, e2, e3, this⟩⟩
  · obtain ⟨k, ws1, ws2, rfl, hp, p1, _⟩ := iterationLoop_inv h1
    obtain ⟨q1, q2, q3, q4, q5⟩ := p1 f any n rfl
    simp at q2 q3
    subst q2 q3
    dsimp only at h3
    rw [mruns_bind] at h3
    have key : ∀ {t r'}, MRuns (removeFinished ((idxFin 0 ws2).map (fun j => (k, j))).reverse s.stdin) t r' →
        r' = .ok (s.stdin.set k ((ws2.filter (fun w => !w.isFin)).map Poll.pull)) ∧ acts t = finActs ws2 := by
      intro t r' hr
      cases any with
      | true =>
        obtain ⟨g, hg, hw, _⟩ := q4 rfl
        have := removeFinished_runs (kept := []) (by rw [hg, hw]; simp) hr
        simpa [finActs] using this
      | false =>
        obtain ⟨hk, rfl⟩ := q5 rfl
        simp [idxFin, removeFinished] at hr
        obtain ⟨rfl, rfl⟩ := hr
        subst hk
        simp [finActs, List.set_eq_of_length_le]
    rcases h3 with ⟨e, rfl, h3⟩ | ⟨t5, stdin', t6, rfl, h5, h6⟩
    · have := (key h3).1; simp at this
    · obtain ⟨hst, hact⟩ := key h5
      simp at hst; subst hst
      have hG : removeVecVec (s.stdin.set k ((ws2.filter (fun w => !w.isFin)).map Poll.pull)) = nextGroups s.stdin k ws2 := by
        rw [removeVecVec_eq]; rfl
      rw [hG] at h6
      have hcase : ((s.stdin[k]? = some (ws2.map Poll.pull)) ∧ ∃ w ∈ ws2, w.isRead = true) ∨ (k = s.stdin.length ∧ ws2 = []) := by
        cases any with
        | true => obtain ⟨g, hg, hw, hr⟩ := q4 rfl; left; exact ⟨by rw [hg, hw], hr⟩
        | false => exact Or.inr (q5 rfl)
      split at h6
      · rename_i hnil
        rw [mruns_bind] at h6
        rcases h6 with ⟨e, rfl, h6⟩ | ⟨t7, u, t8, rfl, h7, h8⟩
        · have := (closeAll_runs hs h6).1; simp at this
        · simp at h8
          obtain ⟨rfl, rfl⟩ := h8
          simp at h2
          obtain ⟨rfl, rfl⟩ := h2
          refine ⟨k, ws1, ws2, t5 ++ t7, by simp, hp, Or.inr ⟨q1, hcase, Or.inr ⟨hnil, rfl, ?_⟩⟩⟩
          rw [acts_append, hact, (closeAll_runs hs h7).2]
      · rename_i hnil
        split at h6
        · rename_i hany
          simp at h6
          obtain ⟨rfl, rfl⟩ := h6
          simp at h2
          obtain ⟨rfl, rfl⟩ := h2
          have hne : ws2 ≠ [] := by
            obtain ⟨g, hg, hw, w, hm, _⟩ := q4 hany
            intro h0; simp [h0] at hm
          exact ⟨k, ws1, ws2, t5, by simp, hp, Or.inr ⟨q1, hcase, Or.inl ⟨_, rfl, rfl, hnil, rfl, Or.inr ⟨hne, hact, rfl⟩⟩⟩⟩
        · rename_i hany
          obtain ⟨hk, rfl⟩ := q5 (by simpa using hany)
          have hlift : ∀ {α : Type} (p : Prog α) t (r : Except MErr α), MRuns (ExceptT.lift p) t r →
              ∃ a, r = .ok a ∧ p.Runs t a := by
            intro α p t r hr
            change Prog.Runs (Prog.bind p _) _ _ at hr
            rw [Prog.runs_bind'] at hr
            obtain ⟨u1, a, u2, rfl, hr1, hr2⟩ := hr
            simp at hr2
            obtain ⟨rfl, rfl⟩ := hr2
            exact ⟨a, rfl, by simpa using hr1⟩
          rw [mruns_bind] at h6
          rcases h6 with ⟨e, rfl, h6⟩ | ⟨t7, ⟨b, ret⟩, t8, rfl, h7, h8⟩
          · obtain ⟨_, h0, _⟩ := hlift _ _ _ h6; simp at h0
          · simp at h8
            obtain ⟨rfl, rfl⟩ := h8
            simp at h2
            obtain ⟨rfl, rfl⟩ := h2
            obtain ⟨a, h0, h9⟩ := hlift _ _ _ h7
            simp at h0; subst h0
            unfold BackOff.wait at h9
            rw [Prog.runs_bind] at h9
            obtain ⟨u1, v, u2, rfl, h10, h11⟩ := h9
            rw [Prog.runs_req] at h10
            subst h10
            simp at h11
            obtain ⟨rfl, rfl, _⟩ := h11
            refine ⟨k, ws1, [], _, by simp; rfl, hp, Or.inr ⟨q1, hcase, Or.inl ⟨_, rfl, rfl, hnil, rfl, Or.inl ⟨rfl, ?_, ?_⟩⟩⟩⟩
            · rw [acts_append, hact]; rfl
            · dsimp only
              split <;> (try dsimp only) <;> omega

end Verif
