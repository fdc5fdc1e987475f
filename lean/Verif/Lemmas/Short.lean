import Verif.Lemmas.Progress
/-!
# How much components do
-/
namespace Verif

/-- At most `d` requests on every way through the program. -/
def Prog.Short {α : Type} : Nat → Prog α → Prop
  | _, .ret _ => True
  | 0, .op _ _ => False
  | d + 1, .op _ k => ∀ r, Prog.Short d (k r)

theorem Prog.Short.mono {α : Type} {p : Prog α} {a b : Nat} (h : p.Short a) (hab : a ≤ b) : p.Short b := by
  induction p generalizing a b with
  | ret x => cases b <;> trivial
  | op q k ih =>
    cases a with
    | zero => exact absurd h (by simp [Prog.Short])
    | succ a =>
      cases b with
      | zero => omega
      | succ b => exact fun r => ih r (h r) (by omega)

theorem Prog.Short.bind {α β : Type} {p : Prog α} {f : α → Prog β} {a b : Nat} (hp : p.Short a) (hf : ∀ x, (f x).Short b) :
    (p >>= f).Short (a + b) := by
  show (Prog.bind p f).Short (a + b)
  induction p generalizing a with
  | ret x => exact (hf x).mono (by omega)
  | op q k ih =>
    cases a with
    | zero => exact absurd hp (by simp [Prog.Short])
    | succ a =>
      rw [show a + 1 + b = (a + b) + 1 by omega]
      exact fun r => ih r (hp r)

theorem Prog.short_pure {α : Type} (x : α) (d : Nat) : (pure x : Prog α).Short d := by cases d <;> trivial
theorem Prog.short_req (q : Req) : (req q).Short 1 := fun _ => trivial

theorem Prog.Short.length {α : Type} {p : Prog α} {d : Nat} {t : List Ev} (hp : p.Short d) (h : p.Partial t) : t.length ≤ d := by
  induction p generalizing d t with
  | ret x => rw [Prog.partial_ret] at h; subst h; simp
  | op q k ih =>
    cases t with
    | nil => simp
    | cons e t =>
      obtain ⟨r, _, h⟩ := h
      cases d with
      | zero => exact absurd hp (by simp [Prog.Short])
      | succ d => have := ih r (hp r) h; simp; omega

def MShort {α : Type} (d : Nat) (p : M α) : Prop := Prog.Short d p.run

theorem MShort.bind {α β : Type} {p : M α} {f : α → M β} {a b : Nat} (hp : MShort a p) (hf : ∀ x, MShort b (f x)) : MShort (a + b) (p >>= f) := by
  show Prog.Short _ (Prog.bind p.run (ExceptT.bindCont f))
  apply Prog.Short.bind (p := p.run) hp
  intro x
  cases x with
  | ok x => exact hf x
  | error e => cases b <;> trivial

theorem mshort_pure {α : Type} (x : α) (d : Nat) : MShort d (pure x : M α) := by cases d <;> trivial
theorem mshort_throw {α : Type} (e : MErr) (d : Nat) : MShort d (throw e : M α) := by cases d <;> trivial
theorem mshort_ask (q : Req) : MShort 1 (ask q) := Prog.Short.bind (p := req q) (b := 0) (Prog.short_req q) (fun _ => trivial)
theorem MShort.tryCatch {α : Type} {p : M α} {h : MErr → M α} {a b : Nat} (hp : MShort a p) (hh : ∀ e, MShort b (h e)) :
    MShort (a + b) (tryCatch p h) := by
  show Prog.Short _ (Prog.bind p.run _)
  apply Prog.Short.bind (p := p.run) hp
  intro x
  cases x with
  | ok x => cases b <;> trivial
  | error e => exact hh e
theorem MShort.mono {α : Type} {p : M α} {a b : Nat} (h : MShort a p) (hab : a ≤ b) : MShort b p := Prog.Short.mono h hab

theorem motionRead_short {pull : Pull} {b : Bool} : MShort 1 (motionRead pull b) := by
  cases pull <;> cases b
  · exact mshort_pure _ _
  · exact mshort_throw _ _
  · refine MShort.bind (b := 0) (mshort_ask _) ?_
    intro a; cases a <;> exact mshort_pure _ _
  · refine MShort.bind (b := 0) (mshort_ask _) ?_
    intro a; cases a <;> exact mshort_pure _ _
  · refine MShort.bind (b := 0) (mshort_ask _) ?_
    intro a; cases a <;> first | exact mshort_pure _ _ | exact mshort_throw _ _
  · exact mshort_throw _ _

theorem motionWrite_short {push : Push} {d : Bytes} : MShort 1 (motionWrite push d) := by
  cases push with
  | none => exact mshort_pure _ _
  | sender j c =>
    refine MShort.bind (b := 0) (mshort_ask _) ?_
    intro a; cases a <;> simp <;> first | exact mshort_pure _ _ | exact mshort_throw _ _
  | io j c =>
    refine MShort.bind (b := 0) (mshort_ask _) ?_
    intro a; cases a <;> first | exact mshort_pure _ _ | exact mshort_throw _ _

theorem motionClose_short {push : Push} : MShort 1 (motionClose push) := by
  cases push with
  | none => exact mshort_pure _ _
  | sender j c => exact mshort_ask _
  | io j c =>
    refine MShort.bind (b := 0) (mshort_ask _) ?_
    intro a; cases a <;> simp <;> first | exact mshort_pure _ _ | exact mshort_throw _ _

theorem writeOne_short {x : IOW} {push : Push} {n : Nat} : MShort 1 (writeOne x push n) := by
  cases x with
  | finished => exact mshort_pure _ _
  | skipped => exact mshort_pure _ _
  | data d =>
    simp only [writeOne]
    split
    · exact MShort.bind (b := 0) motionWrite_short fun _ => mshort_pure _ _
    · refine MShort.tryCatch (b := 0) (MShort.bind (b := 0) motionWrite_short fun _ => mshort_pure _ _) ?_
      intro e; cases e <;> first | exact mshort_pure _ _ | exact mshort_throw _ _

theorem spyOne_short {x : IOW} {spy : Option Nat} {push : Push} : MShort 1 (spyOne spy x push) := by
  unfold spyOne
  split
  · refine MShort.bind (b := 0) (mshort_ask _) ?_
    intro a; cases a <;> simp <;> first | exact mshort_pure _ _ | exact mshort_throw _ _
  · exact mshort_pure _ _

theorem pushAll_short {x : IOW} {spy : Option Nat} {pushs : List Push} {n : Nat} : MShort (2 * pushs.length) (pushAll x spy pushs n) := by
  induction pushs generalizing n with
  | nil => exact mshort_pure _ _
  | cons p ps ih =>
    exact MShort.mono (MShort.bind writeOne_short fun _ => MShort.bind spyOne_short fun _ => ih) (by simp; omega)

theorem notifyRead_short {mon : Notifications} {pull : Pull} : MShort 1 (notifyRead mon pull) := by
  unfold notifyRead
  split
  · refine MShort.bind (b := 0) (mshort_ask _) ?_
    intro a; cases a <;> simp
    · split <;> exact mshort_throw _ _
    · exact mshort_pure _ _
  · exact mshort_pure _ _

theorem notifyWritten_short {mon : Notifications} {pull : Pull} : MShort 1 (notifyWritten mon pull) := by
  unfold notifyWritten
  split
  · refine MShort.bind (b := 0) (mshort_ask _) ?_
    intro a; cases a <;> simp
    · split <;> exact mshort_throw _ _
    · exact mshort_pure _ _
  · exact mshort_pure _ _

theorem worker_short {pull mon pushs spy b} : MShort (3 + 2 * List.length pushs) (motionWorker pull mon pushs spy b) := by
  unfold motionWorker
  refine MShort.mono (a := 1 + (2 + 2 * pushs.length)) (MShort.bind motionRead_short fun x => ?_) (by omega)
  split
  · exact mshort_pure _ _
  · refine MShort.mono (a := 1 + (2 * pushs.length + (1 + 0))) (MShort.bind notifyRead_short fun _ => MShort.bind pushAll_short fun n =>
      MShort.bind notifyWritten_short fun _ => ?_) (by omega)
    split <;> exact mshort_pure _ _

theorem closeMon_short {m : Option Nat} : MShort 1 (closeMon m) := by
  cases m with
  | none => exact mshort_pure _ _
  | some c => exact mshort_ask _

theorem motionBody_short {pull mon spy push n} : (motionBody pull mon spy push n).Short 8 := by
  unfold motionBody
  refine Prog.Short.bind (a := 8) (b := 0) (p := ExceptT.run _) ?_ ?_
  · refine MShort.bind (a := 5) (b := 3) (worker_short (pushs := [push])) fun r => ?_
    dsimp only
    by_cases hf : r.finished = true <;> simp only [hf, if_true, if_false, Bool.false_eq_true]
    · refine MShort.bind (a := 1) (b := 2) ?_ fun _ => MShort.bind (a := 1) (b := 1) closeMon_short fun _ =>
        MShort.bind (a := 1) (b := 0) closeMon_short fun _ => mshort_pure _ _
      exact MShort.bind (a := 1) (b := 0) motionClose_short fun _ => mshort_pure _ _
    · exact mshort_pure _ _
  · intro a
    rcases a with e | (m | m) <;> trivial

theorem controlPoint_short {ctl : Option Nat} : (controlPoint ctl).Short 2 := by
  cases ctl with
  | none => exact trivial
  | some c =>
    refine Prog.Short.bind (a := 1) (b := 1) (Prog.short_req _) ?_
    intro a
    cases a
    · exact Prog.Short.bind (a := 1) (b := 0) (Prog.short_req _) fun _ => trivial
    · exact trivial
    · exact trivial

theorem closeControl_short {ctl : Option Nat} : (closeControl ctl).Short 1 := by
  cases ctl with
  | none => exact trivial
  | some c => exact Prog.short_req _

theorem regulatorBody_short {pull push spy ctl n} : (regulatorBody pull push spy ctl n).Short 7 := by
  unfold regulatorBody
  refine Prog.Short.bind (a := 5) (b := 2) (p := ExceptT.run _) (worker_short (pushs := [push])) ?_
  intro a
  rcases a with e | res
  · cases e with
    | outputClosed j why d =>
      dsimp only
      split
      · exact trivial
      · split
        · exact trivial
        · exact Prog.Short.bind (b := 0) controlPoint_short fun _ => trivial
    | _ => exact trivial
  · dsimp only
    split
    · exact Prog.Short.bind (b := 1) closeControl_short fun _ => Prog.short_pure _ _
    · exact Prog.Short.bind (b := 0) controlPoint_short fun _ => trivial

theorem busy_le (tr : List Ev) : busy tr ≤ tr.length := by
  unfold busy
  have := List.countP_le_length (p := fun a => !Act.idles a) (l := acts tr)
  simpa [acts] using this

theorem busy_append (a b : List Ev) : busy (a ++ b) = busy a + busy b := by simp [busy]

/-- A loop each of whose rounds is short and receives something. -/
theorem rounds_short {σ ρ : Type} {body : σ → Prog (σ ⊕ ρ)} {d : Nat} (hd : ∀ s, (body s).Short d)
    (hr : ∀ s s' t, (body s).Runs t (.inl s') → 1 ≤ (received t).length) {s t s'} (h : LoopRounds body s t s') :
    t.length ≤ d * (received t).length := by
  induction h with
  | nil => simp
  | @next a b c t t' hb _ ih =>
    have h1 := (hd a).length (Prog.runs_partial hb)
    have h2 := hr _ _ _ hb
    rw [List.length_append, received_append, List.length_append, Nat.mul_add]
    have := Nat.mul_le_mul_left d h2
    omega

theorem task_short {t : Task} {d : Nat} (hd : ∀ s, (t.body s).Short d)
    (hr : ∀ s s' u, (t.body s).Runs u (.inl s') → 1 ≤ (received u).length) {tr : List Ev} (h : t.Partial tr) :
    tr.length ≤ (d + t.drops.length) * ((received tr).length + 1) := by
  have lp : ∀ {tr}, LoopPartial t.body t.init tr → tr.length ≤ d * ((received tr).length + 1) := by
    rintro tr ⟨s', t1, t2, h1, h2, rfl⟩
    have e1 := rounds_short hd hr h1
    have e2 := (hd s').length h2
    rw [List.length_append, received_append, List.length_append]
    have : d * (received t1).length + d ≤ d * ((received t1).length + (received t2).length + 1) := by
      rw [← Nat.mul_succ]; exact Nat.mul_le_mul_left d (by omega)
    omega
  rcases h with h | ⟨r, t1, t2, h, hp, rfl⟩
  · exact Nat.le_trans (lp h) (Nat.mul_le_mul_right _ (by omega))
  · have e1 := lp (LoopRuns.toPartial h)
    have e2 : t2.length ≤ t.drops.length := by have := hp.length_le; simpa [dropEvs] using this
    rw [List.length_append, received_append, List.length_append, Nat.add_mul]
    have e3 : d * ((received t1).length + 1) ≤ d * ((received t1).length + (received t2).length + 1) := Nat.mul_le_mul_left d (by omega)
    have e4 : t.drops.length ≤ t.drops.length * ((received t1).length + (received t2).length + 1) := Nat.le_mul_of_pos_right _ (by omega)
    omega

theorem worker_receives {pull mon push spy t res} (h : MRuns (motionWorker pull mon [push] spy false) t (.ok res)) (hp : pull ≠ .none)
    (hf : res.finished = false) : 1 ≤ (received t).length := by
  rcases motionWorker_inv h with ⟨e, h0, _⟩ | ⟨h0, _⟩ | ⟨x, t1, t2, rfl, _, h0, h2⟩
  · simp at h0
  · obtain ⟨e, _, _, _, _, _, h1⟩ := read_one h0 hp
    rcases h1 with ⟨_, _, h1, _⟩ | ⟨h1, _⟩ <;> simp at h1
  · obtain ⟨e, _, _, _, _, _, h1⟩ := read_one h0 hp
    rcases h1 with ⟨d, s, _, h1, _⟩ | ⟨rfl, _⟩
    · simp [h1]
    · exfalso
      rcases h2 with ⟨e, h, _⟩ | ⟨_, _, _, _, ⟨e, h, _⟩ | ⟨_, _, _, _, _, ⟨e, h, _⟩ | ⟨_, h⟩⟩⟩
      · simp at h
      · simp at h
      · simp at h
      · simp at h; rw [h] at hf; simp at hf

/-! ## Junctions -/

theorem flatten_set_length {G : List (List Pull)} {k : Nat} {g x : List Pull} (h : G[k]? = some g) :
    (G.set k x).flatten.length + g.length = G.flatten.length + x.length := by
  induction G generalizing k with
  | nil => simp at h
  | cons a G ih =>
    cases k with
    | zero => simp at h; subst h; simp; omega
    | succ k =>
      have := ih (by simpa using h)
      simp only [List.set_cons_succ, List.flatten_cons, List.length_append]
      omega

theorem filter_split {ws : List Poll} : (ws.filter (fun w => !w.isFin)).length + (ws.filter Poll.isFin).length = ws.length := by
  induction ws with
  | nil => rfl
  | cons w ws ih => cases h : w.isFin <;> simp [h] <;> omega

theorem nextGroups_length {G : List (List Pull)} {k : Nat} {ws : List Poll} (h : G[k]? = some (ws.map Poll.pull)) :
    (nextGroups G k ws).flatten.length + (ws.filter Poll.isFin).length = G.flatten.length := by
  have h1 : (nextGroups G k ws).flatten.length = (G.set k ((ws.filter (fun w => !w.isFin)).map Poll.pull)).flatten.length := by
    rw [show nextGroups G k ws = nonEmpty (G.set k ((ws.filter (fun w => !w.isFin)).map Poll.pull)) from rfl, flatten_nonEmpty]
  have h2 := flatten_set_length (x := (ws.filter (fun w => !w.isFin)).map Poll.pull) h
  have h3 := filter_split (ws := ws)
  simp only [List.length_map] at h2
  omega

theorem nextGroups_same (G : List (List Pull)) : (nextGroups G G.length []).flatten.length = G.flatten.length := by
  rw [show nextGroups G G.length [] = nonEmpty (G.set G.length []) from rfl, flatten_nonEmpty, List.set_eq_of_length_le (Nat.le_refl _)]

theorem take_flatten_length {G : List (List Pull)} {k : Nat} : (G.take k).flatten.length + ((G[k]?).getD []).length ≤ G.flatten.length := by
  induction G generalizing k with
  | nil => simp
  | cons g G ih =>
    cases k with
    | zero => simp
    | succ k => have := ih (k := k); simp only [List.take_succ_cons, List.flatten_cons, List.length_append, List.getElem?_cons_succ]; omega

theorem pass_length {pushs spy G k ws1 ws2} (hp : Pass pushs spy G k ws1 ws2) : (ws1 ++ ws2).length ≤ G.flatten.length := by
  have h1 := congrArg List.length hp.before
  have h2 := hp.group.length_le
  have h3 := take_flatten_length (G := G) (k := k)
  simp only [List.length_map] at h1 h2
  rw [List.length_append]
  omega

theorem pollTrace_length {pushs spy} {ws : List Poll} (h : ∀ w ∈ ws, PollRun pushs spy w) :
    (pollTrace ws).length ≤ ws.length * (3 + 2 * pushs.length) := by
  induction ws with
  | nil => simp
  | cons w ws ih =>
    have h1 := ih fun v hv => h v (by simp [hv])
    have h2 := Prog.Short.length (worker_short (pushs := pushs)) (Prog.runs_partial (show Prog.Runs _ w.tr w.res from h w (by simp)))
    simp only [pollTrace_cons, List.length_append, List.length_cons, Nat.add_mul]
    omega

theorem drops_length (ps : List Pull) : (ps.flatMap dropActs).length ≤ ps.length := by
  induction ps with
  | nil => simp
  | cons p ps ih =>
    have : (dropActs p).length ≤ 1 := by cases p <;> simp [dropActs]
    simp only [List.flatMap_cons, List.length_append, List.length_cons]; omega

theorem finActs_length (ws : List Poll) : (finActs ws).length ≤ ws.length := by
  unfold finActs
  refine Nat.le_trans (drops_length _) ?_
  simp [List.length_filter_le]

theorem closes_length (pushs : List Push) : (pushs.flatMap fun p => closeActs p {}).length ≤ pushs.length := by
  induction pushs with
  | nil => simp
  | cons p ps ih =>
    have : (closeActs p {}).length ≤ 1 := by cases p <;> simp [closeActs]
    simp only [List.flatMap_cons, List.length_append, List.length_cons]; omega

/-- A bound for one round of a junction with `m` inputs and `p` outputs. -/
def roundMax (m p : Nat) : Nat := m * (3 + 2 * p) + m + p + 1

theorem junctionBody_length {pushs spy s tr} (hs : AllSenders pushs) (h : (junctionBody pushs spy s).Partial tr) :
    tr.length ≤ roundMax s.stdin.flatten.length pushs.length := by
  obtain ⟨t3, x, hrun⟩ := h.extend
  obtain ⟨k, ws1, ws2, tail, htr, hp, hend⟩ := junctionBody_inv hrun hs
  have h1 := pass_length hp
  have h2 := pollTrace_length (pass_runs hp)
  have h3 : (pollTrace (ws1 ++ ws2)).length ≤ s.stdin.flatten.length * (3 + 2 * pushs.length) := Nat.le_trans h2 (Nat.mul_le_mul_right _ h1)
  have h4 := congrArg List.length htr
  rw [List.length_append, List.length_append] at h4
  have h5 : tail.length = (acts tail).length := by simp [acts]
  have h6 := finActs_length ws2
  have h7 := closes_length pushs
  rw [List.length_append] at h1
  unfold roundMax
  rcases hend with ⟨_, _, _, _, _, _, _, hx⟩ | ⟨_, _, ⟨_, _, _, _, _, ⟨_, hx, _⟩ | ⟨_, hx, _⟩⟩ | ⟨_, _, hx⟩⟩
  · have := drops_length s.stdin.flatten; rw [hx] at h5; omega
  · rw [hx] at h5; simp at h5; omega
  · rw [hx] at h5; omega
  · rw [hx, List.length_append] at h5; omega

theorem received_le_pollTrace {ws : List Poll} {w : Poll} (h : w ∈ ws) : (received w.tr).length ≤ (received (pollTrace ws)).length := by
  obtain ⟨a, b, hab⟩ := split_pollTrace h
  rw [hab]; simp; omega

theorem junction_round_busy {pushs spy s tr s'} (hs : AllSenders pushs) (h : (junctionBody pushs spy s).Runs tr (.inl s')) :
    s'.stdin.flatten.length ≤ s.stdin.flatten.length ∧
    (busy tr = 0 ∨ s.stdin.flatten.length + 1 ≤ (received tr).length + s.stdin.flatten.length + (s.stdin.flatten.length - s'.stdin.flatten.length)) := by
  obtain ⟨k, ws1, ws2, tail, rfl, hp, hend⟩ := junctionBody_inv h hs
  rcases hend with ⟨_, _, _, h0, _⟩ | ⟨hok, hk, ⟨b, hb, hn, _, _, hx⟩ | ⟨_, h0, _⟩⟩
  · simp at h0
  · simp at hb; subst hb
    rcases hk with ⟨hk, w, hw, hread⟩ | ⟨rfl, rfl⟩
    · have h1 := nextGroups_length hk
      rw [← hn] at h1
      refine ⟨by omega, Or.inr ?_⟩
      have hwr := hp.runs2 w hw
      rcases poll_shape hwr with ⟨_, _, _, h0⟩ | ⟨_, d, rest, _, h0, _⟩ | ⟨_, rest, _, _, _, h0⟩ | ⟨_, h0⟩
      · simp [Poll.isRead, h0] at hread
      · have : 1 ≤ (received w.tr).length := by simp [received, h0]
        have h2 := received_le_pollTrace (ws := ws1 ++ ws2) (List.mem_append_right _ hw)
        rw [received_append, List.length_append]
        omega
      · have hfin : w.isFin = true := by simp [Poll.isFin, h0 (hok w hw)]
        have : 1 ≤ (ws2.filter Poll.isFin).length := List.length_pos_of_mem (List.mem_filter.mpr ⟨hw, hfin⟩)
        omega
      · rw [hok w hw] at h0; simp at h0
    · refine ⟨by rw [hn, nextGroups_same]; omega, Or.inl ?_⟩
      rcases hx with ⟨_, hx, _⟩ | ⟨h0, _⟩
      · rw [busy_append, List.append_nil]
        have e1 : busy tail = 0 := by simp [busy, hx, Act.idles]
        have e2 : busy (pollTrace ws1) = 0 := by
          unfold busy
          rw [List.countP_eq_zero]
          intro a ha
          obtain ⟨w, hw, hwa⟩ := mem_acts_pollTrace ha
          rcases poll_shape (hp.runs1 w hw) with ⟨_, _, h0, _⟩ | ⟨_, _, _, _, _, _, h0⟩ | ⟨_, _, _, _, _, h0⟩ | ⟨_, h0⟩
          · rw [h0] at hwa; simp at hwa; subst hwa; simp [Act.idles]
          · have := h0 (by simp [Poll.isOk, hp.skipped w hw]); simp [Poll.isRead, hp.skipped w hw] at this
          · have := h0 (by simp [Poll.isOk, hp.skipped w hw]); rw [hp.skipped w hw] at this; simp at this
          · simp [Poll.isOk, hp.skipped w hw] at h0
        omega
      · exact absurd rfl h0
  · simp at h0

theorem roundMax_mono {m m' p : Nat} (h : m ≤ m') : roundMax m p ≤ roundMax m' p := by
  unfold roundMax
  have := Nat.mul_le_mul_right (3 + 2 * p) h
  omega

theorem junction_rounds_busy {pushs spy s tr s'} (hs : AllSenders pushs) (h : LoopRounds (junctionBody pushs spy) s tr s') (m : Nat)
    (hm : s.stdin.flatten.length ≤ m) : s'.stdin.flatten.length ≤ s.stdin.flatten.length ∧
    busy tr ≤ roundMax m pushs.length * ((received tr).length + (s.stdin.flatten.length - s'.stdin.flatten.length)) := by
  induction h with
  | nil => simp [busy]
  | @next a b c t t' hb _ ih =>
    obtain ⟨h1, h2⟩ := junction_round_busy hs hb
    obtain ⟨i1, i2⟩ := ih (by omega)
    refine ⟨by omega, ?_⟩
    rw [busy_append, received_append, List.length_append]
    have e : (received t).length + (received t').length + (a.stdin.flatten.length - c.stdin.flatten.length) =
        ((received t).length + (a.stdin.flatten.length - b.stdin.flatten.length)) +
        ((received t').length + (b.stdin.flatten.length - c.stdin.flatten.length)) := by omega
    rw [e, Nat.mul_add]
    refine Nat.add_le_add ?_ i2
    rcases h2 with h2 | h2
    · rw [h2]; exact Nat.zero_le _
    · have h3 := Nat.le_trans (busy_le t) (junctionBody_length hs (Prog.runs_partial hb))
      have h4 := roundMax_mono (p := pushs.length) hm
      have h5 : 1 ≤ (received t).length + (a.stdin.flatten.length - b.stdin.flatten.length) := by omega
      have := Nat.mul_le_mul_left (roundMax m pushs.length) h5
      omega

/-- What a component does, other than looking at empty inputs and sleeping, is bounded by what it receives. -/
theorem node_busy {n : Node} (hok : n.Ok) : ∃ K, ∀ tr, n.task.Partial tr → busy tr ≤ K * ((received tr).length + 1) ∧
    ((∀ inputs pushs spy, n ≠ .junction inputs pushs spy) → tr.length ≤ K * ((received tr).length + 1)) := by
  cases n with
  | relay pull mon spy push =>
    refine ⟨8 + (relayTask pull mon spy push).drops.length, fun tr h => ?_⟩
    have := task_short (t := relayTask pull mon spy push) (d := 8) (fun s => motionBody_short) (by
      intro s s' u hu
      rcases motionBody_inv hu with ⟨e, h0, _⟩ | ⟨res, t1, t2, rfl, h1, ⟨hf, rfl, _⟩ | ⟨_, ⟨_, h0⟩ | ⟨_, _, _, h0, _⟩⟩⟩
      · simp at h0
      · rw [List.append_nil]; exact worker_receives h1 hok.2.1 hf
      · simp at h0
      · simp at h0) h
    exact ⟨Nat.le_trans (busy_le tr) this, fun _ => this⟩
  | regulator pull push spy ctl =>
    refine ⟨7 + (regulatorTask pull push spy ctl).drops.length, fun tr h => ?_⟩
    have := task_short (t := regulatorTask pull push spy ctl) (d := 7) (fun s => regulatorBody_short) (by
      intro s s' u hu
      obtain ⟨r, t1, t2, rfl, h1, h2⟩ := regulatorBody_inv hu
      rcases h2 with ⟨res, rfl, _, _, h0⟩ | ⟨res, rfl, hf, _⟩ | ⟨e, _, _, h0⟩
      · simp at h0
      · have := worker_receives h1 hok.2 hf
        rw [received_append, List.length_append]; omega
      · simp at h0) h
    exact ⟨Nat.le_trans (busy_le tr) this, fun _ => this⟩
  | junction inputs pushs spy =>
    obtain ⟨_, _, _, hs, _⟩ := hok
    refine ⟨roundMax (initializeStdin inputs).flatten.length pushs.length * ((initializeStdin inputs).flatten.length + 1), fun tr h =>
      ⟨?_, fun hn => absurd rfl (hn _ _ _)⟩⟩
    obtain ⟨s, t1, t2, h1, h2, rfl⟩ := junctionTask_partial h
    obtain ⟨i1, i2⟩ := junction_rounds_busy hs h1 (initializeStdin inputs).flatten.length (Nat.le_refl _)
    have i3 := Nat.le_trans (busy_le t2) (Nat.le_trans (junctionBody_length hs h2) (roundMax_mono i1))
    change s.stdin.flatten.length ≤ (initializeStdin inputs).flatten.length at i1
    change busy t1 ≤ roundMax _ _ * (_ + ((initializeStdin inputs).flatten.length - _)) at i2
    change busy t2 ≤ roundMax (initializeStdin inputs).flatten.length _ at i3
    rw [busy_append, received_append, List.length_append, Nat.mul_assoc]
    generalize hM : roundMax (initializeStdin inputs).flatten.length pushs.length = M at i2 i3 ⊢
    generalize (initializeStdin inputs).flatten.length = m at i2 ⊢
    have h4 : (received t1).length + (m - s.stdin.flatten.length) + 1 ≤ (m + 1) * ((received t1).length + (received t2).length + 1) := by
      rw [Nat.add_mul, Nat.mul_add, Nat.mul_add, Nat.one_mul, Nat.mul_one]
      omega
    have := Nat.mul_le_mul_left M h4
    rw [Nat.mul_add, Nat.mul_one] at this
    omega

end Verif
