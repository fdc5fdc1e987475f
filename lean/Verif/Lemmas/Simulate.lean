import Verif.Lemmas.Drive
import Verif.Lemmas.Progress
import Verif.Spec.Network
/-!
# Long concrete executions

A simulator that polls activities in order, each running until it cannot go on, with a proof that what it does is an execution polled as in the code. Only used to show
witnesses.
-/
namespace Verif

/-- The program `p` becomes `p'` by going through the events. -/
def Prog.Reaches {α : Type} : Prog α → List Ev → Prog α → Prop
  | p, [], p' => p = p'
  | .ret _, _ :: _, _ => False
  | .op q k, e :: tr, p' => ∃ r, e = ⟨q, r⟩ ∧ Prog.Reaches (k r) tr p'

theorem Prog.reaches_nil {α : Type} {p p' : Prog α} : p.Reaches [] p' ↔ p = p' := by
  cases p <;> simp [Prog.Reaches]

theorem Prog.Reaches.awaits {α : Type} {p : Prog α} {t : List Ev} {q : Req} {k : q.Resp → Prog α} (h : p.Reaches t (.op q k)) : p.Awaits t q := by
  induction p generalizing t with
  | ret a => cases t with
    | nil => simp [Prog.Reaches] at h
    | cons e t => exact absurd h (by simp [Prog.Reaches])
  | op q' k' ih => cases t with
    | nil => rw [Prog.reaches_nil] at h; cases h; rfl
    | cons e t => obtain ⟨r, rfl, h⟩ := h; exact ⟨r, rfl, ih r h⟩

theorem Prog.Reaches.runs {α : Type} {p : Prog α} {t : List Ev} {a : α} (h : p.Reaches t (.ret a)) : p.Runs t a := by
  induction p generalizing t with
  | ret b => cases t with
    | nil => rw [Prog.reaches_nil] at h; cases h; exact ⟨rfl, rfl⟩
    | cons e t => exact absurd h (by simp [Prog.Reaches])
  | op q' k' ih => cases t with
    | nil => simp [Prog.Reaches] at h
    | cons e t => obtain ⟨r, rfl, h⟩ := h; exact ⟨r, t, rfl, ih r h⟩

theorem Prog.Reaches.step {α : Type} {p : Prog α} {t : List Ev} {q : Req} {k : q.Resp → Prog α} (h : p.Reaches t (.op q k)) (r : q.Resp) :
    p.Reaches (t ++ [⟨q, r⟩]) (k r) := by
  induction p generalizing t with
  | ret b => cases t with
    | nil => simp [Prog.Reaches] at h
    | cons e t => exact absurd h (by simp [Prog.Reaches])
  | op q' k' ih => cases t with
    | nil => rw [Prog.reaches_nil] at h; cases h; exact ⟨r, rfl, Prog.reaches_nil.mpr rfl⟩
    | cons e t => obtain ⟨r', rfl, h⟩ := h; exact ⟨r', rfl, ih r' h⟩

/-- What is left of a task: of its current round, or of the ends to drop. -/
inductive Rest (t : Task) where
  | now (p : Prog (t.σ ⊕ t.ρ))
  | dropping (l : List (Kind × Nat))

/-- Begin the next round, or the dropping. -/
def Rest.settle (t : Task) : Nat → Prog (t.σ ⊕ t.ρ) → Rest t
  | f + 1, .ret (.inl s) => Rest.settle t f (t.body s)
  | _, .ret (.inr _) => .dropping t.drops
  | _, p => .now p

/-- This is left of the task after the events. -/
def Rest.After (t : Task) (tr : List Ev) : Rest t → Prop
  | .now p => ∃ s t1 t2, LoopRounds t.body t.init t1 s ∧ (t.body s).Reaches t2 p ∧ tr = t1 ++ t2
  | .dropping l => ∃ r t1 d, LoopRuns t.body t.init t1 r ∧ t.drops = d ++ l ∧ tr = t1 ++ dropEvs d

theorem Rest.settle_after {t : Task} {f : Nat} {p : Prog (t.σ ⊕ t.ρ)} {tr : List Ev} (h : (Rest.now p).After t tr) : (Rest.settle t f p).After t tr := by
  induction f generalizing p with
  | zero =>
    unfold Rest.settle
    split
    · rename_i hf; simp at hf
    · obtain ⟨s, t1, t2, h1, h2, rfl⟩ := h
      exact ⟨_, t1 ++ t2, [], h1.stop h2.runs, by simp, by simp [dropEvs]⟩
    · exact h
  | succ f ih =>
    unfold Rest.settle
    split
    · rename_i hf
      cases hf
      obtain ⟨s, t1, t2, h1, h2, rfl⟩ := h
      refine ih ⟨_, t1 ++ t2, [], h1.snoc h2.runs, Prog.reaches_nil.mpr rfl, by simp⟩
    · obtain ⟨s, t1, t2, h1, h2, rfl⟩ := h
      exact ⟨_, t1 ++ t2, [], h1.stop h2.runs, by simp, by simp [dropEvs]⟩
    · exact h

theorem Rest.After.partial {t : Task} {tr : List Ev} {x : Rest t} (h : x.After t tr) : t.Partial tr := by
  cases x with
  | now p =>
    obtain ⟨s, t1, t2, h1, h2, rfl⟩ := h
    cases p with
    | ret a => exact Or.inl ⟨s, t1, t2, h1, Prog.runs_partial h2.runs, rfl⟩
    | op q k => exact Or.inl ⟨s, t1, t2, h1, h2.awaits.partial, rfl⟩
  | dropping l =>
    obtain ⟨r, t1, d, h1, h2, rfl⟩ := h
    refine Or.inr ⟨r, t1, _, h1, ?_, rfl⟩
    rw [h2]; simp [dropEvs]

theorem Rest.After.awaits {t : Task} {tr : List Ev} {q : Req} {k : q.Resp → Prog (t.σ ⊕ t.ρ)} (h : (Rest.now (.op q k)).After t tr) : t.Awaits tr q := by
  obtain ⟨s, t1, t2, h1, h2, rfl⟩ := h
  exact ⟨s, t1, t2, h1, h2.awaits, rfl⟩

theorem Rest.After.done {t : Task} {tr : List Ev} (h : (Rest.dropping []).After t tr) : t.Done tr := by
  obtain ⟨r, t1, d, h1, h2, rfl⟩ := h
  rw [List.append_nil] at h2
  exact ⟨r, t1, h1, by rw [h2]⟩

theorem Rest.start_after (t : Task) : (Rest.now (t.body t.init)).After t [] := ⟨t.init, [], [], .nil, Prog.reaches_nil.mpr rfl, rfl⟩

/-- Takes time. -/
def Req.timely : Req → Bool
  | .sleep _ => true
  | .streamRead _ => true
  | .ioWrite _ _ => true
  | .ioFlush _ => true
  | .status => true
  | _ => false

/-- Run until it cannot go on; the budget is how many requests that take time are answered. Streams give empty lines. -/
def pollOne (cap : Caps) (t : Task) : Nat → Nat → Rest t → Store → Option (Rest t × Store)
  | 0, _, _, _ => none
  | _ + 1, _, .dropping [], st => some (.dropping [], st)
  | f + 1, b, .dropping (x :: l), st => match exec cap st ⟨.close x.1 x.2, ()⟩ with
    | some st' => pollOne cap t f b (.dropping l) st'
    | none => none
  | _ + 1, _, .now (.ret _), _ => none
  | f + 1, b, .now (.op q k), st =>
    if q.timely && b == 0 then some (.now (.op q k), st)
    else match answer cap st (fun _ => [[10]]) (fun _ => 0) .err q with
      | some r => match exec cap st ⟨q, r⟩ with
        | some st' => if (act ⟨q, r⟩).fails then none else pollOne cap t f (if q.timely then b - 1 else b) (Rest.settle t 1 (k r)) st'
        | none => none
      | none => if mayWait cap st q then some (.now (.op q k), st) else none

section
variable {ι : Type} [DecidableEq ι]

theorem proj_same {i : ι} {τ : List (ι × Ev)} {e : Ev} : proj i (τ ++ [(i, e)]) = proj i τ ++ [e] := by simp [proj]

theorem pollOne_sound {cap : Caps} {t : Task} {f b : Nat} {x x' : Rest t} {st st' : Store} {acts : List (ι × Task)} {k : Nat} {i : ι} {τ : List (ι × Ev)}
    (hx : x.After t (proj i τ)) (hst : execAll cap Store.init (τ.map Prod.snd) = some st) (hP : Polled cap acts τ k) (ha : acts[k]? = some (i, t))
    (h : pollOne cap t f b x st = some (x', st')) :
    ∃ τ', (∀ y ∈ τ', y.1 = i ∧ (act y.2).fails = false) ∧ x'.After t (proj i (τ ++ τ')) ∧ execAll cap Store.init ((τ ++ τ').map Prod.snd) = some st' ∧ Polled cap acts (τ ++ τ') k ∧
      Blocked cap t i (τ ++ τ') := by
  induction f generalizing b x st τ with
  | zero => simp [pollOne] at h
  | succ f ih =>
    have grow : ∀ {e : Ev} {st1 : Store} {b' : Nat} {x1 : Rest t}, exec cap st e = some st1 → (act e).fails = false → x1.After t (proj i τ ++ [e]) → pollOne cap t f b' x1 st1 = some (x', st') →
        ∃ τ', (∀ y ∈ τ', y.1 = i ∧ (act y.2).fails = false) ∧ x'.After t (proj i (τ ++ τ')) ∧ execAll cap Store.init ((τ ++ τ').map Prod.snd) = some st' ∧ Polled cap acts (τ ++ τ') k ∧
          Blocked cap t i (τ ++ τ') := by
      intro e st1 b' x1 he hfe hx1 h1
      obtain ⟨τ', g1, g2, g3, g4, g5⟩ := ih (τ := τ ++ [(i, e)]) (by rw [proj_same]; exact hx1)
        (by rw [List.map_append, execAll_append, hst]; simp [execAll, he]) (.act hP ha) h1
      rw [List.append_assoc] at g2 g3 g4 g5
      refine ⟨[(i, e)] ++ τ', ?_, g2, g3, g4, g5⟩
      intro y hy
      rcases List.mem_append.mp hy with hy | hy
      · rw [List.mem_singleton.mp hy]; exact ⟨rfl, hfe⟩
      · exact g1 y hy
    match x, hx, h with
    | .dropping [], hx, h =>
      simp only [pollOne, Option.some.injEq, Prod.mk.injEq] at h
      obtain ⟨rfl, rfl⟩ := h
      exact ⟨[], by simp, by simpa using hx, by simpa using hst, by simpa using hP, Or.inl (by simpa using hx.done)⟩
    | .dropping (y :: l), hx, h =>
      simp only [pollOne] at h
      split at h
      · rename_i st1 he
        refine grow he rfl ?_ h
        obtain ⟨r, t1, d, h1, h2, h3⟩ := hx
        exact ⟨r, t1, d ++ [y], h1, by simp [h2], by rw [h3]; simp [dropEvs]⟩
      · simp at h
    | .now (.ret a), hx, h => simp [pollOne] at h
    | .now (.op q c), hx, h =>
      simp only [pollOne] at h
      split at h
      · rename_i hq
        simp only [Option.some.injEq, Prod.mk.injEq] at h
        obtain ⟨rfl, rfl⟩ := h
        refine ⟨[], by simp, by simpa using hx, by simpa using hst, by simpa using hP, Or.inr ⟨q, st, by simpa using hx.awaits, by simpa using hst, ?_⟩⟩
        simp at hq
        cases q <;> simp [Req.timely] at hq <;> simp only [MayWait]
      · split at h
        · rename_i r hr
          split at h
          · rename_i st1 he
            split at h
            · simp at h
            rename_i hfe
            refine grow he (by simpa using hfe) (Rest.settle_after ?_) h
            obtain ⟨s, t1, t2, h1, h2, h3⟩ := hx
            exact ⟨s, t1, t2 ++ [⟨q, r⟩], h1, h2.step r, by rw [h3]; simp⟩
          · simp at h
        · split at h
          · rename_i hw
            simp only [Option.some.injEq, Prod.mk.injEq] at h
            obtain ⟨rfl, rfl⟩ := h
            exact ⟨[], by simp, by simpa using hx, by simpa using hst, by simpa using hP, Or.inr ⟨q, st, by simpa using hx.awaits, by simpa using hst, mayWait_sound hw⟩⟩
          · simp at h

/-- An activity and what is left of it. -/
structure Actor (ι : Type) where
  who : ι
  task : Task
  rest : Rest task

def Actor.key (a : Actor ι) : ι × Task := (a.who, a.task)

/-- Poll all, each with its budget. -/
def pollAll (cap : Caps) (fuel : Nat) : List (Actor ι) → List Nat → Store → Option (List (Actor ι) × Store)
  | [], _, st => some ([], st)
  | _ :: _, [], _ => none
  | a :: l, b :: bs, st => match pollOne cap a.task fuel b a.rest st with
    | none => none
    | some (x, st1) => match pollAll cap fuel l bs st1 with
      | none => none
      | some (l', st2) => some (⟨a.who, a.task, x⟩ :: l', st2)

/-- The actors and the store stand for the trace. -/
structure Stands (cap : Caps) (acts : List (ι × Task)) (as : List (Actor ι)) (st : Store) (τ : List (ι × Ev)) (k : Nat) : Prop where
  keys : as.map Actor.key = acts
  store : execAll cap Store.init (τ.map Prod.snd) = some st
  left : ∀ a ∈ as, a.rest.After a.task (proj a.who τ)
  polled : Polled cap acts τ k
  known : ∀ x ∈ τ, x.1 ∈ acts.map Prod.fst
  fine : ∀ x ∈ τ, (act x.2).fails = false

theorem proj_elsewhere {i j : ι} {τ τ' : List (ι × Ev)} (h : ∀ y ∈ τ', y.1 = i) (hn : j ≠ i) : proj j (τ ++ τ') = proj j τ := by
  have : proj j τ' = [] := by
    unfold proj
    rw [List.filterMap_eq_nil_iff]
    intro y hy
    rw [if_neg]
    rw [h y hy]; exact fun h => hn h.symm
  unfold proj at this ⊢
  rw [List.filterMap_append, this, List.append_nil]

theorem pollAll_sound {cap : Caps} {acts : List (ι × Task)} (hn : (acts.map Prod.fst).Nodup) {fuel : Nat} {d l l' : List (Actor ι)} {bs : List Nat} {st st' : Store} {τ : List (ι × Ev)}
    (S : Stands cap acts (d ++ l) st τ (d.length % acts.length)) (h : pollAll cap fuel l bs st = some (l', st')) :
    ∃ τ', Stands cap acts (d ++ l') st' τ' 0 := by
  induction l generalizing d l' bs st τ with
  | nil =>
    simp only [pollAll, Option.some.injEq, Prod.mk.injEq] at h
    obtain ⟨rfl, rfl⟩ := h
    refine ⟨τ, ?_⟩
    have : acts.length = d.length := by rw [← S.keys]; simp
    rw [← this, Nat.mod_self] at S
    exact S
  | cons a l ih =>
    cases bs with
    | nil => simp [pollAll] at h
    | cons b bs =>
      simp only [pollAll] at h
      split at h
      · simp at h
      · rename_i x st1 h1
        split at h
        · simp at h
        · rename_i l1 st2 h2
          simp only [Option.some.injEq, Prod.mk.injEq] at h
          obtain ⟨rfl, rfl⟩ := h
          have hlen : d.length < acts.length := by rw [← S.keys]; simp
          have hP := S.polled
          rw [Nat.mod_eq_of_lt hlen] at hP
          have ha : acts[d.length]? = some (a.who, a.task) := by
            rw [← S.keys]
            simp [Actor.key]
          obtain ⟨τ', g1, g2, g3, g4, g5⟩ := pollOne_sound (S.left a (by simp)) S.store hP ha h1
          have hne : ∀ a' ∈ d ++ l, a'.who ≠ a.who := by
            intro a' ha' he
            rw [← S.keys] at hn
            simp only [List.map_append, List.map_cons, List.map_map] at hn
            rw [List.nodup_append] at hn
            obtain ⟨n1, n2, n3⟩ := hn
            rcases List.mem_append.mp ha' with ha' | ha'
            · refine n3 a'.who (List.mem_map.mpr ⟨a', ha', rfl⟩) a.who ?_ he
              exact List.mem_cons_self
            · rw [List.nodup_cons] at n2
              refine n2.1 ?_
              show a.who ∈ _
              rw [← he]
              exact List.mem_map.mpr ⟨a', ha', rfl⟩
          have S' : Stands cap acts ((d ++ [⟨a.who, a.task, x⟩]) ++ l) st1 (τ ++ τ') ((d ++ [(⟨a.who, a.task, x⟩ : Actor ι)]).length % acts.length) := by
            refine ⟨?_, g3, ?_, ?_, ?_, ?_⟩
            · rw [← S.keys]; simp [Actor.key]
            · intro a' ha'
              rw [List.append_assoc, List.mem_append, List.mem_append, List.mem_singleton] at ha'
              rcases ha' with ha' | rfl | ha'
              · rw [proj_elsewhere (fun y hy => (g1 y hy).1) (hne a' (by simp [ha']))]
                exact S.left a' (by simp [ha'])
              · exact g2
              · rw [proj_elsewhere (fun y hy => (g1 y hy).1) (hne a' (by simp [ha']))]
                exact S.left a' (by simp [ha'])
            · rw [List.length_append]
              exact .yield g4 ha g5
            · intro y hy
              rcases List.mem_append.mp hy with hy | hy
              · exact S.known y hy
              · rw [(g1 y hy).1]
                exact List.mem_map.mpr ⟨(a.who, a.task), List.mem_of_getElem? ha, rfl⟩
            · intro y hy
              rcases List.mem_append.mp hy with hy | hy
              · exact S.fine y hy
              · exact (g1 y hy).2
          obtain ⟨τ2, S2⟩ := ih S' h2
          exact ⟨τ2, by simpa using S2⟩

/-- Several rounds of polling. -/
def simulate (cap : Caps) (fuel : Nat) : List (List Nat) → List (Actor ι) → Store → Option (List (Actor ι) × Store)
  | [], as, st => some (as, st)
  | bs :: l, as, st => match pollAll cap fuel as bs st with
    | none => none
    | some (as', st') => simulate cap fuel l as' st'

/-- At the beginning. -/
def Actor.begin (x : ι × Task) : Actor ι := ⟨x.1, x.2, .now (x.2.body x.2.init)⟩

theorem Stands.start (cap : Caps) (acts : List (ι × Task)) : Stands cap acts (acts.map Actor.begin) Store.init [] 0 where
  keys := by
    rw [List.map_map]
    conv => rhs; rw [← List.map_id acts]
    rfl
  store := rfl
  left := by
    intro a ha
    obtain ⟨x, _, rfl⟩ := List.mem_map.mp ha
    exact Rest.start_after _
  polled := .start
  known := by simp
  fine := by simp

theorem simulate_stands {cap : Caps} {acts : List (ι × Task)} (hn : (acts.map Prod.fst).Nodup) {fuel : Nat} {rounds : List (List Nat)} {as as' : List (Actor ι)} {st st' : Store}
    {τ : List (ι × Ev)} (S : Stands cap acts as st τ 0) (h : simulate cap fuel rounds as st = some (as', st')) : ∃ τ', Stands cap acts as' st' τ' 0 := by
  induction rounds generalizing as st τ with
  | nil =>
    simp only [simulate, Option.some.injEq, Prod.mk.injEq] at h
    obtain ⟨rfl, rfl⟩ := h
    exact ⟨τ, S⟩
  | cons bs l ih =>
    simp only [simulate] at h
    split at h
    · simp at h
    · rename_i as1 st1 h1
      obtain ⟨τ1, S1⟩ := pollAll_sound (d := []) hn (by simpa using S) h1
      exact ih S1 h

theorem simulate_sound {cap : Caps} {acts : List (ι × Task)} (hn : (acts.map Prod.fst).Nodup) {fuel : Nat} {rounds : List (List Nat)} {as : List (Actor ι)} {st : Store}
    (h : simulate cap fuel rounds (acts.map Actor.begin) Store.init = some (as, st)) : ∃ τ, Stands cap acts as st τ 0 :=
  simulate_stands hn (Stands.start cap acts) h

/-- The `n`th actor waits for this. -/
def awaitsNow (as : List (Actor ι)) (n : Nat) (q : Req) : Bool := match as[n]? with
  | some ⟨_, _, .now (.op q' _)⟩ => decide (q' = q)
  | _ => false

theorem Stands.awaits {cap : Caps} {acts : List (ι × Task)} {as : List (Actor ι)} {st : Store} {τ : List (ι × Ev)} {k : Nat} (S : Stands cap acts as st τ k) {n : Nat} {q : Req}
    (h : awaitsNow as n q = true) : ∃ i t, acts[n]? = some (i, t) ∧ t.Awaits (proj i τ) q := by
  unfold awaitsNow at h
  split at h
  · rename_i i t q' c ha
    have hq : q' = q := of_decide_eq_true h
    subst hq
    refine ⟨i, t, ?_, (S.left _ (List.mem_of_getElem? ha)).awaits⟩
    rw [← S.keys, List.getElem?_map, ha]
    rfl
  · simp at h

end
end Verif
