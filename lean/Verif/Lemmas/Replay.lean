import Verif.Lemmas.Await
import Verif.Model.Poll
/-!
# Checking concrete executions

Functions that replay a given trace, with proofs that what they accept is an execution. Only used to show witnesses.
-/
namespace Verif

deriving instance DecidableEq for Req
instance (q : Req) : DecidableEq q.Resp := by
  cases q <;> simp only [Req.Resp] <;> infer_instance
deriving instance DecidableEq for Ev

def Prog.replay {α : Type} : Prog α → List Ev → Option ((α × List Ev) ⊕ Req)
  | .ret a, tr => some (.inl (a, tr))
  | .op q _, [] => some (.inr q)
  | .op q k, e :: tr => if h : e.q = q then (k (h ▸ e.r)).replay tr else none

theorem Prog.replay_awaits {α : Type} {p : Prog α} {tr : List Ev} {q : Req} (h : p.replay tr = some (.inr q)) : p.Awaits tr q := by
  induction p generalizing tr with
  | ret a => simp [Prog.replay] at h
  | op q' k ih =>
    cases tr with
    | nil => simpa [Prog.replay, Prog.Awaits] using h
    | cons e tr =>
      simp only [Prog.replay] at h
      split at h
      · rename_i he
        subst he
        exact ⟨e.r, rfl, ih _ h⟩
      · simp at h

theorem Prog.replay_runs {α : Type} {p : Prog α} {tr rest : List Ev} {a : α} (h : p.replay tr = some (.inl (a, rest))) :
    ∃ t, p.Runs t a ∧ tr = t ++ rest := by
  induction p generalizing tr with
  | ret a => simp [Prog.replay] at h; exact ⟨[], ⟨rfl, h.1.symm⟩, h.2⟩
  | op q' k ih =>
    cases tr with
    | nil => simp [Prog.replay] at h
    | cons e tr =>
      simp only [Prog.replay] at h
      split at h
      · rename_i he
        subst he
        obtain ⟨t, h1, rfl⟩ := ih _ h
        exact ⟨e :: t, ⟨e.r, t, rfl, h1⟩, rfl⟩
      · simp at h

def Task.replayFrom (t : Task) : Nat → t.σ → List Ev → Option ((t.ρ × List Ev) ⊕ Req)
  | 0, _, _ => none
  | f + 1, s, tr => match (t.body s).replay tr with
    | none => none
    | some (.inr q) => some (.inr q)
    | some (.inl (.inl s', rest)) => t.replayFrom f s' rest
    | some (.inl (.inr r, rest)) => some (.inl (r, rest))

/-- What the task waits for after the trace, if it has not ended its loop. -/
def Task.replay (t : Task) (tr : List Ev) : Option ((t.ρ × List Ev) ⊕ Req) := t.replayFrom (tr.length + 1) t.init tr

theorem Task.replayFrom_awaits {t : Task} {f : Nat} {s : t.σ} {tr : List Ev} {q : Req} (h : t.replayFrom f s tr = some (.inr q)) :
    ∃ s' t1 t2, LoopRounds t.body s t1 s' ∧ (t.body s').Awaits t2 q ∧ tr = t1 ++ t2 := by
  induction f generalizing s tr with
  | zero => simp [Task.replayFrom] at h
  | succ f ih =>
    simp only [Task.replayFrom] at h
    split at h
    · simp at h
    · rename_i q' hq
      simp at h; subst h
      exact ⟨s, [], tr, .nil, Prog.replay_awaits hq, rfl⟩
    · rename_i s' rest hq
      obtain ⟨u, h1, rfl⟩ := Prog.replay_runs hq
      obtain ⟨s'', t1, t2, h2, h3, rfl⟩ := ih h
      exact ⟨s'', u ++ t1, t2, .next h1 h2, h3, by simp⟩
    · simp at h

theorem Task.replayFrom_runs {t : Task} {f : Nat} {s : t.σ} {tr rest : List Ev} {r : t.ρ} (h : t.replayFrom f s tr = some (.inl (r, rest))) :
    ∃ t1, LoopRuns t.body s t1 r ∧ tr = t1 ++ rest := by
  induction f generalizing s tr with
  | zero => simp [Task.replayFrom] at h
  | succ f ih =>
    simp only [Task.replayFrom] at h
    split at h
    · simp at h
    · simp at h
    · rename_i s' rest' hq
      obtain ⟨u, h1, rfl⟩ := Prog.replay_runs hq
      obtain ⟨t1, h2, rfl⟩ := ih h
      exact ⟨u ++ t1, .next h1 h2, by simp⟩
    · rename_i r' rest' hq
      simp at h
      obtain ⟨rfl, rfl⟩ := h
      obtain ⟨u, h1, rfl⟩ := Prog.replay_runs hq
      exact ⟨u, .stop h1, rfl⟩

theorem Task.replay_awaits {t : Task} {tr : List Ev} {q : Req} (h : t.replay tr = some (.inr q)) : t.Awaits tr q :=
  Task.replayFrom_awaits h

/-- The request the task is waiting for. -/
def Task.waits (t : Task) (tr : List Ev) : Option Req :=
  match t.replay tr with
  | some (.inr q) => some q
  | _ => none

theorem Task.waits_awaits {t : Task} {tr : List Ev} {q : Req} (h : t.waits tr = some q) : t.Awaits tr q := by
  unfold Task.waits at h
  split at h
  · rename_i q' hq; simp at h; subst h; exact Task.replay_awaits hq
  · simp at h

/-- The task has followed its program. -/
def Task.checks (t : Task) (tr : List Ev) : Bool :=
  match t.replay tr with
  | some (.inr _) => true
  | some (.inl (_, rest)) => rest.isPrefixOf (dropEvs t.drops)
  | none => false

theorem Task.checks_partial {t : Task} {tr : List Ev} (h : t.checks tr = true) : t.Partial tr := by
  unfold Task.checks at h
  split at h
  · rename_i q hq; exact (Task.replay_awaits hq).partial
  · rename_i r rest hq
    obtain ⟨t1, h1, rfl⟩ := Task.replayFrom_runs hq
    exact Or.inr ⟨r, t1, rest, h1, List.isPrefixOf_iff_prefix.mp h, rfl⟩
  · simp at h

/-- The task has ended. -/
def Task.finished (t : Task) (tr : List Ev) : Bool :=
  match t.replay tr with
  | some (.inl (_, rest)) => rest = dropEvs t.drops
  | _ => false

theorem Task.finished_done {t : Task} {tr : List Ev} (h : t.finished tr = true) : t.Done tr := by
  unfold Task.finished at h
  split at h
  · rename_i r rest hq
    obtain ⟨t1, h1, rfl⟩ := Task.replayFrom_runs hq
    exact ⟨r, t1, h1, by rw [of_decide_eq_true h]⟩
  · simp at h

/-- A sufficient check for `MayWait`. -/
def mayWait (cap : Caps) (st : Store) : Req → Bool
  | .sleep _ => true
  | .streamRead _ => true
  | .ioWrite _ _ => true
  | .ioFlush _ => true
  | .status => true
  | .recv k c => (st k c).q.isEmpty && !(st k c).closed
  | .send k c _ => !(st k c).closed && !decide (hasRoom (cap k c) (st k c).q.length)
  | _ => false

theorem mayWait_sound {cap : Caps} {st : Store} {q : Req} (h : mayWait cap st q = true) : MayWait cap st q := by
  cases q <;> simp [mayWait] at h <;> simp only [MayWait]
  · intro r
    cases r <;> simp [exec, h]
  · intro r
    cases r <;> simp [exec, h]

def blocked {ι : Type} [DecidableEq ι] (cap : Caps) (t : Task) (i : ι) (τ : List (ι × Ev)) (st : Store) : Bool :=
  match t.replay (proj i τ) with
  | some (.inr q) => mayWait cap st q
  | some (.inl (_, rest)) => rest = dropEvs t.drops
  | none => false

theorem blocked_sound {ι : Type} [DecidableEq ι] {cap : Caps} {t : Task} {i : ι} {τ : List (ι × Ev)} {st : Store}
    (hst : execAll cap Store.init (τ.map Prod.snd) = some st) (h : blocked cap t i τ st = true) : Blocked cap t i τ := by
  unfold blocked at h
  split at h
  · rename_i q hq
    exact Or.inr ⟨q, st, Task.replay_awaits hq, hst, mayWait_sound h⟩
  · rename_i r rest hq
    obtain ⟨t1, h1, he⟩ := Task.replayFrom_runs hq
    exact Or.inl ⟨r, t1, h1, by rw [he, of_decide_eq_true h]⟩
  · simp at h

/-- A step of a script: an event, or the end of an activity's turn. -/
inductive Step (ι : Type) where
  | ev (i : ι) (e : Ev)
  | turn

def Step.event {ι : Type} : Step ι → Option (ι × Ev)
  | .ev i e => some (i, e)
  | .turn => none

/-- Follow a script of events and turns. -/
def script {ι : Type} [DecidableEq ι] (cap : Caps) (acts : List (ι × Task)) : List (Step ι) → List (ι × Ev) → Store → Nat → Option (Store × Nat)
  | [], _, st, k => some (st, k)
  | .ev i e :: l, τ, st, k =>
    if (acts[k]?).any (fun x => decide (x.1 = i)) || acts.all (fun x => decide (x.1 ≠ i)) then
      match exec cap st e with
      | some st' => script cap acts l (τ ++ [(i, e)]) st' k
      | none => none
    else none
  | .turn :: l, τ, st, k =>
    match acts[k]? with
    | some (i, t) => if blocked cap t i τ st then script cap acts l τ st ((k + 1) % acts.length) else none
    | none => none

theorem script_sound {ι : Type} [DecidableEq ι] {cap : Caps} {acts : List (ι × Task)} {l : List (Step ι)} {τ : List (ι × Ev)} {st st' : Store}
    {k k' : Nat} (hst : execAll cap Store.init (τ.map Prod.snd) = some st) (hP : Polled cap acts τ k)
    (h : script cap acts l τ st k = some (st', k')) :
    Polled cap acts (τ ++ l.filterMap Step.event) k' ∧ execAll cap Store.init ((τ ++ l.filterMap Step.event).map Prod.snd) = some st' := by
  induction l generalizing τ st k with
  | nil => simp [script] at h; obtain ⟨rfl, rfl⟩ := h; simpa using ⟨hP, hst⟩
  | cons x l ih =>
    cases x with
    | ev i e =>
      simp only [script] at h
      split at h
      · rename_i hc
        split at h
        · rename_i st1 he
          have hst1 : execAll cap Store.init ((τ ++ [(i, e)]).map Prod.snd) = some st1 := by
            rw [List.map_append, execAll_append, hst]; simp [execAll, he]
          have hP1 : Polled cap acts (τ ++ [(i, e)]) k := by
            rw [Bool.or_eq_true] at hc
            rcases hc with hc | hc
            · cases ha : acts[k]? with
              | none => rw [ha] at hc; simp at hc
              | some y =>
                obtain ⟨j, t⟩ := y
                rw [ha] at hc; simp at hc; subst hc
                exact .act hP ha
            · exact .other hP (by simpa using hc)
          have := ih hst1 hP1 h
          simpa [Step.event] using this
        · simp at h
      · simp at h
    | turn =>
      simp only [script] at h
      split at h
      · rename_i i t ha
        split at h
        · rename_i hb
          have := ih hst (.yield hP ha (blocked_sound hst hb)) h
          exact this
        · simp at h
      · simp at h

end Verif
