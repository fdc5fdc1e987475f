import Verif.Model.Prog
/-!
# Tasks running together over channels

async-channel 1.7.1 as used by the program: a channel is a queue with a capacity (`none`: unbounded)
and a closed flag; a receive on a closed channel first drains it. A task is a loop followed by dropping
the channel ends it owns, which closes the channels (every channel in the program has one sender and
one receiver). An execution is a sequence of events, each belonging to a task, such that every task
follows its program and every event is possible for the channels at that point. No assumption is made
about the order in which tasks get to run.
-/
namespace Verif

instance (k : Kind) : DecidableEq k.Payload := by
  cases k <;> simp only [Kind.Payload] <;> infer_instance

structure Chan (k : Kind) where
  q : List k.Payload := []
  closed : Bool := false

/-- The state of all channels. -/
def Store := (k : Kind) → Nat → Chan k

/-- All channels open and empty. -/
def Store.init : Store := fun _ _ => {}

def Store.set (st : Store) (k : Kind) (c : Nat) (x : Chan k) : Store := fun k' c' =>
  if h : k' = k ∧ c' = c then h.1 ▸ x else st k' c'

/-- Capacities: `none` is `unbounded()`, `some n` is `bounded(n)`. -/
abbrev Caps := Kind → Nat → Option Nat

/-- There is room for one more in a queue. -/
def hasRoom (cap : Option Nat) (n : Nat) : Prop := match cap with
  | none => True
  | some m => n < m

instance (cap : Option Nat) (n : Nat) : Decidable (hasRoom cap n) := by
  unfold hasRoom; cases cap <;> infer_instance

/-- `exec cap st e`: the channels after event `e`, `none` if `e` is impossible now. -/
def exec (cap : Caps) (st : Store) : Ev → Option Store
  | ⟨.recv k c, some v⟩ => match (st k c).q with
    | [] => none
    | w :: q => if v = w then some (st.set k c { st k c with q := q }) else none
  | ⟨.recv k c, none⟩ => if (st k c).q.isEmpty ∧ (st k c).closed = true then some st else none
  | ⟨.tryRecv k c, .got v⟩ => match (st k c).q with
    | [] => none
    | w :: q => if v = w then some (st.set k c { st k c with q := q }) else none
  | ⟨.tryRecv k c, .empty⟩ => if (st k c).q.isEmpty ∧ (st k c).closed = false then some st else none
  | ⟨.tryRecv k c, .closed⟩ => if (st k c).q.isEmpty ∧ (st k c).closed = true then some st else none
  | ⟨.send k c v, true⟩ =>
    if (st k c).closed = false ∧ hasRoom (cap k c) (st k c).q.length then
      some (st.set k c { st k c with q := (st k c).q ++ [v] })
    else none
  | ⟨.send k c _, false⟩ => if (st k c).closed = true then some st else none
  | ⟨.close k c, _⟩ => some (st.set k c { st k c with closed := true })
  | ⟨.stat k c, (e, cl)⟩ => if e = (st k c).q.isEmpty ∧ cl = (st k c).closed then some st else none
  | ⟨.streamRead _, _⟩ => some st
  | ⟨.ioWrite _ _, _⟩ => some st
  | ⟨.ioFlush _, _⟩ => some st
  | ⟨.sleep _, _⟩ => some st
  | ⟨.status, _⟩ => some st

/-- A sequence of events. -/
def execAll (cap : Caps) (st : Store) : List Ev → Option Store
  | [] => some st
  | e :: es => match exec cap st e with
    | none => none
    | some st' => execAll cap st' es

/-- A task: a loop, then dropping the listed channel ends. -/
structure Task where
  σ : Type
  ρ : Type
  body : σ → Prog (σ ⊕ ρ)
  init : σ
  drops : List (Kind × Nat)

/-- Dropping channel ends. -/
def dropEvs (l : List (Kind × Nat)) : List Ev := l.map fun x => ⟨.close x.1 x.2, ()⟩

/-- The task has ended, having gone through `tr`. -/
def Task.Done (t : Task) (tr : List Ev) : Prop :=
  ∃ r t1, LoopRuns t.body t.init t1 r ∧ tr = t1 ++ dropEvs t.drops

/-- The task, possibly still running, has gone through `tr`. -/
def Task.Partial (t : Task) (tr : List Ev) : Prop :=
  LoopPartial t.body t.init tr ∨
  ∃ r t1 t2, LoopRuns t.body t.init t1 r ∧ t2 <+: dropEvs t.drops ∧ tr = t1 ++ t2

/-- The events of one task. -/
def proj {ι : Type} [DecidableEq ι] (i : ι) (τ : List (ι × Ev)) : List Ev :=
  τ.filterMap fun x => if x.1 = i then some x.2 else none

/-- A (finite) execution of tasks, all channels being open and empty at first. For `sys i = none`, the events
of `i` are unconstrained: an unknown environment. -/
structure Execution {ι : Type} [DecidableEq ι] (cap : Caps) (sys : ι → Option Task) (τ : List (ι × Ev)) : Prop where
  chans : (execAll cap Store.init (τ.map Prod.snd)).isSome = true
  tasks : ∀ i t, sys i = some t → t.Partial (proj i τ)

/-- After the events `tr` the program has made request `q` and has got no response yet. -/
def Prog.Awaits {α : Type} : Prog α → List Ev → Req → Prop
  | .ret _, _, _ => False
  | .op q _, [], q' => q = q'
  | .op q k, e :: tr, q' => ∃ r, e = ⟨q, r⟩ ∧ Prog.Awaits (k r) tr q'

/-- The same for a task. -/
def Task.Awaits (t : Task) (tr : List Ev) (q : Req) : Prop :=
  ∃ s tr₁ tr₂, LoopRounds t.body t.init tr₁ s ∧ (t.body s).Awaits tr₂ q ∧ tr = tr₁ ++ tr₂

/-- A request that cannot be served now. -/
def Impossible (cap : Caps) (st : Store) (q : Req) : Prop := ∀ r, exec cap st ⟨q, r⟩ = none

end Verif
