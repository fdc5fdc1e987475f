import Verif.Spec.Runtime
/-!
# Who waits for whom because of flow control
-/
namespace Verif

/-- The same: also a manager none of whose buffers has something to report, with more possibly to come. -/
def Waiter.Resting (w : Waiter) (cs : List Capture) (st : Store) (τ : List (Who × Ev)) (i : Who) : Prop :=
  w.Idle st τ i ∨ ∃ c ∈ cs, i = .manager c.regulator ∧ (∀ b ∈ c.buffers, (st .size (w.idOf (.buffer, b))).q = []) ∧ ∃ b ∈ c.buffers, (st .size (w.idOf (.buffer, b))).closed = false

/-- The manager of a regulator waits for room for a request: the regulator has not taken out an earlier one. -/
def Waiter.Unheard (w : Waiter) (cs : List Capture) (cap : Caps) (st : Store) (τ : List (Who × Ev)) (r : Str) : Prop :=
  (∃ t, w.sys cs (.manager r) = some t ∧ t.Awaits (proj (.manager r) τ) (.send .ctl (w.idOf (.regulator, r)) ())) ∧
    (st .ctl (w.idOf (.regulator, r))).closed = false ∧ ¬ hasRoom (cap .ctl (w.idOf (.regulator, r))) (st .ctl (w.idOf (.regulator, r))).q.length

/-- A regulator has been paused and nobody has asked it to resume. -/
def Waiter.Paused (w : Waiter) (cs : List Capture) (st : Store) (τ : List (Who × Ev)) (r : Str) : Prop :=
  (∃ t, w.sys cs (.part (.regulator, r) .main) = some t ∧ t.Awaits (proj (.part (.regulator, r) .main) τ) (.recv .ctl (w.idOf (.regulator, r)))) ∧
    (st .ctl (w.idOf (.regulator, r))).q = [] ∧ (st .ctl (w.idOf (.regulator, r))).closed = false

end Verif
