import Verif.Spec.World
import Verif.Spec.Lines
import Verif.Spec.Held
/-!
# What it means that nothing is on its way any more
-/
namespace Verif

/-- A junction, count or manager merely looks again and again, and has passed on to everybody everything it has taken in. -/
def Waiter.Dozes (w : Waiter) (cs : List Capture) (st : Store) (τ : List (Who × Ev)) (i : Who) : Prop :=
  w.Resting cs st τ i ∧ ∀ n, w.node i = some n → ∀ t ∈ n.targets, acceptedBy t (proj i τ) = received (proj i τ)

/-- Something can happen that is not somebody looking again who has nothing in hand. -/
def Waiter.Stirs (w : Waiter) (cs : List Capture) (cap : Caps) (room : Nat) (prog : Str → Program) (st : Store) (T : List Happening) : Prop :=
  ∃ a, w.Next cs cap room prog T a ∧ ∀ i e, a = .core i e → ¬ w.Dozes cs st (coreOf T) i

/-- Nothing is on its way any more, and no regulator holds anything up. -/
structure Waiter.AtRest (w : Waiter) (cs : List Capture) (cap : Caps) (room : Nat) (prog : Str → Program) (st : Store) (T : List Happening) : Prop where
  still : ¬ w.Stirs cs cap room prog st T
  heard : ∀ r, ¬ w.Unheard cs cap st (coreOf T) r
  open' : ∀ r, ¬ w.Paused cs st (coreOf T) r

/-- The lines of a text that have come to their end. -/
def wholeLines (bs : Bytes) : List Bytes := (specLines bs).filter fun l => l.getLast? = some 10

end Verif
