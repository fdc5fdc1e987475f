import Verif.Model.World
import Verif.Spec.Held
import Verif.Spec.Circles
/-!
# Specification: standstill with programs as processes
-/
namespace Verif

/-- Everything has ended, programs included. -/
def Waiter.AllOver (w : Waiter) (cs : List Capture) (T : List Happening) : Prop :=
  w.Over cs (coreOf T) ∧ ∀ x, w.comps.get (.launch, x) ≠ none → Exited (historyOf x T)

/-- Something can happen that is not a junction, count or manager merely looking again. -/
def Waiter.Lively (w : Waiter) (cs : List Capture) (cap : Caps) (room : Nat) (prog : Str → Program) (st : Store) (T : List Happening) : Prop :=
  ∃ a, w.Next cs cap room prog T a ∧ ∀ i e, a = .core i e → ¬ w.Resting cs st (coreOf T) i

/-- Nothing leads back to where it started, be it through programs. -/
def NoWayBack (hs : List Hop) : Prop := ∀ i, ¬ Relation.TransGen (LeadsOn hs fun _ => True) i i

end Verif
