import Verif.Spec.Fair
import Verif.Spec.Exit
import Verif.Model.Unopened
/-!
# Schedules that neglect nobody, when some files cannot be opened
-/
namespace Verif

/-- As `Waiter.CanStep`. -/
def Waiter.CanStepWith (w : Waiter) (cs : List Capture) (bad : CompRef → Bool) (cap : Caps) (τ : List (Who × Ev)) (i : Who) : Prop := ∃ e, w.RunWith cs bad cap (τ ++ [(i, e)])

/-- As `Waiter.Fair`. -/
structure Waiter.FairWith (w : Waiter) (cs : List Capture) (bad : CompRef → Bool) (cap : Caps) (σ : Nat → Option (Who × Ev)) : Prop where
  runs : ∀ n, w.RunWith cs bad cap (upTo σ n)
  fair : ∀ i n, (∀ m, n ≤ m → w.CanStepWith cs bad cap (upTo σ m) i) → ∃ m e, n ≤ m ∧ σ m = some (i, e)

end Verif
