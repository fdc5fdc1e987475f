import Verif.Spec.Fair
/-!
# Streams that give nothing, and outputs that take nothing
-/
namespace Verif

/-- A line is awaited from one of these files or streams, or one of them is written to or flushed. -/
def Req.stalls (idle : Nat → Prop) : Req → Prop
  | .streamRead h => idle h
  | .ioWrite h _ => idle h
  | .ioFlush h => idle h
  | _ => False

/-- Someone can go on, other than by one of these files or streams answering. -/
def Waiter.CanStepBut (w : Waiter) (idle : Nat → Prop) (cs : List Capture) (cap : Caps) (τ : List (Who × Ev)) (i : Who) : Prop :=
  ∃ e, w.Run cs cap (τ ++ [(i, e)]) ∧ ¬ e.q.stalls idle

/-- As `Waiter.Fair`, but these files and streams need not answer, ever: one that is read from may give nothing, though it does not end, and one that is written to may take nothing, though it does not fail. -/
structure Waiter.FairBut (w : Waiter) (idle : Nat → Prop) (cs : List Capture) (cap : Caps) (σ : Nat → Option (Who × Ev)) : Prop where
  runs : ∀ n, w.Run cs cap (upTo σ n)
  fair : ∀ i n, (∀ m, n ≤ m → w.CanStepBut idle cs cap (upTo σ m) i) → ∃ m e, n ≤ m ∧ σ m = some (i, e)

end Verif
