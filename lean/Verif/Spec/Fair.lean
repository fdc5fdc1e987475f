import Verif.Spec.Runtime
/-!
# Schedules that neglect nobody
-/
namespace Verif

/-- What has happened before time `n`, at each time one event or none. -/
def upTo (σ : Nat → Option (Who × Ev)) : Nat → List (Who × Ev)
  | 0 => []
  | n + 1 => upTo σ n ++ (σ n).toList

/-- A schedule, finite or infinite, of everything `start` runs, such that whoever can go on, from some time on for ever, goes on. -/
structure Waiter.Fair (w : Waiter) (cs : List Capture) (cap : Caps) (σ : Nat → Option (Who × Ev)) : Prop where
  runs : ∀ n, w.Run cs cap (upTo σ n)
  fair : ∀ i n, (∀ m, n ≤ m → w.CanStep cs cap (upTo σ m) i) → ∃ m e, n ≤ m ∧ σ m = some (i, e)

/-- How often the exit status of its program was asked for. -/
def timesAsked (tr : List Ev) : Nat := tr.countP fun e => match e.q with
  | .status => true
  | _ => false

/-- No file or stream has given more than `B` lines, and the exit status of no program was asked for more than `B` times. -/
structure Limited (B : Nat) (τ : List (Who × Ev)) : Prop where
  lines : ∀ i h, (receivedFrom (.handle h) (proj i τ)).length ≤ B
  statuses : ∀ i, timesAsked (proj i τ) ≤ B

end Verif
