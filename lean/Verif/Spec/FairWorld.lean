import Verif.Spec.Filter
import Verif.Spec.World
/-!
# Specification: schedules that neglect nobody, programs and pipes included
-/
namespace Verif

/-- Who makes something happen: an activity, the pipe to a program, a pipe from a program, or a program. -/
inductive Agent where
  | core (i : Who)
  | feed (x : Str)
  | draw (x : Str) (p : Port)
  | prog (x : Str)

def Happening.agent : Happening → Agent
  | .core i _ => .core i
  | .feed x _ => .feed x
  | .draw x p _ => .draw x p
  | .prog x _ => .prog x

/-- What has happened before time `n`, at each time one thing or nothing. -/
def soFar (σ : Nat → Option Happening) : Nat → List Happening
  | 0 => []
  | n + 1 => soFar σ n ++ (σ n).toList

/-- A schedule, finite or infinite, such that whoever can make something happen, from some time on for ever, does so. -/
structure Waiter.FairWorld (w : Waiter) (cs : List Capture) (cap : Caps) (room : Nat) (prog : Str → Program) (σ : Nat → Option Happening) : Prop where
  runs : ∀ n, w.WorldRun cs cap room prog (soFar σ n)
  fair : ∀ g n, (∀ m, n ≤ m → ∃ a, a.agent = g ∧ w.Next cs cap room prog (soFar σ m) a) → ∃ m a, n ≤ m ∧ σ m = some a ∧ a.agent = g

/-- A program that cannot go on for ever without reading more and more. -/
def Program.Finite (p : Program) : Prop := ∀ ρ : Nat → PEv, (∀ n, p.Lives ((List.range n).map ρ)) → ∀ N, ∃ n, N < (takenIn ((List.range n).map ρ)).length

end Verif
