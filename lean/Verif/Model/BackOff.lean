import Verif.Model.Prog
/-!
# `/repo/src/back_off.rs`
-/
namespace Verif

/-- back_off.rs:1-3 -/
structure BackOff where
  count : Nat
  deriving Repr, DecidableEq

/-- back_off.rs:9-13 -/
def BackOff.new : BackOff := ⟨0⟩

/-- back_off.rs:16-19 -/
def BackOff.reset (_ : BackOff) : BackOff × Nat := (⟨0⟩, 0)

/-- back_off.rs:22-30: sleeps `count * count` milliseconds; the returned `count - 1` is `u64`
arithmetic, `none` standing for the underflow panic. -/
def BackOff.wait (b : BackOff) : Prog (BackOff × Option Nat) := do
  req (.sleep (b.count * b.count))
  let b' : BackOff := if b.count ≤ 50 then ⟨b.count + 1⟩ else b
  pure (b', if 1 ≤ b'.count then some (b'.count - 1) else none)

end Verif
