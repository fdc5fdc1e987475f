import Verif.Model.Runtime
import Verif.Spec.Flow
/-!
# A buffer that has burst
-/
namespace Verif

/-- A regulator has been told to wait for buffer `x`, which is fed through channel `i`. The half of the buffer that hands on has ended, the other half waits for input, of which there is none. Everything the
buffer has to say has been said and heard: that it holds more than at which the regulator would be told to go on. `sys` are the activities. -/
structure Waiter.Burst (w : Waiter) (sys : Who → Option Task) (st : Store) (τ : List (Who × Ev)) (a : Capture) (x : Str) (i : Nat) : Prop where
  paused : ∃ t, sys (.part (.regulator, a.regulator) .main) = some t ∧ t.Awaits (proj (.part (.regulator, a.regulator) .main) τ) (.recv .ctl (w.idOf (.regulator, a.regulator)))
  unasked : (st .ctl (w.idOf (.regulator, a.regulator))).q = [] ∧ (st .ctl (w.idOf (.regulator, a.regulator))).closed = false
  waits : ∃ t, sys (.part (.buffer, x) .input) = some t ∧ t.Awaits (proj (.part (.buffer, x) .input) τ) (.recv .data i)
  dry : (st .data i).q = [] ∧ (st .data i).closed = false
  gone : ∃ t, sys (.part (.buffer, x) .output) = some t ∧ t.Done (proj (.part (.buffer, x) .output) τ)
  noted : (st .mon (2 * w.idOf (.buffer, x))).q = [] ∧ (st .mon (2 * w.idOf (.buffer, x))).closed = false ∧ (st .mon (2 * w.idOf (.buffer, x) + 1)).q = []
  told : (st .size (w.idOf (.buffer, x))).q = [] ∧ (st .size (w.idOf (.buffer, x))).closed = false
  counted : reported (w.idOf (.buffer, x)) (proj (.manager a.regulator) τ) + (gotOn .mon (2 * w.idOf (.buffer, x) + 1) (proj (.part (.buffer, x) .count) τ)).length =
    (gotOn .mon (2 * w.idOf (.buffer, x)) (proj (.part (.buffer, x) .count) τ)).length
  much : a.low < reported (w.idOf (.buffer, x)) (proj (.manager a.regulator) τ)

end Verif
