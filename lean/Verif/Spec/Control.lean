import Verif.Model.Regulator
/-!
# Specification: which calls on a control handle matter
-/
namespace Verif

/-- The calls that have an effect: those different from the one before (a fresh handle counts as
resumed). -/
def effective : Call → List Call → List Call
  | _, [] => []
  | last, x :: xs => if x = last then effective last xs else x :: effective x xs

/-- What the calls return: `false` for a call without effect, else what became of the request. -/
def returned : Call → List Call → List Bool → List Bool
  | _, [], _ => []
  | last, x :: xs, outs =>
    if x = last then false :: returned last xs outs
    else outs.headD false :: returned x xs outs.tail

end Verif
