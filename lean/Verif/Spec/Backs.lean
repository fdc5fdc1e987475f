import Verif.Spec.Jam
import Verif.Model.Start
/-!
# Who can hold up whom, with flow control

To who holds up whom without managers (`HoldsUp`) comes that a regulator that is paused waits until one of its buffers has been emptied, that is for the buffer's output.
-/
namespace Verif

/-- The first can be held up by the second. -/
inductive Backs (hs : List Hop) (cs : List Capture) : Who → Who → Prop
  | holds {a b : Who} : HoldsUp hs a b → Backs hs cs a b
  | steer {a : Capture} {x : Str} : a ∈ cs → x ∈ a.buffers → Backs hs cs (.part (.regulator, a.regulator) .main) (.part (.buffer, x) .output)

/-- Nobody holds up themselves. -/
def Unbraided (hs : List Hop) (cs : List Capture) : Prop := ∀ i, ¬ Relation.TransGen (Backs hs cs) i i

end Verif
