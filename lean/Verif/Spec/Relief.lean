import Verif.Spec.Backs
import Verif.Spec.World
/-!
# Where the requests of managers get through

A manager that cannot make a request takes in no reports, so the buffers it looks after come to a standstill, and with them whoever they can hold up. If these are all downstream of the regulator, and the
regulator is not held up by any of them, it goes on and takes in the request. Another buffer between a regulator and the buffers that control it is enough for that.
-/
namespace Verif

/-- The second lies downstream of the first, be it through programs. -/
def Below (hs : List Hop) (a b : Who) : Prop := Relation.TransGen (LeadsOn hs fun _ => True) a b

/-- The first is the second, or can be held up by it. -/
def Hangs (hs : List Hop) (a b : Who) : Prop := a = b ∨ Relation.TransGen (HoldsUp hs) a b

structure Relieved (hs : List Hop) (cs : List Capture) : Prop where
  /-- What the input of a buffer can hold up lies downstream of the regulator that the buffer controls. -/
  below : ∀ a ∈ cs, ∀ x ∈ a.buffers, ∀ i, Hangs hs i (.part (.buffer, x) .input) → Below hs (.part (.regulator, a.regulator) .main) i
  /-- The output of a buffer that controls a regulator cannot be held up by the input of such a one. -/
  apart : ∀ a ∈ cs, ∀ x ∈ a.buffers, ∀ b ∈ cs, ∀ y ∈ b.buffers, ¬ Hangs hs (.part (.buffer, x) .output) (.part (.buffer, y) .input)

end Verif
