import Verif.Spec.Filter
import Verif.Spec.Mix
/-!
# Specification: what programs do, as a system of equations
-/
namespace Verif

/-- What a program has done from its start to its end: read, printed, and ended with. -/
structure Deed where
  read : Bytes
  out : Bytes
  err : Bytes
  code : Option Int

/-- A program that has ended has done this. -/
def Deed.Of (d : Deed) (l : List PEv) : Prop := d.read = takenIn l ∧ d.out = putOut .out l ∧ d.err = putOut .err l ∧ .exit d.code ∈ l

/-- The same has been printed, with the same end. -/
def Deed.Same (d d' : Deed) : Prop := d.out = d'.out ∧ d.err = d'.err ∧ d.code = d'.code

/-- What is known about a program: it reads its input to the end, and what it does by the time it ends is so. It need not be a function of what it reads. -/
structure Program.Meets (p : Program) (R : Deed → Prop) : Prop where
  reads : p.Patient
  does : ∀ l d, p.Lives l → Regular l → d.Of l → R d

end Verif
