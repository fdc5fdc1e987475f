import Verif.Model.World
/-!
# Specification: programs as functions of their input
-/
namespace Verif

/-- What can happen to a program, anything being in its pipes. -/
inductive Program.Lives (p : Program) : List PEv → Prop
  | start : p.Lives []
  | next {l : List PEv} {e : PEv} : p.Lives l → ¬ Exited l → (p l).Allows e → p.Lives (l ++ [e])

/-- Pipes do as pipes do: nothing is read after the end, and as long as a program has not closed an output, what it writes there is taken. -/
structure Regular (l : List PEv) : Prop where
  nothing : ∀ a b, l = a ++ .sawEnd :: b → takenIn b = []
  listened : ∀ a p b, l = a ++ .refused p :: b → Shut p a

/-- It has read its input to the end. -/
def ReadsAll (l : List PEv) : Prop := ∃ a b, l = a ++ .sawEnd :: b ∧ ¬ ShutIn a

/-- A program that closes its input or ends only when it has read all of it. -/
def Program.Patient (p : Program) : Prop := ∀ l, p.Lives l → Regular l → ShutIn l → ReadsAll l

/-- A program that reads its input to the end, and prints a certain function of it. In which pieces it reads and writes, and when, is its own business. -/
structure Program.Filters (p : Program) (f : Bytes → Bytes) : Prop where
  reads : p.Patient
  prints : ∀ l, p.Lives l → Regular l → Exited l → putOut .out l = f (takenIn l)

/-- A program that, whatever it has read so far, has printed no more than the beginning of what belongs to that. -/
def Program.Follows (p : Program) (f : Bytes → Bytes) : Prop := ∀ l, p.Lives l → putOut .out l <+: f (takenIn l)

end Verif
