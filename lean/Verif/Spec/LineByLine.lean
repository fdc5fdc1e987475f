import Verif.Spec.Filter
import Verif.Spec.Doze
/-!
# Specification: programs that go through their input line by line
-/
namespace Verif

/-- What a program that makes these lines of a line has to print, having read this. -/
def dueLines (f : Port → Bytes → List Bytes) (p : Port) (l : List PEv) : List Bytes := (wholeLines (takenIn l)).flatMap (f p)

/-- A program that for every complete line it reads prints certain lines on its outputs, which depend on nothing but that line: filters and editors of lines are like that. It reads to the end of its input before it
ends, keeps its outputs open until then, and before it waits for input it has printed what is due. In which pieces it reads and writes is its own business. -/
structure Program.LineByLine (g : Program) (f : Port → Bytes → List Bytes) : Prop where
  whole : ∀ p l, IsCompleteLine l → ∀ m ∈ f p l, IsCompleteLine m
  reads : g.Patient
  opened : ∀ l, g.Lives l → Regular l → ∀ p, .shut p ∉ l
  prints : ∀ l, g.Lives l → Regular l → ∀ p, putOut p l <+: (dueLines f p l).flatten
  prompt : ∀ l, g.Lives l → Regular l → Exited l ∨ g l = .read → ∀ p, putOut p l = (dueLines f p l).flatten

/-- The elements of the one are among those of the other, each as often at least. -/
def Among {α : Type} (a b : List α) : Prop := ∃ r, (a ++ r).Perm b

end Verif
