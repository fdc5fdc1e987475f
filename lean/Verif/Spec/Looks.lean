import Verif.Spec.Doze
/-!
# Looking again
-/
namespace Verif

/-- An event in which nothing is taken in, handed on or found wrong: somebody finds nothing in an input, sleeps, or lets go of an input. -/
def Ev.looks : Ev → Bool
  | ⟨.tryRecv _ _, .got _⟩ => false
  | ⟨.tryRecv _ _, _⟩ => true
  | ⟨.recv _ _, none⟩ => true
  | ⟨.stat _ _, _⟩ => true
  | ⟨.sleep _, _⟩ => true
  | ⟨.close _ _, _⟩ => true
  | _ => false

end Verif
