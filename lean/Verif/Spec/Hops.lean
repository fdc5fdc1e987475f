import Verif.Model.Manip
import Verif.Spec.Settings
/-!
# Hops: what connection sets say, pair by pair

Used to state C34–C43 without reference to how connection sets are taken apart.
-/
namespace Verif

/-- From an output of a component to a component, with the variation and priority of the pipe. -/
structure Hop where
  src : OutRef
  set : Option Str
  dst : InRef
  input : InputPort
  dset : Option Str
  deriving Repr, DecidableEq

/-- A hop written as a connection set of two components. -/
def Hop.conn (h : Hop) : DConn :=
  .conns [.start h.src.ty h.src.name h.src.port h.set, .end h.dst.ty h.dst.name h.input h.dset]

def Connection.out : Connection → Option OutRef
  | .middle ty n _ o _ => some ⟨ty, n, o⟩
  | .start ty n o _ => some ⟨ty, n, o⟩
  | .end .. => none

def Connection.into : Connection → Option (InRef × InputPort)
  | .middle ty n i _ _ => some (⟨ty, n⟩, i)
  | .start .. => none
  | .end ty n i _ => some (⟨ty, n⟩, i)

def Connection.setName : Connection → Option Str
  | .middle _ _ _ _ s => s
  | .start _ _ _ s => s
  | .end _ _ _ s => s

/-- The hop from one component to the next. -/
def IsHop (a b : Connection) (h : Hop) : Prop :=
  a.out = some h.src ∧ a.setName = h.set ∧ b.into = some (h.dst, h.input) ∧ b.setName = h.dset

/-- The `i`-th hop of a connection set (from 0). -/
def HopAt (cs : List Connection) (i : Nat) (h : Hop) : Prop :=
  ∃ a b, cs[i]? = some a ∧ cs[i + 1]? = some b ∧ IsHop a b h

/-- Not a single component, nothing without an input but the first, nothing without an output but the last. -/
def WellFormed (cs : List Connection) : Prop :=
  cs.length ≠ 1 ∧ (∀ i a, cs[i + 1]? = some a → a.into ≠ none) ∧ (∀ i a b, cs[i]? = some a → cs[i + 1]? = some b → a.out ≠ none)

instance (cs : List Connection) : Decidable (WellFormed cs) :=
  decidable_of_iff (cs.length ≠ 1 ∧ (∀ a ∈ cs.tail, a.into ≠ none) ∧ ∀ a ∈ cs.dropLast, a.out ≠ none) <| by
    unfold WellFormed
    refine and_congr_right fun _ => and_congr ?_ ?_
    · constructor
      · intro h i a hi
        exact h a (List.mem_iff_getElem?.mpr ⟨i, by rw [List.getElem?_tail]; exact hi⟩)
      · intro h a ha
        obtain ⟨i, hi⟩ := List.mem_iff_getElem?.mp ha
        rw [List.getElem?_tail] at hi
        exact h i a hi
    · constructor
      · intro h i a b hi hi'
        refine h a (List.mem_iff_getElem?.mpr ⟨i, ?_⟩)
        have := (List.getElem?_eq_some_iff.mp hi').1
        rw [List.getElem?_dropLast, if_pos (by omega)]; exact hi
      · intro h a ha
        obtain ⟨i, hi⟩ := List.mem_iff_getElem?.mp ha
        rw [List.getElem?_dropLast] at hi
        split at hi
        · rename_i hlt
          exact h i a _ hi (List.getElem?_eq_getElem (by omega))
        · simp at hi

end Verif
