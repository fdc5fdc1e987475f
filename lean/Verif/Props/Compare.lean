import Verif.Model.Compare
import Verif.Props.Report
/-!
# Property C101: which errors are taken for the same, and what can be learnt from them
-/
namespace Verif

/-! ## Specification -/

/-- The error without what the operating system said. -/
def MErr.gist : MErr → MErr
  | .readIO j _ => .readIO j 0
  | .writeIO j _ d => .writeIO j 0 d
  | e => e

/-- Errors about which the comparison knows nothing. -/
def MErr.Incomparable : MErr → Prop
  | .closeIO _ | .openIO _ | .outputClosed _ _ _ | .launchSpawn | .panic => True
  | _ => False

/-- The three ways a name may be written. -/
def spellings (s : Str) : List Str := [s, (s.take 1).map Char.toUpper ++ s.drop 1, s.map Char.toUpper]

/-- The name of a port. -/
def OutputPort.name : OutputPort → Str
  | .out => "out".toList
  | .err => "err".toList
  | .exit => "exit".toList

/-! ## Theorems -/

/-- **C101** Two errors are taken for the same just if they are, up to what the operating system said, and of a kind that can be compared. -/
theorem C101_same (e f : MErr) : e.eq f = true ↔ e.gist = f.gist ∧ ¬ e.Incomparable := by
  cases e <;> cases f <;> simp [MErr.eq, MErr.gist, MErr.Incomparable, and_comm]

/-- **C101** The comparison is symmetric and transitive. -/
theorem C101_equivalence : (∀ e f : MErr, e.eq f = true → f.eq e = true) ∧ ∀ e f g : MErr, e.eq f = true → f.eq g = true → e.eq g = true := by
  have inc : ∀ {e f : MErr}, e.gist = f.gist → (e.Incomparable ↔ f.Incomparable) := by
    intro e f
    cases e <;> cases f <;> simp [MErr.gist, MErr.Incomparable]
  constructor
  · intro e f h
    rw [C101_same] at h ⊢
    exact ⟨h.1.symm, fun h' => h.2 ((inc h.1).mpr h')⟩
  · intro e f g h1 h2
    rw [C101_same] at h1 h2 ⊢
    exact ⟨h1.1.trans h2.1, h1.2⟩

/-- **C101** But it is not reflexive: an error is taken for itself just if it is of a kind that can be compared. -/
theorem C101_itself (e : MErr) : e.eq e = true ↔ ¬ e.Incomparable := by
  rw [C101_same]; simp

/-- **C101** Errors taken for the same are about the same pipe. -/
theorem C101_blame {e f : MErr} (h : e.eq f = true) : e.carried = f.carried ∧ e.journey = f.journey ∧ e.pullJourney = f.pullJourney ∧ e.journeySource = f.journeySource := by
  have := ((C101_same e f).mp h).1
  revert this
  cases e <;> cases f <;> simp [MErr.gist, MErr.carried, MErr.journey, MErr.pullJourney, MErr.journeySource] <;> intros <;> subst_vars <;> simp

/-- **C101** The two accessors together give all an error knows of the pipe it is about, and never disagree. -/
theorem C101_accessors (e : MErr) : e.carried.1 = e.journeySource ∧ e.carried.2 = (e.journey.map (·.dst)).or (e.pullJourney.map (·.dst)) ∧
    (∀ j, e.journey = some j → e.carried = (some j.src, some j.dst)) ∧ ∀ j, e.pullJourney = some j → e.carried = (some j.src, some j.dst) := by
  cases e <;> simp [MErr.carried, MErr.journey, MErr.pullJourney, MErr.journeySource] <;> intros <;> subst_vars <;> simp

/-- **C101** Ports can be read in three spellings each, and in no others. -/
theorem C101_ports (s : Str) (p : OutputPort) : OutputPort.parse s = .ok p ↔ s ∈ spellings p.name := by
  have h1 : spellings OutputPort.err.name = ["err".toList, "Err".toList, "ERR".toList] := by decide
  have h2 : spellings OutputPort.exit.name = ["exit".toList, "Exit".toList, "EXIT".toList] := by decide
  have h3 : spellings OutputPort.out.name = ["out".toList, "Out".toList, "OUT".toList] := by decide
  constructor
  · intro h
    unfold OutputPort.parse at h
    repeat' split at h
    all_goals first
      | (cases h; subst_vars; first | (rw [h1]; simp; done) | (rw [h2]; simp; done) | (rw [h3]; simp; done))
      | cases h
  · cases p
    all_goals first | rw [h1] | rw [h2] | rw [h3]
    all_goals
      simp only [List.mem_cons, List.not_mem_nil, or_false]
      rintro (rfl | rfl | rfl) <;> rfl

/-- Two failed writes of the same data to the same pipe, the disk being full or the file too large; a closed pipe. -/
example : (MErr.writeIO ⟨1, none, 2, .terminate⟩ 28 [1, 10]).eq (.writeIO ⟨1, none, 2, .terminate⟩ 27 [1, 10]) = true ∧
    (MErr.outputClosed ⟨1, none, 2, .terminate⟩ .brokenPipe []).eq (.outputClosed ⟨1, none, 2, .terminate⟩ .brokenPipe []) = false ∧
    OutputPort.parse "eRR".toList = .error "eRR".toList := by decide

end Verif
