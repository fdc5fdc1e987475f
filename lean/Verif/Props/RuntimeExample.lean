import Verif.Lemmas.Drive
import Verif.Props.RuntimeFlow
/-!
# A runtime of six components and a manager

An instance of everything in Props/RuntimeFlow.lean: it runs to its end.
-/
namespace Verif

/-- A file through a regulator, a buffer and a program into a drain; the exit status of the program into another. -/
def mill : List (Str × Hop) :=
  [("m_1".toList, ⟨⟨.faucet, "tap".toList, .out⟩, none, ⟨.regulator, "gate".toList⟩, ⟨.terminate, 0⟩, none⟩),
   ("m_2".toList, ⟨⟨.regulator, "gate".toList, .out⟩, none, ⟨.buffer, "tank".toList⟩, ⟨.terminate, 0⟩, none⟩),
   ("m_3".toList, ⟨⟨.buffer, "tank".toList, .out⟩, none, ⟨.launch, "wheel".toList⟩, ⟨.terminate, 0⟩, none⟩),
   ("m_4".toList, ⟨⟨.launch, "wheel".toList, .out⟩, none, ⟨.drain, "tub".toList⟩, ⟨.terminate, 0⟩, none⟩),
   ("n_1".toList, ⟨⟨.launch, "wheel".toList, .exit⟩, none, ⟨.drain, "code".toList⟩, ⟨.terminate, 0⟩, none⟩)]
def millConfig : Config where
  faucet := [("tap".toList, "-".toList)]
  regulator := [("gate".toList, ⟨some (0, 2), ["tank".toList]⟩)]
  drain := []
  launch := [("wheel".toList, ⟨some "cat".toList, none, [], []⟩)]
  connection := hopSets mill
def millWaiter : Waiter := ((getWaiter millConfig).ok?).getD Waiter.new

def millReady : List Capture × Waiter := match millWaiter.regulatorSettings [("gate".toList, ⟨0, 2, ["tank".toList]⟩)] with
  | .ok x => x
  | _ => ([], Waiter.new)
def millCaps : Caps := fun k c => if k = .data ∧ c < 5 then some 1 else none
def millFeed : Feed := fun h => if h = 0 then [[1, 10], [2, 10], [3, 10]] else if h = 10 then [[6, 10]] else []
def millOrder : List Who := (List.replicate 28 (millReady.2.everyone millReady.1)).flatten
def millTrace := millReady.2.drive millReady.1 millCaps millFeed (.code 3) millOrder

theorem mill_built : getWaiter millConfig = .ok millWaiter := by decide +kernel
theorem mill_prepared : millWaiter.regulatorSettings [("gate".toList, ⟨0, 2, ["tank".toList]⟩)] = .ok (millReady.1, millReady.2) := by decide +kernel
theorem mill_managed : millReady.1 = [⟨0, 2, "gate".toList, ["tank".toList]⟩] := by decide +kernel
theorem mill_runs : millReady.2.Run millReady.1 millCaps millTrace := Waiter.runs_sound (by decide +kernel)
theorem mill_over : millReady.2.Over millReady.1 millTrace := Waiter.overNow_sound (by decide +kernel)

/-- It is enough to look at both ends of every hop. -/
theorem complete_of {hs : List Hop}
    (h : ∀ h ∈ hs, ∀ r ∈ [h.from, h.to], (r.1 = .regulator ∨ r.1 = .buffer → ∃ h ∈ hs, h.to = r) ∧
      (r.1 = .regulator ∨ r.1 = .buffer ∨ r.1 = .junction → ∃ h ∈ hs, h.from = r))
    (h' : ∀ h ∈ hs, h.from = h.to → h.src.ty ≠ .junction ∧ h.src.ty ≠ .regulator) : Complete hs where
  entered := fun r ⟨g, hg, hr⟩ => (h g hg r (by rcases hr with hr | hr <;> simp [hr])).1
  left := fun r ⟨g, hg, hr⟩ => (h g hg r (by rcases hr with hr | hr <;> simp [hr])).2
  proper := h'

theorem mill_complete : Complete (mill.map (·.2)) := complete_of (by decide +kernel) (by decide +kernel)

/-- It is enough to look at the activities there are. -/
theorem Waiter.Run.calm {w : Waiter} {cs : List Capture} {cap : Caps} {τ : List (Who × Ev)} (hr : w.Run cs cap τ)
    (h : ∀ i ∈ w.everyone cs, ∀ f ∈ acts (proj i τ), f.trouble = false) : ∀ i, ∀ f ∈ acts (proj i τ), f.trouble = false := by
  intro i
  by_cases hi : w.sys cs i = none
  · have : proj i τ = [] := by
      cases hp : proj i τ with
      | nil => rfl
      | cons e l =>
        have : e ∈ proj i τ := by rw [hp]; simp
        exact absurd hi (hr.known (i, e) (mem_proj.mp this))
    rw [this]; simp [acts]
  · exact h i (sys_everyone hi)

theorem mill_calm : ∀ i, ∀ f ∈ acts (proj i millTrace), f.trouble = false := mill_runs.calm (by decide +kernel)

/-! The theorems say that the fourth hop carries what the program printed, the fifth its exit status, … -/

example : receivedFrom (.chan 2) (proj (.part (.launch, "wheel".toList) .input) millTrace) = received (proj (.part (.buffer, "tank".toList) .output) millTrace) :=
  (C65_complete rfl mill_built mill_prepared mill_complete mill_runs mill_over mill_calm).1 2
    ⟨⟨.buffer, "tank".toList, .out⟩, none, ⟨.launch, "wheel".toList⟩, ⟨.terminate, 0⟩, none⟩ rfl (by decide)

example : ∃ k s m, receivedFrom (.chan 4) (proj (.part (.drain, "code".toList) .main) millTrace) = [m] ∧
    statuses (proj (.part (.launch, "wheel".toList) .exit) millTrace) = List.replicate k .err ++ [s] ∧ ExitText s m :=
  C65_exit_complete rfl mill_built mill_prepared mill_complete mill_runs mill_over mill_calm (i := 4)
    (h := ⟨⟨.launch, "wheel".toList, .exit⟩, none, ⟨.drain, "code".toList⟩, ⟨.terminate, 0⟩, none⟩) rfl (by decide)

/-! … and these are: -/

example : receivedFrom (.chan 2) (proj (.part (.launch, "wheel".toList) .input) millTrace) = [[1, 10], [2, 10], [3, 10]] := by decide +kernel
example : receivedFrom (.chan 3) (proj (.part (.drain, "tub".toList) .main) millTrace) = [[6, 10]] := by decide +kernel
example : receivedFrom (.chan 4) (proj (.part (.drain, "code".toList) .main) millTrace) = ["3".toUTF8.toList] := by decide +kernel

end Verif
