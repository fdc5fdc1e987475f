import Verif.Props.Unheard
/-!
# Example for C99: a regulator whose drain cannot create its file, controlled by a buffer of another pipe
-/
namespace Verif

/-- A file goes through a regulator into a drain that cannot create its file, another through a buffer into a drain; the buffer controls the regulator with watermarks 0 and 1. -/
def gorge : List (Str × Hop) :=
  [("m_1".toList, ⟨⟨.faucet, "spring".toList, .out⟩, none, ⟨.regulator, "gate".toList⟩, ⟨.terminate, 0⟩, none⟩),
   ("m_2".toList, ⟨⟨.regulator, "gate".toList, .out⟩, none, ⟨.drain, "field".toList⟩, ⟨.terminate, 0⟩, none⟩),
   ("n_1".toList, ⟨⟨.faucet, "well".toList, .out⟩, none, ⟨.buffer, "pond".toList⟩, ⟨.terminate, 0⟩, none⟩),
   ("n_2".toList, ⟨⟨.buffer, "pond".toList, .out⟩, none, ⟨.drain, "lake".toList⟩, ⟨.terminate, 0⟩, none⟩)]
def gorgeConfig : Config where
  faucet := [("spring".toList, "-".toList), ("well".toList, "w".toList)]
  regulator := [("gate".toList, ⟨some (0, 1), ["pond".toList]⟩)]
  drain := [("lake".toList, "-".toList), ("field".toList, "f".toList)]
  launch := []
  connection := hopSets gorge
def gorgeWaiter : Waiter := ((getWaiter gorgeConfig).ok?).getD Waiter.new
def gorgeReady : List Capture × Waiter := match gorgeWaiter.regulatorSettings gorgeWaiter.settings with
  | .ok x => x
  | _ => ([], Waiter.new)
def gorgeBad (r : CompRef) : Bool := r == (.drain, "field".toList)
def gorgeShut : Waiter := gorgeReady.2.shutting gorgeBad
def gorgeCaps : Caps := realCaps (gorge.map (·.2))
def gorgeFeed : Feed := fun _ => [[1, 10], [2, 10]]
def gorgeNames : List Who := [.part (.faucet, "spring".toList) .main, .part (.faucet, "well".toList) .main, .part (.regulator, "gate".toList) .main, .part (.buffer, "pond".toList) .input,
  .part (.buffer, "pond".toList) .output, .part (.buffer, "pond".toList) .count, .part (.drain, "field".toList) .main, .part (.drain, "lake".toList) .main, .manager "gate".toList]
/-- The drain gives up; the regulator is refused its first line and fails; the buffer takes a line and its manager hears of that. -/
def gorgeBegin := gorgeShut.drive gorgeReady.1 gorgeCaps gorgeFeed .err (([6, 0, 0, 0, 2, 2, 2, 2, 1, 1, 1, 3, 3, 3, 5, 5, 5, 5, 8] : List Nat).filterMap fun k => gorgeNames[k]?)
def gorgeId : Nat := gorgeReady.2.idOf (.regulator, "gate".toList)
/-- The manager asks the regulator to stop. -/
def gorgeTrace : List (Who × Ev) := gorgeBegin ++ [(.manager "gate".toList, ⟨.send .ctl gorgeId (), true⟩)]
def gorgeCapture : Capture := ⟨0, 1, "gate".toList, ["pond".toList]⟩

theorem gorge_built : getWaiter gorgeConfig = .ok gorgeWaiter := by decide +kernel
theorem gorge_prepared : gorgeWaiter.regulatorSettings gorgeWaiter.settings = .ok (gorgeReady.1, gorgeReady.2) := by decide +kernel
theorem gorge_complete : Complete (gorge.map (·.2)) := complete_of (by decide +kernel) (by decide +kernel)
theorem gorge_managed : gorgeCapture ∈ gorgeReady.1 := by decide +kernel
theorem gorge_opens (r : CompRef) (hr : r.1 = .faucet) (_ : gorgeConfig.Opens r) : gorgeBad r = false := by
  obtain ⟨t, x⟩ := r
  cases hr
  simp [gorgeBad]
theorem gorge_sys : gorgeShut.sys gorgeReady.1 = gorgeReady.2.sysWith gorgeReady.1 gorgeBad :=
  shutting_sys ((assembled (c := gorgeConfig) (R := gorge) rfl gorge_built gorge_prepared).opened gorge_opens)
theorem gorge_runs : gorgeShut.Run gorgeReady.1 gorgeCaps gorgeTrace := Waiter.runs_sound (by decide +kernel)
theorem gorge_gate : acts (proj (.part (.regulator, "gate".toList) .main) gorgeBegin) =
    [.got (.chan 0) [1, 10], .offer (.chan 1) [1, 10] (.closed .channelClosed), .close .data 1, .close .data 0] := by decide +kernel
theorem gorge_breaks : gorgeConfig.Breaks (gorge.map (·.2)) gorgeBad gorgeBegin (.regulator, "gate".toList) :=
  Or.inr ⟨.main, .offer (.chan 1) [1, 10] (.closed .channelClosed), by rw [gorge_gate]; simp, Or.inl ⟨_, rfl, Or.inr rfl⟩⟩

/-- **C99** There is a pipeline, and a course of events in it, after which the program does not end any more whatever happens: a regulator has failed and was asked to pause. -/
theorem C99_exists : ∃ (c : Config) (R : Map Hop) (w w' : Waiter) (cs : List Capture) (bad : CompRef → Bool) (τ : List (Who × Ev)) (r : Str),
    c.connection = hopSets R ∧ Complete (R.map (·.2)) ∧ getWaiter c = .ok w ∧ w.regulatorSettings w.settings = .ok (cs, w') ∧ w'.RunWith cs bad (realCaps (R.map (·.2))) τ ∧
    c.Breaks (R.map (·.2)) bad τ (.regulator, r) ∧
    ∀ τ' out, w'.RunWith cs bad (realCaps (R.map (·.2))) (τ ++ τ') → ¬ w'.Returns cs bad (τ ++ τ') out := by
  refine ⟨gorgeConfig, gorge, gorgeWaiter, gorgeReady.2, gorgeReady.1, gorgeBad, gorgeTrace, "gate".toList, rfl, gorge_complete, gorge_built, gorge_prepared,
    (shutting_run gorge_sys).mp gorge_runs, ?_, fun τ' out hr => ?_⟩
  · obtain h | ⟨p, x, hx, hx'⟩ := gorge_breaks
    · exact Or.inl h
    · exact Or.inr ⟨p, x, by rw [gorgeTrace, proj_append, acts_append]; exact List.mem_append_left _ hx, hx'⟩
  · rw [gorgeTrace, List.append_assoc] at hr ⊢
    exact C99_stuck (c := gorgeConfig) (R := gorge) rfl gorge_built gorge_prepared gorge_complete gorge_opens gorge_managed hr gorge_breaks out

end Verif
