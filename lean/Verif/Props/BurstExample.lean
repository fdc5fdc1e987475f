import Verif.Props.Burst
import Verif.Spec.Exit
import Verif.Lemmas.Drive
/-!
# Example for C100: a disk is full
-/
namespace Verif

/-- A file goes through a regulator and a buffer, which controls the regulator with watermarks 0 and 1, into a drain. -/
def levee : List (Str × Hop) :=
  [("m_1".toList, ⟨⟨.faucet, "spring".toList, .out⟩, none, ⟨.regulator, "gate".toList⟩, ⟨.terminate, 0⟩, none⟩),
   ("m_2".toList, ⟨⟨.regulator, "gate".toList, .out⟩, none, ⟨.buffer, "pond".toList⟩, ⟨.terminate, 0⟩, none⟩),
   ("m_3".toList, ⟨⟨.buffer, "pond".toList, .out⟩, none, ⟨.drain, "lake".toList⟩, ⟨.terminate, 0⟩, none⟩)]
def leveeConfig : Config where
  faucet := [("spring".toList, "s".toList)]
  regulator := [("gate".toList, ⟨some (0, 1), ["pond".toList]⟩)]
  drain := [("lake".toList, "l".toList)]
  launch := []
  connection := hopSets levee
def leveeWaiter : Waiter := ((getWaiter leveeConfig).ok?).getD Waiter.new
def leveeReady : List Capture × Waiter := match leveeWaiter.regulatorSettings leveeWaiter.settings with
  | .ok x => x
  | _ => ([], Waiter.new)
def leveeCaps : Caps := realCaps (levee.map (·.2))
def leveeFeed : Feed := fun _ => [[1, 10], [2, 10], [3, 10], [4, 10], [5, 10]]
def leveeNames : List Who := [.part (.faucet, "spring".toList) .main, .part (.regulator, "gate".toList) .main, .part (.buffer, "pond".toList) .input, .part (.buffer, "pond".toList) .output,
  .part (.buffer, "pond".toList) .count, .part (.drain, "lake".toList) .main, .manager "gate".toList]
def leveeGo (τ : List (Who × Ev)) (l : List Nat) : List (Who × Ev) :=
  (l.filterMap fun k => leveeNames[k]?).foldl (fun τ i => leveeReady.2.turn leveeReady.1 leveeCaps leveeFeed .err i τ) τ
/-- Two lines go into the buffer, the regulator is told to wait, which it does after a third. The first line gets to the drain, -/
def leveeBegin : List (Who × Ev) := leveeGo []
  [0, 0, 0, 0, 0, 0, 1, 1, 1, 1, 1, 1, 2, 2, 2, 2, 2, 2, 4, 4, 4, 4, 4, 4, 4, 4, 6, 6, 1, 1, 1, 2, 2, 2, 3, 3, 3, 5]
def leveeFull : Who × Ev := (.part (.drain, "lake".toList) .main, ⟨.ioWrite 9 [1, 10], .other 28⟩)
/-- the disk is full. The second line is refused, the third remains in the buffer. The manager hears of everything. -/
def leveeTrace : List (Who × Ev) := leveeGo (leveeBegin ++ [leveeFull]) [5, 3, 3, 3, 3, 3, 3, 4, 4, 4, 4, 4, 4, 4, 6, 6]
def leveeCapture : Capture := ⟨0, 1, "gate".toList, ["pond".toList]⟩
def leveeStore : Store := (execAll leveeCaps Store.init (leveeTrace.map Prod.snd)).getD Store.init

theorem levee_built : getWaiter leveeConfig = .ok leveeWaiter := by decide +kernel
theorem levee_prepared : leveeWaiter.regulatorSettings leveeWaiter.settings = .ok (leveeReady.1, leveeReady.2) := by decide +kernel
theorem levee_complete : Complete (levee.map (·.2)) := complete_of (by decide +kernel) (by decide +kernel)
theorem levee_managed : leveeCapture ∈ leveeReady.1 := by decide +kernel
theorem levee_runs : leveeReady.2.Run leveeReady.1 leveeCaps leveeTrace := Waiter.runs_sound (by decide +kernel)
theorem levee_store : execAll leveeCaps Store.init (leveeTrace.map Prod.snd) = some leveeStore := by
  obtain ⟨st, h⟩ := Option.isSome_iff_exists.mp levee_runs.exec.chans
  rw [leveeStore, h]; rfl

theorem sysWith_none {w : Waiter} {cs : List Capture} : w.sysWith cs (fun _ => false) = w.sys cs := by
  funext i
  have : w.unopened (fun _ => false) i = none := by
    cases i with
    | manager => rfl
    | part r p =>
      cases p <;> first | rfl | (simp only [Waiter.unopened]; split <;> rfl)
  rw [Waiter.sysWith, this]
  rfl
theorem levee_runsWith : leveeReady.2.RunWith leveeReady.1 (fun _ => false) leveeCaps leveeTrace := by
  obtain ⟨h1, h2, h3⟩ := levee_runs
  rw [← sysWith_none] at h1 h2 h3
  exact ⟨h1, h2, h3⟩

theorem awaits_of {sys : Who → Option Task} {τ : List (Who × Ev)} {i : Who} {q : Req} (h : ((sys i).bind fun t => t.waits (proj i τ)) = some q) :
    ∃ t, sys i = some t ∧ t.Awaits (proj i τ) q := by
  obtain ⟨t, h1, h2⟩ := Option.bind_eq_some_iff.mp h
  exact ⟨t, h1, Task.waits_awaits h2⟩
theorem done_of {sys : Who → Option Task} {τ : List (Who × Ev)} {i : Who} (h : ((sys i).map fun t => t.finished (proj i τ)) = some true) :
    ∃ t, sys i = some t ∧ t.Done (proj i τ) := by
  obtain ⟨t, h1, h2⟩ := Option.map_eq_some_iff.mp h
  exact ⟨t, h1, Task.finished_done h2⟩

theorem levee_burst : leveeReady.2.Burst (leveeReady.2.sysWith leveeReady.1 fun _ => false) leveeStore leveeTrace leveeCapture "pond".toList 1 where
  paused := awaits_of (by decide +kernel)
  unasked := ⟨List.isEmpty_iff.mp (by decide +kernel), by decide +kernel⟩
  waits := awaits_of (by decide +kernel)
  dry := ⟨List.isEmpty_iff.mp (by decide +kernel), by decide +kernel⟩
  gone := done_of (by decide +kernel)
  noted := ⟨List.isEmpty_iff.mp (by decide +kernel), by decide +kernel, List.isEmpty_iff.mp (by decide +kernel)⟩
  told := ⟨List.isEmpty_iff.mp (by decide +kernel), by decide +kernel⟩
  counted := by decide +kernel
  much := by decide +kernel

/-- The drain has failed. -/
theorem levee_breaks : leveeConfig.Breaks (levee.map (·.2)) (fun _ => false) leveeTrace (.drain, "lake".toList) := by
  have h : acts (proj (.part (.drain, "lake".toList) .main) leveeTrace) = [.got (.chan 2) [1, 10], .offer (.handle 9) [1, 10] (.other 28), .close .data 2] := by decide +kernel
  refine Or.inr ⟨.main, .offer (.handle 9) [1, 10] (.other 28), by rw [h]; simp, ?_⟩
  trivial

/-- **C100** There is a pipeline, and a course of events in it, after which the program does not end any more whatever happens: a drain has failed while the regulator was waiting. -/
theorem C100_exists : ∃ (c : Config) (R : Map Hop) (w w' : Waiter) (cs : List Capture) (τ : List (Who × Ev)) (x r : Str),
    c.connection = hopSets R ∧ Complete (R.map (·.2)) ∧ getWaiter c = .ok w ∧ w.regulatorSettings w.settings = .ok (cs, w') ∧ w'.RunWith cs (fun _ => false) (realCaps (R.map (·.2))) τ ∧
    c.Breaks (R.map (·.2)) (fun _ => false) τ (.drain, x) ∧ ∀ τ', w'.RunWith cs (fun _ => false) (realCaps (R.map (·.2))) (τ ++ τ') → (∀ out, ¬ w'.Returns cs (fun _ => false) (τ ++ τ') out) ∧ proj (.part (.regulator, r) .main) τ' = [] := by
  refine ⟨leveeConfig, levee, leveeWaiter, leveeReady.2, leveeReady.1, leveeTrace, "lake".toList, "gate".toList, rfl, levee_complete, levee_built, levee_prepared, levee_runsWith, levee_breaks,
    fun τ' hr => ?_⟩
  have h := C100_stuck (c := leveeConfig) (R := levee) rfl levee_built levee_prepared levee_complete levee_managed (x := "pond".toList) (by decide) (i := 1) rfl rfl rfl (fun _ _ _ => rfl) levee_store levee_burst hr
  refine ⟨h.2.2, List.eq_nil_iff_forall_not_mem.mpr fun e he => ?_⟩
  exact (h.1 _ (mem_proj.mp he)).1 rfl

end Verif
