import Verif.Lemmas.WorldAsleep
import Verif.Props.WorldRest
import Verif.Props.WorldEndsExample
/-!
# C88: A loop with a buffer and one without
-/
namespace Verif

/-! ## With a buffer -/
namespace Example

/-- Prints the first line it is given, of two bytes, on its error output, and then only reads. -/
def echo : Program := fun l =>
  if .refused .err ∈ l then .exit (some 1)
  else if (putOut .err l).length < ((takenIn l).take 2).length then .write .err (((takenIn l).take 2).drop (putOut .err l).length)
  else if .sawEnd ∈ l then .exit (some 0) else .read
def pondAll : List Happening := brookWaiter.worldDrive [] pondCaps 2 (fun _ => echo) (fun h => if h = 0 then [[1, 10], [2, 10]] else []) (([0, 6, 17, 0, 6, 17, 0, 6, 17, 0, 6, 17, 0, 6, 13, 17, 0, 6,
  13, 14, 17, 30, 6, 13, 14, 17, 30, 6, 14, 17, 19, 6, 13, 17, 19, 42, 6, 13, 14, 17, 19, 30, 42, 6, 13, 14, 17, 21, 30, 6, 14, 17, 19, 21, 6, 17, 19, 21, 42, 6, 17, 19, 6, 17,
  6, 13, 17, 6, 13, 14, 17, 30, 6, 13, 14, 17, 30, 6, 14, 17, 19, 6, 17, 19, 42, 6, 17, 19, 6, 17, 6, 17, 6, 17, 6, 17] : List Nat).filterMap fun n => (brookWaiter.everybody [])[n]?)
def pondRest : Store := (execAll pondCaps Store.init ((coreOf pondAll).map Prod.snd)).getD Store.init

theorem pondAll_runs : brookWaiter.WorldRun [] pondCaps 2 (fun _ => echo) pondAll := Waiter.worldDrive_runs _ _
theorem pondRest_store : execAll pondCaps Store.init ((coreOf pondAll).map Prod.snd) = some pondRest := by
  obtain ⟨st, h⟩ := Option.isSome_iff_exists.mp pondAll_runs.core.exec.chans
  unfold pondRest
  rw [h]; rfl
theorem pondAll_calm : ∀ i, ∀ f ∈ acts (proj i (coreOf pondAll)), f.trouble = false := pondAll_runs.core.calm (by decide +kernel)
theorem pondAll_asleep : ¬ brookWaiter.Lively [] pondCaps 2 (fun _ => echo) pondRest pondAll := Waiter.asleep_sound pondAll_runs pondRest_store (by decide +kernel)

/-- The program has got its own line back, and now waits for more, for ever. -/
example : historyOf "wheel".toList pondAll = [.took [1, 10], .put .err [1, 10], .took [2, 10], .took [1, 10]] := by decide +kernel

example : echo (historyOf "wheel".toList pondAll) = .read ∧ inPipe "wheel".toList pondAll = [] ∧
    ∀ ch h, (brook.map (·.2))[ch]? = some h → (pondRest .data ch).q = [] := by
  obtain ⟨h1, h2⟩ := C88_plain (c := brookConfig) (R := brook) (order := []) (prog := fun _ => echo) rfl brook_built rfl brook_complete pond_buffered (by decide) pondAll_runs pondRest_store pondAll_calm pondAll_asleep
  obtain ⟨h3, h4, _⟩ := h2 "wheel".toList (by decide +kernel) (by decide +kernel)
  exact ⟨h3, h4, h1⟩

/-! ## Without a buffer -/

/-- `cat` -/
def cat : Program := filterBy (fun b => b) true
def gorgeAll : List Happening := gorgeWaiter.worldDrive [] gorgeCaps 2 (fun _ => cat) (fun h => if h = 0 then List.replicate 30 [7, 10] else []) (([0, 0, 0, 0, 0, 0, 0, 0, 0, 0, 0, 0, 0, 0, 0, 0, 0, 6,
  0, 0, 6, 6, 18, 18, 6, 6, 0, 0, 6, 6, 18, 18, 6, 6, 0, 0, 6, 6, 18, 18, 6, 6, 0, 0, 6, 6, 18, 18, 6, 6, 0, 0, 6, 6, 18, 18, 6, 6, 0, 0, 6, 6, 18, 18, 6, 6, 0, 0, 6, 6, 18, 18, 6, 6,
  0, 0, 6, 6, 18, 18, 6, 6, 0, 0, 13, 6, 6, 18, 18, 6, 6, 0, 0, 13, 13, 13, 6, 6, 18, 18, 6, 6, 0, 0, 24, 13, 13, 13, 6,
  6, 18, 18, 6, 6, 0, 0, 24, 24, 13, 13, 13, 6, 6, 18, 18, 6, 6, 0, 0, 14, 24, 24, 13, 13, 13, 6, 6, 18, 18, 6, 6, 0, 0,
  14, 14, 14, 24, 24, 13, 13, 13, 6, 6, 18, 18, 6, 14, 14, 14, 24, 24, 13, 13, 13, 6, 6, 18, 18, 6, 0, 0, 14] : List Nat).filterMap fun n => (gorgeWaiter.everybody [])[n]?)
def gorgeRest : Store := (execAll gorgeCaps Store.init ((coreOf gorgeAll).map Prod.snd)).getD Store.init

theorem gorgeAll_runs : gorgeWaiter.WorldRun [] gorgeCaps 2 (fun _ => cat) gorgeAll := Waiter.worldDrive_runs _ _
theorem gorgeRest_store : execAll gorgeCaps Store.init ((coreOf gorgeAll).map Prod.snd) = some gorgeRest := by
  obtain ⟨st, h⟩ := Option.isSome_iff_exists.mp gorgeAll_runs.core.exec.chans
  unfold gorgeRest
  rw [h]; rfl
theorem gorgeAll_calm : ∀ i, ∀ f ∈ acts (proj i (coreOf gorgeAll)), f.trouble = false := gorgeAll_runs.core.calm (by decide +kernel)
theorem gorgeAll_frozen (a : Happening) : ¬ gorgeWaiter.Next [] gorgeCaps 2 (fun _ => cat) gorgeAll a := Waiter.frozen_sound gorgeAll_runs gorgeRest_store (by decide +kernel) a

end Example

/-- **C88** Without a buffer on a loop a pipeline can come to a standstill with a program as harmless as `cat`, which prints what it reads: nothing fails and nothing at all can happen any more, not even
a junction looking again, while lines of a file lie in the channel to the junction, and the program waits to get rid of what it has read. -/
theorem C88_refuted : ∃ (c : Config) (R : Map Hop) (w : Waiter) (room : Nat) (prog : Str → Program) (T : List Happening) (st : Store), c.connection = hopSets R ∧ getWaiter c = .ok w ∧
    w.regulatorSettings [] = .ok ([], w) ∧ Complete (R.map (·.2)) ∧ 0 < room ∧ (∀ x, (prog x).Filters (fun b => b) ∧ (prog x).Finite) ∧
    w.WorldRun [] (realCaps (R.map (·.2))) room prog T ∧ execAll (realCaps (R.map (·.2))) Store.init ((coreOf T).map Prod.snd) = some st ∧
    (∀ i, ∀ f ∈ acts (proj i (coreOf T)), f.trouble = false) ∧ (∀ a, ¬ w.Next [] (realCaps (R.map (·.2))) room prog T a) ∧
    (∃ ch h, (R.map (·.2))[ch]? = some h ∧ h.src.ty = .faucet ∧ h.dst.ty = .junction ∧ (st .data ch).q ≠ [] ∧ ∀ t, w.sys [] h.reader = some t → ¬ t.Done (proj h.reader (coreOf T))) ∧
    ∃ x d, w.comps.get (.launch, x) ≠ none ∧ ¬ Exited (historyOf x T) ∧ d ≠ [] ∧ prog x (historyOf x T) = .write .out d := by
  refine ⟨Example.gorgeConfig, Example.gorge, Example.gorgeWaiter, 2, fun _ => Example.cat, Example.gorgeAll, Example.gorgeRest, rfl, Example.gorge_built, rfl, Example.gorge_complete, by decide,
    fun _ => ⟨filterBy_filters fun _ _ _ h => h, filterBy_finite fun _ _ _ h => h⟩, Example.gorgeAll_runs, Example.gorgeRest_store, Example.gorgeAll_calm, Example.gorgeAll_frozen,
    ⟨0, _, rfl, rfl, rfl, by decide +kernel, ?_⟩, "wheel".toList, [7, 10], by decide +kernel, by decide +kernel, by decide, by decide +kernel⟩
  intro t ht hd
  have hq : (Example.gorgeWaiter.sys [] (.part (.junction, "fork".toList) .main)).map (fun t => t.waits (proj (.part (.junction, "fork".toList) .main) (coreOf Example.gorgeAll))) =
      some (some (.send .data 1 [7, 10])) := by decide +kernel
  have ht : Example.gorgeWaiter.sys [] (.part (.junction, "fork".toList) .main) = some t := ht
  rw [ht] at hq
  simp only [Option.map_some, Option.some.injEq] at hq
  exact hd.stops (u := []) ((Task.waits_awaits hq).step true)

end Verif
