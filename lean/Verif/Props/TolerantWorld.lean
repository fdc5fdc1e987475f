import Verif.Props.Tolerant
import Verif.Props.WorldEndsExample
/-!
# Property C98, with the programs

What ends programs early, or what they refuse, are failures like others. So are files that cannot be written to.
-/
namespace Verif

section
variable {c : Config} {R : Map Hop} {w w' : Waiter} {order : List (Str × Watch)} {cap : Caps} {room : Nat} {prog : Str → Program} {σ : Nat → Option Happening}

/-- **C98** Whatever is refused, and whenever programs choose to end or to read no more: without managers and without anything leading back to where it started, be it through programs, everything ends, programs
included, if the pipes out of junctions have variation `C` or `F`, no program goes on for ever without reading more and more, every file that is read has an end, and whoever can make something happen does so
sooner or later. -/
theorem C98_world (hc : c.connection = hopSets R) (hw : getWaiter c = .ok w) (hp : w.regulatorSettings order = .ok ([], w')) (hC : Complete (R.map (·.2)))
    (hcf : NoWayBack (R.map (·.2))) (hL : Lenient (R.map (·.2))) (hcap : ∀ k ch, cap k ch ≠ some 0) (hroom : 0 < room) (F : w'.FairWorld [] cap room prog σ)
    (hfin : ∀ x, w'.comps.get (.launch, x) ≠ none → (prog x).Finite)
    (hB : ∀ x h, ∃ B, ∀ n, (receivedFrom (.handle h) (proj (.part (.faucet, x) .main) (coreOf (soFar σ n)))).length ≤ B) :
    ∃ n, w'.AllOver [] (soFar σ n) ∧ ∀ m, n ≤ m → σ m = none :=
  C87_ends hc hw hp hC hcf hcap hroom F hfin hB fun n _ _ _ _ hn => lenient_ruins (bad := fun _ => false) hc hw hp hC hL (F.runs n).core.plain hn

end

/-! ## An example -/

/-- A file into another one, and into a program; its exit status into a third. -/
def fount : List (Str × Hop) :=
  [("m_1".toList, ⟨⟨.faucet, "well".toList, .out⟩, none, ⟨.junction, "fork".toList⟩, ⟨.terminate, 0⟩, none⟩),
   ("m_2".toList, ⟨⟨.junction, "fork".toList, .out⟩, none, ⟨.launch, "sip".toList⟩, ⟨.consume, 0⟩, none⟩),
   ("m_3".toList, ⟨⟨.launch, "sip".toList, .exit⟩, none, ⟨.drain, "code".toList⟩, ⟨.terminate, 0⟩, none⟩),
   ("n_1".toList, ⟨⟨.junction, "fork".toList, .out⟩, none, ⟨.drain, "sea".toList⟩, ⟨.finish, 0⟩, none⟩)]
def fountConfig : Config where
  faucet := [("well".toList, "-".toList)]
  regulator := []
  drain := []
  launch := [("sip".toList, ⟨some "head".toList, none, [], []⟩)]
  connection := hopSets fount
def fountWaiter : Waiter := ((getWaiter fountConfig).ok?).getD Waiter.new
def fountFeed : Feed := fun h => if h = 0 then [[1, 10], [2, 10], [3, 10], [4, 10]] else []

/-- Ends as soon as it has read something, or has seen that there is nothing. -/
def sipper : Program := fun l => if takenIn l = [] ∧ .sawEnd ∉ l then .read else .exit (some 0)
def fountProgs : Str → Program := fun _ => sipper
theorem fount_built : getWaiter fountConfig = .ok fountWaiter := by decide +kernel
theorem fount_complete : Complete (fount.map (·.2)) := complete_of (by decide +kernel) (by decide +kernel)
/-- A run. The program ends after its first read. -/
def fountAll : List Happening := fountWaiter.worldDrive [] quernCaps 2 fountProgs fountFeed (([0, 6, 0, 6, 0, 6, 0, 6, 13, 0, 6, 13, 24, 30, 6, 13, 24, 30, 0, 6, 13, 0, 6, 13, 24, 6, 13, 24, 0, 6, 13, 16, 0, 6,
  16, 18, 24, 0, 6, 16, 18, 24, 6, 18, 6, 18, 24, 6, 18, 24, 6, 6, 6, 24, 24, 24] : List Nat).filterMap fun k => (fountWaiter.everybody [])[k]?)
theorem fount_runs : fountWaiter.WorldRun [] quernCaps 2 fountProgs fountAll := Waiter.worldDrive_runs _ _
theorem fount_over : fountWaiter.AllOver [] fountAll := by
  have h : Exited (historyOf "sip".toList fountAll) := by decide +kernel
  refine ⟨Waiter.overNow_sound (by decide +kernel), fun x hx => ?_⟩
  obtain ⟨y, hy⟩ := Option.ne_none_iff_exists'.mp hx
  have hk : ∀ z ∈ fountWaiter.comps, z.1.1 = .launch → z.1.2 = "sip".toList := by decide +kernel
  rw [show x = "sip".toList from hk ((.launch, x), y) (Table.get_mem hy) rfl]
  exact h

/-- What it has not read is refused, which the junction is told. -/
example : (acts (proj (.part (.launch, "sip".toList) .input) (coreOf fountAll))).any (fun f => f.fails) = true ∧
    (acts (proj (.part (.junction, "fork".toList) .main) (coreOf fountAll))).any (fun f => f.fails) = true := by decide +kernel
/-- All the same everything arrives at the sea. -/
example : received (proj (.part (.drain, "sea".toList) .main) (coreOf fountAll)) = [[1, 10], [2, 10], [3, 10], [4, 10]] := by decide +kernel

theorem sipper_steps {l : List PEv} (h : sipper.Lives l) : l.length ≤ (takenIn l).length + 2 := by
  have : (¬ Exited l → l.length ≤ (takenIn l).length + 1 ∧ (.sawEnd ∉ l → l.length ≤ (takenIn l).length)) ∧ l.length ≤ (takenIn l).length + 2 := by
    induction h with
    | start => simp
    | @next l e h1 h2 h3 ih =>
      obtain ⟨i1, i2⟩ := ih
      obtain ⟨i1, i3⟩ := i1 h2
      rw [takenIn_snoc]
      by_cases c1 : takenIn l = [] ∧ .sawEnd ∉ l
      · have hr : sipper l = .read := by simp [sipper, c1]
        have h0 : l.length ≤ 0 := by simpa [c1.1] using i3 c1.2
        rw [hr] at h3
        cases h3 with
        | @took d hd =>
          have := List.length_pos_iff.mpr hd
          refine ⟨fun _ => ⟨?_, fun _ => ?_⟩, ?_⟩ <;> simp [takenIn, c1.1] <;> omega
        | sawEnd => refine ⟨fun _ => ⟨?_, fun h => absurd (by simp) h⟩, ?_⟩ <;> simp [takenIn, c1.1] <;> omega
      · have he := h3.of_exit (c := some 0) (by simp only [sipper, c1, if_false])
        subst he
        refine ⟨fun h => absurd ⟨some 0, by simp⟩ h, ?_⟩
        simp only [List.length_append, List.length_singleton]
        omega
  exact this.2
theorem sipper_finite : sipper.Finite := Program.finite_of (fun t => t.length + 2) fun l hl => sipper_steps hl
theorem fount_lenient : Lenient (fount.map (·.2)) := by
  have : ∀ h ∈ fount.map (·.2), h.src.ty = .junction → h.input.breakable ≠ .terminate := by decide +kernel
  exact this
def fountRank : CompRef → Nat
  | (.junction, _) => 1
  | (.launch, _) => 2
  | (.drain, _) => 3
  | _ => 0
theorem fount_free : NoWayBack (fount.map (·.2)) := C85_components (noReturn fountRank (by
  have : ∀ h ∈ fount.map (·.2), fountRank h.from < fountRank h.to := by decide +kernel
  rintro a b ⟨h, hm, rfl, rfl⟩
  exact this h hm))
example : ∃ n, fountWaiter.AllOver [] (soFar (fun n => fountAll[n]?) n) ∧ ∀ m, n ≤ m → fountAll[m]? = none :=
  C98_world (order := []) rfl fount_built rfl fount_complete fount_free fount_lenient (fun k ch => by unfold quernCaps; split <;> simp) (by decide) (fount_over.fair fount_runs) (fun _ _ => sipper_finite)
    (fun x h => ⟨(receivedFrom (.handle h) (proj (.part (.faucet, x) .main) (coreOf fountAll))).length, fun n => by
      have hu : coreOf fountAll = coreOf (soFar (fun n => fountAll[n]?) n) ++ coreOf (fountAll.drop n) := by rw [soFar_list, ← coreOf_append, List.take_append_drop]
      rw [hu, proj_append, receivedFrom_append, List.length_append]
      omega⟩)

end Verif
