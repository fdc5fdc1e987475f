import Verif.Props.Wiring
import Verif.Props.Launch
import Verif.Props.Circles
import Verif.Props.RuntimeExample
/-!
# C51 in runtimes that have been built: when an exit port has a channel of its own
-/
namespace Verif

theorem pushEnds_iff {id : CompRef → Nat} {hs : List Hop} {q : Hop → Bool} {p : PushEnd} :
    p ∈ pushEnds id hs.zipIdx q ↔ ∃ h, hs[p.chan]? = some h ∧ q h = true ∧ h.pushEnd id p.chan = p := by
  unfold pushEnds
  simp only [List.mem_map, List.mem_filter]
  constructor
  · rintro ⟨⟨h, i⟩, ⟨h1, h2⟩, rfl⟩
    exact ⟨h, by simpa [Hop.pushEnd, List.mem_zipIdx_iff_getElem?] using h1, h2, rfl⟩
  · rintro ⟨h, h1, h2, h3⟩
    exact ⟨(h, p.chan), ⟨by simpa [List.mem_zipIdx_iff_getElem?] using h1, h2⟩, h3⟩

theorem pullEnds_iff {id : CompRef → Nat} {hs : List Hop} {q : Hop → Bool} {p : PullEnd × Int} :
    p ∈ pullEnds id hs.zipIdx q ↔ ∃ h, hs[p.1.chan]? = some h ∧ q h = true ∧ (h.pullEnd id p.1.chan, h.input.priority) = p := by
  unfold pullEnds
  simp only [List.mem_map, List.mem_filter]
  constructor
  · rintro ⟨⟨h, i⟩, ⟨h1, h2⟩, rfl⟩
    exact ⟨h, by simpa [Hop.pullEnd, List.mem_zipIdx_iff_getElem?] using h1, h2, rfl⟩
  · rintro ⟨h, h1, h2, h3⟩
    exact ⟨(h, p.1.chan), ⟨by simpa [List.mem_zipIdx_iff_getElem?] using h1, h2⟩, h3⟩

/-- **C51** In every runtime that can be built the exit port of a program has a channel of its own, unless it is connected to the input of the same program. (Such a program is on a circle and
never ends: C81.) -/
theorem C51_apart (c : Config) (R : Map Hop) (hc : c.connection = hopSets R) {w : Waiter} (hw : getWaiter c = .ok w) {x : Str} {id env path cmd arg inp out err} {p : PushEnd}
    (hk : w.comps.get (.launch, x) = some (.launch id env path cmd arg inp out err (some p))) :
    LaunchEnds.Apart ⟨id, inp, out, err, some p⟩ p ↔ ¬ ∃ h ∈ R.map (·.2), h.isExit ∧ h.from = (.launch, x) ∧ h.to = (.launch, x) := by
  obtain ⟨hO, hI⟩ := C42_channels c R hc hw hk
  have hwd := C42_components c R hc hw
  have hm : Mentioned (R.map (·.2)) (.launch, x) := by
    apply Classical.byContradiction
    intro hn
    rw [hwd.only _ hn] at hk; cases hk
  have hk' := hk
  rw [hwd.comps _ hm, expected_launch _ _ _ _ rfl] at hk'
  generalize (R.map (·.2)) = hs at *
  injection hk' with hk'
  injection hk' with _ _ _ _ _ k1 k2 k3 k4
  have k4 := pushEnds_iff.mp (List.mem_of_mem_head? k4)
  obtain ⟨h, h1, h2, h3⟩ := k4
  have h2 : h.src = ⟨.launch, x, .exit⟩ := of_decide_eq_true h2
  have hx : h.isExit := by simp [Hop.isExit, h2]
  have hfrom : h.from = (.launch, x) := by simp [Hop.from, h2]
  constructor
  · rintro ⟨ha, _, _⟩ ⟨g, hg, hgx, hgf, hgt⟩
    obtain ⟨i, hi⟩ := List.getElem?_of_mem hg
    -- the end of this hop is the exit end
    have hp : g.pushEnd w.idOf i = p := by
      have : g.pushEnd w.idOf i ∈ (Comp.launch id env path cmd arg inp out err (some p)).outputs :=
        hO.mem_iff.mpr (pushEnds_iff.mpr ⟨g, hi, by simp [hgf], rfl⟩)
      have hport : (g.pushEnd w.idOf i).port = .exit := by simp [Hop.pushEnd, hgx.1, hgx.2]
      simp only [Comp.outputs, List.mem_append, Option.mem_toList] at this
      rcases this with (h | h) | h
      · rw [h] at k2
        obtain ⟨g', _, e, e'⟩ := pushEnds_iff.mp (List.mem_of_mem_head? k2)
        have e : g'.src = ⟨.launch, x, .out⟩ := of_decide_eq_true e
        rw [← e'] at hport
        simp [Hop.pushEnd, e] at hport
      · rw [h] at k3
        obtain ⟨g', _, e, e'⟩ := pushEnds_iff.mp (List.mem_of_mem_head? k3)
        have e : g'.src = ⟨.launch, x, .err⟩ := of_decide_eq_true e
        rw [← e'] at hport
        simp [Hop.pushEnd, e] at hport
      · exact (Option.some.inj h).symm
    have hq : (g.pullEnd w.idOf i, g.input.priority) ∈ (Comp.launch id env path cmd arg inp out err (some p)).inputs := by
      rw [hI]; exact pullEnds_iff.mpr ⟨g, hi, by simp [hgt], rfl⟩
    simp only [Comp.inputs, List.mem_map, Option.mem_toList] at hq
    obtain ⟨q, hq, e⟩ := hq
    have := ha q hq
    rw [← hp] at this
    injection e with e _
    rw [e] at this
    exact this rfl
  · intro hn
    refine ⟨fun q hq he => ?_, fun q hq he => ?_, fun q hq he => ?_⟩
    · have : (q, (0 : Int)) ∈ (Comp.launch id env path cmd arg inp out err (some p)).inputs := by
        have hq : inp = some q := hq
        simp [Comp.inputs, hq]
      rw [hI] at this
      obtain ⟨g, g1, g2, _⟩ := pullEnds_iff.mp this
      have he : q.chan = p.chan := he
      rw [show (q, (0 : Int)).1.chan = p.chan from he, h1] at g1
      cases g1
      exact hn ⟨h, List.mem_of_getElem? h1, hx, hfrom, of_decide_eq_true g2⟩
    · have hq : out = some q := hq
      rw [hq] at k2
      obtain ⟨g, g1, g2, _⟩ := pushEnds_iff.mp (List.mem_of_mem_head? k2)
      rw [he, h1] at g1
      cases g1
      have g2 : h.src = ⟨.launch, x, .out⟩ := of_decide_eq_true g2
      rw [h2] at g2
      simp at g2
    · have hq : err = some q := hq
      rw [hq] at k3
      obtain ⟨g, g1, g2, _⟩ := pushEnds_iff.mp (List.mem_of_mem_head? k3)
      rw [he, h1] at g1
      cases g1
      have g2 : h.src = ⟨.launch, x, .err⟩ := of_decide_eq_true g2
      rw [h2] at g2
      simp at g2

/-- **C51** A program the exit port of which is connected to its own input waits for itself: as long as nothing goes wrong its exit status is not even asked for, and the whole does not end. -/
theorem C51_own {c : Config} {R : Map Hop} {order : List (Str × Watch)} {w w' : Waiter} {cs : List Capture} {cap : Caps} {τ : List (Who × Ev)}
    (hc : c.connection = hopSets R) (hw : getWaiter c = .ok w) (hp : w.regulatorSettings order = .ok (cs, w')) (hC : Complete (R.map (·.2)))
    (hr : w'.Run cs cap τ) (hf : ∀ i, ∀ f ∈ acts (proj i τ), f.trouble = false) {h : Hop} (hm : h ∈ R.map (·.2)) (hx : h.isExit) (ht : h.to = h.from) :
    proj h.writer τ = [] ∧ ¬ w'.Over cs τ := by
  have hl : Leads (R.map (·.2)) (.part h.from .input) (.part h.from .input) := by
    have := Leads.exit hm hx (p := .input) (by simp [relayPieces])
    rwa [show h.reader = .part h.from .input by
      unfold Hop.reader
      rw [ht, show h.dst.ty = .launch from (congrArg Prod.fst ht).trans hx.1]] at this
  refine ⟨List.eq_nil_iff_forall_not_mem.mpr fun e he => ?_, C81_unending hc hw hp hC hr hf (.single hl)⟩
  have hwr : h.writer = .part h.from .exit := by unfold Hop.writer; rw [hx.1, hx.2]
  rw [hwr] at he
  obtain ⟨τ₁, τ₂, rfl⟩ := List.append_of_mem (mem_proj.mp he)
  have hr₁ : w'.Run cs cap τ₁ := by simpa using hr.take τ₁.length
  have hf₁ : ∀ i, ∀ f ∈ acts (proj i τ₁), f.trouble = false := by
    intro i f hm
    refine hf i f ?_
    rw [proj_append, acts_append]
    exact List.mem_append_left _ hm
  have hl' : Relation.TransGen (LeadsOn (R.map (·.2)) fun _ => False) (.part h.from .input) (.part h.from .input) := .single (.inside hl)
  obtain ⟨t, h1, h2⟩ := C81_circle hc hw hp hC hr₁ hf₁ (via := fun _ => False) (fun _ h => h.elim) hl' hl'
  exact h2 (hr.exits τ₁ τ₂ _ e rfl .input (by simp) t h1)

/-! ## Examples -/

section Example

/-- The mill's wheel reports its exit status to a drain. -/
example : ∃ id env path cmd arg inp out err p, millWaiter.comps.get (.launch, "wheel".toList) = some (.launch id env path cmd arg inp out err (some p)) ∧
    LaunchEnds.Apart ⟨id, inp, out, err, some p⟩ p := by
  refine ⟨_, _, _, _, _, _, _, _, _, rfl, (C51_apart millConfig mill rfl mill_built (x := "wheel".toList) rfl).mpr ?_⟩
  decide +kernel

/-- A program that is told its own exit status. -/
def snake : Map Hop :=
  [("s_0".toList, ⟨⟨.launch, "head".toList, .out⟩, none, ⟨.drain, "skin".toList⟩, ⟨.terminate, 0⟩, none⟩),
   ("s_1".toList, ⟨⟨.launch, "head".toList, .exit⟩, none, ⟨.launch, "head".toList⟩, ⟨.terminate, 0⟩, none⟩)]
def snakeConfig : Config where
  faucet := []
  regulator := []
  drain := []
  launch := [("head".toList, { command := some "cat".toList, path := none, env := [], arg := [] })]
  connection := hopSets snake
def snakeWaiter : Waiter := ((getWaiter snakeConfig).ok?).getD Waiter.new
def snakeTrace := snakeWaiter.drive [] brookCaps brookFeed (.code 3) (List.replicate 20 (snakeWaiter.everyone [])).flatten
theorem snake_built : getWaiter snakeConfig = .ok snakeWaiter := by decide +kernel
theorem snake_complete : Complete (snake.map (·.2)) := complete_of (by decide +kernel) (by decide +kernel)
theorem snake_runs : snakeWaiter.Run [] brookCaps snakeTrace := Waiter.runs_sound (by decide +kernel)
theorem snake_calm : ∀ i, ∀ f ∈ acts (proj i snakeTrace), f.trouble = false := snake_runs.calm (by decide +kernel)

/-- What it prints has ended, itself it has not. -/
example : endings (proj (.part (.drain, "skin".toList) .main) snakeTrace) = 1 ∧ proj (.part (.launch, "head".toList) .exit) snakeTrace = [] ∧ ¬ snakeWaiter.Over [] snakeTrace :=
  ⟨by decide +kernel, C51_own (c := snakeConfig) (R := snake) (order := []) rfl snake_built rfl snake_complete snake_runs snake_calm
    (h := (snake.map (·.2))[1]) (List.getElem_mem _) ⟨rfl, rfl⟩ rfl⟩

/-- And its exit port has not a channel of its own. -/
example : ∃ id env path cmd arg inp out err p, snakeWaiter.comps.get (.launch, "head".toList) = some (.launch id env path cmd arg inp out err (some p)) ∧
    ¬ LaunchEnds.Apart ⟨id, inp, out, err, some p⟩ p := by
  refine ⟨_, _, _, _, _, _, _, _, _, rfl, fun h => (C51_apart snakeConfig snake rfl snake_built (x := "head".toList) rfl).mp h ?_⟩
  decide +kernel

end Example

end Verif
