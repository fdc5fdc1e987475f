import Verif.Props.WorldSettles
import Verif.Props.WorldSolveExample
import Verif.Props.WorldLinesExample
/-!
# C93: examples
-/
namespace Verif

theorem liner_few {f : Port → Bytes → List Bytes} {l : List PEv} (h : (liner f).Lives l) :
    l.length ≤ (takenIn l).length + (putOut .out l).length + (putOut .err l).length + yes (.sawEnd ∈ l) + yes (.refused .out ∈ l) + yes (.refused .err ∈ l) + 1 ∧
    (¬ Exited l → l.length ≤ (takenIn l).length + (putOut .out l).length + (putOut .err l).length + yes (.sawEnd ∈ l) + yes (.refused .out ∈ l) + yes (.refused .err ∈ l)) := by
  induction h with
  | start => simp
  | @next l e h1 h2 h3 ih =>
    have ih := ih.2 h2
    have mono : ∀ x : PEv, yes (x ∈ l) ≤ yes (x ∈ l ++ [e]) := fun x => by
      unfold yes
      by_cases hx : x ∈ l <;> simp [hx]
    have new : ∀ x : PEv, e = x → x ∉ l → yes (x ∈ l) = 0 ∧ yes (x ∈ l ++ [e]) = 1 := fun x h hx => by
      unfold yes
      simp [h, hx]
    have m1 := mono .sawEnd
    have m2 := mono (.refused .out)
    have m3 := mono (.refused .err)
    simp only [takenIn_append, putOut_append, List.length_append, List.length_singleton]
    have write : ∀ p, (liner f l = .write p ((dueLines f p l).flatten.drop (putOut p l).length)) → (putOut p l).length < (dueLines f p l).flatten.length → .refused p ∉ l →
        l.length + 1 ≤ (takenIn l).length + (takenIn [e]).length + ((putOut .out l).length + (putOut .out [e]).length) + ((putOut .err l).length + (putOut .err [e]).length) +
          yes (.sawEnd ∈ l ++ [e]) + yes (.refused .out ∈ l ++ [e]) + yes (.refused .err ∈ l ++ [e]) := by
      intro p hw hlt hr
      rw [hw] at h3
      have hne : (dueLines f p l).flatten.drop (putOut p l).length ≠ [] := fun h => by have := List.drop_eq_nil_iff.mp h; omega
      generalize (dueLines f p l).flatten.drop (putOut p l).length = m at h3 hne
      cases h3 with
      | @put _ d _ k1 k2 =>
        have hd := List.length_pos_iff.mpr (k2 hne)
        have : (putOut p [.put p d]).length = d.length := by simp [putOut]
        cases p <;> omega
      | refused =>
        have := new _ rfl hr
        cases p <;> omega
    by_cases c1 : (putOut .out l).length < (dueLines f .out l).flatten.length ∧ .refused .out ∉ l
    · have := write .out (if_pos c1) c1.1 c1.2
      exact ⟨by omega, fun _ => this⟩
    by_cases c2 : (putOut .err l).length < (dueLines f .err l).flatten.length ∧ .refused .err ∉ l
    · have := write .err ((if_neg c1).trans (if_pos c2)) c2.1 c2.2
      exact ⟨by omega, fun _ => this⟩
    by_cases c3 : .sawEnd ∈ l
    · have hw : liner f l = .exit (some 0) := ((if_neg c1).trans (if_neg c2)).trans (if_pos c3)
      have := h3.of_exit hw
      subst this
      exact ⟨by omega, fun h => absurd ⟨some 0, by simp⟩ h⟩
    · have hw : liner f l = .read := ((if_neg c1).trans (if_neg c2)).trans (if_neg c3)
      rw [hw] at h3
      cases h3 with
      | @took d hd =>
        have hd := List.length_pos_iff.mpr hd
        have : (takenIn [.took d]).length = d.length := by simp [takenIn]
        exact ⟨by omega, fun _ => by omega⟩
      | sawEnd =>
        have := new _ rfl c3
        exact ⟨by omega, fun _ => by omega⟩

theorem liner_finite (f : Port → Bytes → List Bytes) : (liner f).Finite := by
  refine Program.finite_of (fun t => t.length + ((wholeLines t).flatMap (f .out)).flatten.length + ((wholeLines t).flatMap (f .err)).flatten.length + 4) fun l hl => ?_
  have h1 := (liner_few hl).1
  have h2 := ((liner_goes hl).due .out).length_le
  have h3 := ((liner_goes hl).due .err).length_le
  have y : ∀ (p : Prop) [Decidable p], yes p ≤ 1 := fun p _ => by unfold yes; split <;> omega
  have := y (PEv.sawEnd ∈ l)
  have := y (PEv.refused .out ∈ l)
  have := y (PEv.refused .err ∈ l)
  simp only [dueLines] at h2 h3
  omega

/-! ## The loop with a buffer comes to rest, and stays so -/

def noriaRank : Who → Nat
  | .part (.launch, _) .input => 4
  | .part (.launch, _) _ => 0
  | .part (.buffer, _) .input => 1
  | .part (.buffer, _) _ => 2
  | .part (.faucet, _) _ => 0
  | .part (.junction, _) _ => 3
  | _ => 5

theorem noria_free : CircleFree noriaHops := circleFree_of noriaRank (by decide +kernel) (by decide +kernel) (fun _ => Nat.lt_succ_self 1)

/-- The run goes on for ever, fairly. -/
noncomputable def noriaSchedule : Nat → Option Happening := noriaWaiter.schedule [] noriaCaps 3 noriaProgs noriaAll

theorem noria_fair : noriaWaiter.FairWorld [] noriaCaps 3 noriaProgs noriaSchedule := Waiter.schedule_fair noria_runs

theorem noria_parts (n : Nat) : soFar noriaSchedule n = noriaAll.take n ∨ ∃ U, soFar noriaSchedule n = noriaAll ++ U := by
  by_cases hn : n ≤ noriaAll.length
  · exact Or.inl (Waiter.schedule_before hn)
  · obtain ⟨u, hu, _⟩ := soFar_le (σ := noriaSchedule) (Nat.le_of_not_le hn)
    have : soFar noriaSchedule noriaAll.length = noriaAll := by
      have := Waiter.schedule_before (w := noriaWaiter) (cs := []) (cap := noriaCaps) (room := 3) (prog := noriaProgs) (T := noriaAll) (Nat.le_refl _)
      rwa [List.take_length] at this
    rw [this] at hu
    exact Or.inr ⟨u, hu⟩

theorem noria_parts' (n : Nat) : (∀ i, ∀ f ∈ acts (proj i (coreOf (soFar noriaSchedule n))), f.trouble = false) ∧
    ∀ b i g, noria.HopOf b i g → g.src.ty = .faucet → noriaWaiter.Supplies (coreOf (soFar noriaSchedule n)) g noriaText := by
  rcases noria_parts n with h | ⟨U, h⟩
  · have hc : coreOf (noriaAll.take n) <+: coreOf noriaAll := by
      conv => rhs; rw [← List.take_append_drop n noriaAll, coreOf_append]
      exact List.prefix_append _ _
    obtain ⟨t, ht⟩ := hc
    rw [h]
    refine ⟨fun i f hf => ?_, fun b i g hg e => ?_⟩
    · refine noria_calm i f ?_
      rw [← ht, proj_append, acts_append]
      exact List.mem_append_left _ hf
    · have := noria_supplies b i g hg e
      rw [← ht] at this
      exact this.earlier (noria_straight b i g hg)
  · obtain ⟨printed, h1, h2⟩ := noria_made
    have run := noria_fair.runs n
    rw [h] at run ⊢
    obtain ⟨k1, _, k3, _⟩ := C93_stays noria_sound (fun _ => .refl _) (fun _ => .refl _) (fun _ => .refl _) h1 h2 (order := []) rfl noria_caps noria_store noria_still noria_calm run
    refine ⟨k1, fun b i g hg e => ?_⟩
    have := noria_supplies b i g hg e
    unfold Waiter.Supplies at this ⊢
    rwa [k3 b i g hg e]

/-- It comes to rest, for all the reading of its own output, and the drain has got what was to be expected. -/
example : ∃ N, ∀ n, N ≤ n → (∃ st, execAll noriaCaps Store.init ((coreOf (soFar noriaSchedule n)).map Prod.snd) = some st ∧ noriaWaiter.AtRest [] noriaCaps 3 noriaProgs st (soFar noriaSchedule n)) ∧
    noria.Balances (fun _ => noriaStep) (fun _ => noriaText) (linesRead (soFar noriaSchedule n)) := by
  obtain ⟨printed, h1, h2⟩ := noria_made
  obtain ⟨N, hN⟩ := C93_computes noria_sound (fun _ => .refl _) (fun _ => .refl _) (fun _ => .refl _) h1 h2 (order := []) rfl noria_free noria_buffered noria_caps noria_inner (by decide) noria_fair
    (fun _ _ => liner_finite _) (fun n i _ => (noria_parts' n).1 i) noria_straight (fun x _ => liner_lineByLine noria_whole) (fun n => (noria_parts' n).2) noria_text noria_plan
  exact ⟨N, fun n hn => ⟨(hN n hn).1, (hN n hn).2.1⟩⟩

/-- There is a plan, as it comes to rest. -/
example : ∃ M, noria.Grants (fun _ => noriaStep) (fun _ => noriaText) M := by
  obtain ⟨printed, h1, h2⟩ := noria_made
  refine (C93_iff noria_sound (fun _ => .refl _) (fun _ => .refl _) (fun _ => .refl _) h1 h2 (order := []) rfl noria_free noria_buffered noria_caps noria_inner (by decide) noria_fair
    (fun _ _ => liner_finite _) (fun n i _ => (noria_parts' n).1 i) noria_straight (fun b i h hh _ => noria_led b i h hh) (fun x _ => liner_lineByLine noria_whole) (fun n => (noria_parts' n).2) noria_text).mpr
    ⟨noriaAll.length, noriaRest, ?_⟩
  have : soFar noriaSchedule noriaAll.length = noriaAll := by
    have := Waiter.schedule_before (w := noriaWaiter) (cs := []) (cap := noriaCaps) (room := 3) (prog := noriaProgs) (T := noriaAll) (Nat.le_refl _)
    rwa [List.take_length] at this
  rw [this]
  exact ⟨noria_store, noria_rest⟩

/-! ## A loop that never comes to rest -/

/-- Gives back every line it reads. -/
def treadStep : Port → Bytes → List Bytes
  | .out, _ => []
  | .err, l => [l]

theorem tread_whole : ∀ p l, IsCompleteLine l → ∀ m ∈ treadStep p l, IsCompleteLine m := by
  intro p l hl m hm
  cases p <;> simp [treadStep] at hm
  subst hm; exact hl

/-- With such a program the loop never comes to rest: no plan would do. -/
example {room : Nat} (hroom : 0 < room) {σ : Nat → Option Happening} (F : noriaWaiter.FairWorld [] noriaCaps room (fun _ => liner treadStep) σ)
    (hf : ∀ n i, (∀ x p, i ≠ .part (.launch, x) p) → ∀ f ∈ acts (proj i (coreOf (soFar σ n))), f.trouble = false)
    (hF : ∀ n b i g, noria.HopOf b i g → g.src.ty = .faucet → noriaWaiter.Supplies (coreOf (soFar σ n)) g noriaText) :
    ¬ ∃ n st, execAll noriaCaps Store.init ((coreOf (soFar σ n)).map Prod.snd) = some st ∧ noriaWaiter.AtRest [] noriaCaps room (fun _ => liner treadStep) st (soFar σ n) := by
  obtain ⟨printed, h1, h2⟩ := noria_made
  intro hrest
  obtain ⟨M, hM⟩ := (C93_iff noria_sound (fun _ => .refl _) (fun _ => .refl _) (fun _ => .refl _) h1 h2 (order := []) (f := fun _ => treadStep) (B := fun _ => noriaText) rfl noria_free noria_buffered noria_caps noria_inner hroom F
    (fun _ _ => liner_finite _) hf noria_straight (fun b i h hh _ => noria_led b i h hh) (fun x _ => liner_lineByLine tread_whole) hF noria_text).mpr hrest
  obtain ⟨N, hN⟩ := C93_computes noria_sound (fun _ => .refl _) (fun _ => .refl _) (fun _ => .refl _) h1 h2 (order := []) (f := fun _ => treadStep) (B := fun _ => noriaText) rfl noria_free noria_buffered noria_caps noria_inner hroom F
    (fun _ _ => liner_finite _) hf noria_straight (fun x _ => liner_lineByLine tread_whole) hF noria_text hM
  have := ((hN N (Nat.le_refl _)).2.1 _ _ _ _ _ noria_fork rfl noria_into_wheel noria_brings).length_eq
  have e : specLines noriaText = [[2, 10], [1, 10]] := by decide +kernel
  have back : ∀ l : List Bytes, l.flatMap (treadStep .err) = l := fun l => by
    induction l with
    | nil => rfl
    | cons a l ih => rw [List.flatMap_cons, ih]; rfl
  simp only [List.flatMap_cons, List.flatMap_nil, List.append_nil, Hop.flow, noriaTap, noriaPool, noriaFork, back, e, List.length_append, List.length_cons, List.length_nil] at this
  omega

end Verif
