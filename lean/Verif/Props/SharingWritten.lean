import Verif.Props.Sharing
import Verif.Props.PriorityWritten
/-!
# C104: connections of the same number, in a configuration as it is written
-/
namespace Verif

theorem map_slot {R : Map Hop} {k : Str} {h : Hop} (hk : R.get k = some h) : ∃ i : Nat, R[i]? = some (k, h) ∧ (R.map (·.2))[i]? = some h := by
  obtain ⟨i, hi⟩ := List.getElem?_of_mem (mem_of_get hk)
  exact ⟨i, hi, by simp [hi]⟩

/-- Channels are in the order of the names of their hops. -/
theorem slot_lt {R : Map Hop} (hR : R.Sorted) {i i' : Nat} {k k' : Str} {h h' : Hop} (hi : R[i]? = some (k, h)) (hi' : R[i']? = some (k', h')) (hlt : strLt k k' = true) : i < i' := by
  apply Classical.byContradiction
  intro hn
  rcases Nat.lt_or_eq_of_le (Nat.le_of_not_lt hn) with h1 | rfl
  · obtain ⟨l1, e1⟩ := List.getElem?_eq_some_iff.mp hi
    obtain ⟨l2, e2⟩ := List.getElem?_eq_some_iff.mp hi'
    have := List.pairwise_iff_getElem.mp hR _ _ l2 l1 h1
    rw [e1, e2] at this
    rw [strLt_asymm hlt] at this
    cases this
  · rw [hi] at hi'
    cases hi'
    rw [strLt_irrefl] at hlt
    cases hlt

theorem key_found {m : Map Hop} {k : Str} (h : k ∈ m.keys) : ∃ v, m.get k = some v := by
  cases hk : m.get k with
  | some v => exact ⟨v, rfl⟩
  | none =>
    exfalso
    induction m with
    | nil => simp [Map.keys] at h
    | cons x m ih =>
      simp only [Map.get] at hk
      split at hk
      · cases hk
      · simp only [Map.keys, List.map_cons, List.mem_cons] at h
        rcases h with h | h
        · simp_all
        · exact ih h hk

section
variable {c : Config} {hs : List Hop} {M R R' : Map Hop} {S : List SIns} {E : List EIns} {T : List Spy}

theorem Laid.listed (P : Laid c M R R' S E T) {k : Str} {h : Hop} (hk : R.get k = some h) : h ∈ R'.map (·.2) := (lists_map P.sorted' _).mpr ⟨_, P.kept _ _ hk⟩

theorem Laid.leads (P : Laid c M R R' S E T) {b : Str} {n : Nat} {h : Hop} (hh : c.HopOf b n h) {y : EIns} (hy : y ∈ E) (he : h.dst = y.ref) :
    ∃ (i : Nat) (h' : Hop), R'[i]? = some (indexedKey b (n + 1), h') ∧ (R'.map (·.2))[i]? = some h' ∧ h'.to = (.junction, y.junction) ∧ h'.input = h.input ∧
      Carries (R'.map (·.2)) (.junction, y.junction) i h := by
  have hM := (P.hops _ _).mpr ⟨b, n, hh, (counted_iff (by omega) _).mpr rfl⟩
  obtain ⟨h', f1, f2, f3, f4⟩ := P.ins.old _ _ hM
  obtain ⟨i, i1, i2⟩ := map_slot (P.kept _ _ f1)
  have ht : h'.to = (.junction, y.junction) := by
    rw [he, newDst_of_mem P.ins.refsNodup.2 hy] at f3
    simp [Hop.to, f3]
  refine ⟨i, h', i1, i2, ht, f4, h', i2, ht, f4, ?_⟩
  rcases newSrc_cases S h.src with ⟨x, hx, e1, e2⟩ | ⟨_, e2⟩
  · right
    obtain ⟨_, _, q⟩ := P.ins.starts x hx
    refine ⟨_, P.listed q, e1, ?_, by rw [f2, e2]⟩
    simp [Hop.to, Hop.from, f2, e2]
  · left; rw [f2, e2]

/-- Where two connections end there is a junction. -/
theorem Laid.merges (P : Laid c M R R' S E T) {b b' : Str} {n n' : Nat} {f g : Hop} (hf : c.HopOf b n f) (hg : c.HopOf b' n' g) (hfg : f.dst = g.dst) (hne : (b, n) ≠ (b', n')) :
    ∃ y ∈ E, y.ref = f.dst := by
  have hMf := (P.hops _ _).mpr ⟨b, n, hf, (counted_iff (by omega) _).mpr rfl⟩
  have hMg := (P.hops _ _).mpr ⟨b', n', hg, (counted_iff (by omega) _).mpr rfl⟩
  obtain ⟨f', f1, f2, f3, f4⟩ := P.ins.old _ _ hMf
  obtain ⟨g', g1, g2, g3, g4⟩ := P.ins.old _ _ hMg
  rcases newDst_cases E f.dst with ⟨y, hy, e1, e2⟩ | ⟨_, e2⟩
  · exact ⟨y, hy, e1⟩
  · exfalso
    have := (P.one _ _ f' g' f1 g1).2 (by rw [f3, g3, hfg]) (by rw [f3, e2]; exact JunctionIn.dst hMf)
    obtain ⟨e, e'⟩ := indexedKey_inj this
    exact hne (by rw [e]; congr 1; omega)

/-- What leads into a junction that was put in where connections end is from those. -/
theorem Laid.intoMerge (P : Laid c M R R' S E T) {y : EIns} (hy : y ∈ E) {h' : Hop} (hh : h' ∈ R'.map (·.2)) (ht : h'.to = (.junction, y.junction)) :
    ∃ b n h, c.HopOf b n h ∧ h.dst = y.ref ∧ h'.input = h.input := by
  obtain ⟨k, hk⟩ := (lists_map P.sorted' _).mp hh
  have hty : h'.dst.ty = .junction := congrArg Prod.fst ht
  have hna : h'.dst.name = y.junction := congrArg Prod.snd ht
  rcases P.split k h' hk with ⟨t, _, _, rfl⟩ | hR
  · cases hty
  · rcases P.ins.only k (mem_keys_of_get hR) with h1 | ⟨x, hx, rfl⟩ | ⟨x, hx, rfl⟩
    · obtain ⟨h, h2⟩ := key_found h1
      obtain ⟨h'', a1, a2, a3, a4⟩ := P.ins.old _ _ h2
      rw [hR] at a1
      cases a1
      obtain ⟨b, n, a5, _⟩ := (P.hops _ _).mp h2
      refine ⟨b, n, h, a5, ?_, a4⟩
      rcases newDst_cases E h.dst with ⟨z, hz, e1, e2⟩ | ⟨_, e2⟩
      · rw [a3, e2] at hna
        have : z = y := by
          have := (List.nodup_append.mp P.ins.namesNodup).2.1
          exact nodup_map_inj this hz hy hna
        rw [← e1, this]
      · exfalso
        rw [a3, e2] at hna hty
        refine P.ins.newNames.2 y hy ?_
        rw [← hna]
        exact JunctionIn.dst h2 hty
    · exfalso
      obtain ⟨_, _, q⟩ := P.ins.starts x hx
      rw [hR] at q
      cases q
      exact (List.nodup_append.mp P.ins.namesNodup).2.2 _ (List.mem_map.mpr ⟨x, hx, rfl⟩) _ (List.mem_map.mpr ⟨y, hy, rfl⟩) hna
    · exfalso
      obtain ⟨h0, ⟨k0, hk0, e0, _⟩, q⟩ := P.ins.ends x hx
      rw [hR] at q
      cases q
      refine P.ins.newNames.2 y hy ?_
      have := JunctionIn.dst hk0
      rw [e0] at this
      rw [← hna]
      exact this hty

end

section
variable {c c' : Config} {hs : List Hop} {perm : List OutRef → List OutRef} {perm' : List InRef → List InRef} {spyOrder : List Str → List Str} {printed : List Str}
  {w w' : Waiter} {order : List (Str × Watch)} {cs : List Capture} {cap : Caps} {bad : CompRef → Bool}

/-- **C104** In terms of the configuration as it is written: of two connections that end at the same component with the same number, while another one there has a smaller number, only the one whose name and place come
first in the order of strings (`m_10` before `m_2`) is served as long as it has something: at most one message of the other is taken, unless the component has closed its input. -/
theorem C104_written_starved (hS : c.Sound hs) (hp : ∀ l, (perm l).Perm l) (hp' : ∀ l, (perm' l).Perm l) (ho : ∀ l, (spyOrder l).Perm l)
    (hm : manipulate perm perm' spyOrder c = some (c', printed)) (hw : getWaiter c' = .ok w) (hq : w.regulatorSettings order = .ok (cs, w'))
    {a b : Str} {m n : Nat} {f g r : Hop} (hf : c.HopOf a m f) (hg : c.HopOf b n g) (hfg : f.dst = g.dst) (hsame : g.input.priority = f.input.priority)
    (hfirst : strLt (indexedKey b (n + 1)) (indexedKey a (m + 1)) = true) (hr : r ∈ hs) (hrg : r.dst = g.dst) (hless : r.input.priority < g.input.priority) :
    ∃ (R' : Map Hop) (j : CompRef) (ch₁ ch₂ o : Nat) (x : Hop), c'.connection = hopSets R' ∧ j.1 = .junction ∧
      Carries (R'.map (·.2)) j ch₁ f ∧ Carries (R'.map (·.2)) j ch₂ g ∧ (R'.map (·.2))[o]? = some x ∧ x.from = j ∧ x.dst = f.dst ∧
      ∀ τ₁ τ₂, w'.RunWith cs bad cap (τ₁ ++ τ₂) → (∀ υ, υ <+: τ₂ → Waits cap (τ₁ ++ υ) ch₂) → ¬ Gone cap (τ₁ ++ τ₂) o →
        (receivedFrom (.chan ch₁) (proj (.part j .main) τ₂)).length ≤ 1 := by
  obtain ⟨M, R, R', S, E, T, drain', printed', h1, P, h3⟩ := hS.laid hp hp' ho
  rw [hm] at h1
  cases h1
  have hC := P.complete hS.hops hS.complete
  obtain ⟨br, nr, hrh⟩ := (hS.hops r).mp hr
  obtain ⟨y, hy, e⟩ := P.merges hf hg hfg (by rintro ⟨⟩; rw [strLt_irrefl] at hfirst; cases hfirst)
  obtain ⟨_, _, q⟩ := P.ins.ends y hy
  obtain ⟨o, hco⟩ := List.getElem?_of_mem (P.listed q)
  obtain ⟨ch₁, f', f1, f2, f3, f4, f5⟩ := P.leads hf hy e.symm
  obtain ⟨ch₂, g', g1, g2, g3, g4, g5⟩ := P.leads hg hy (by rw [← hfg, e])
  obtain ⟨ch₃, r', r1, r2, r3, r4, r5⟩ := P.leads hrh hy (by rw [hrg, ← hfg, e])
  refine ⟨R', (.junction, y.junction), ch₁, ch₂, o, _, rfl, rfl, f5, g5, hco, rfl, e, fun τ₁ τ₂ hrun hfull hopen => ?_⟩
  exact C104_starved rfl hw hq hC rfl hrun g2 f2 (slot_lt P.sorted' g1 f1 hfirst) g3 f3 (by rw [g4, f4, hsame]) (List.mem_of_getElem? r2) r3 (by rw [r4, g4]; exact hless)
    ⟨o, _, hco, rfl, fun h => hopen h.2⟩ hfull

/-- **C104** A connection with the smallest number of those that end at the same component, which always has something, gets its turns. -/
theorem C104_written_shared (hS : c.Sound hs) (hp : ∀ l, (perm l).Perm l) (hp' : ∀ l, (perm' l).Perm l) (ho : ∀ l, (spyOrder l).Perm l)
    (hm : manipulate perm perm' spyOrder c = some (c', printed)) (hw : getWaiter c' = .ok w) (hq : w.regulatorSettings order = .ok (cs, w'))
    {a b : Str} {m n : Nat} {f g : Hop} (hf : c.HopOf a m f) (hg : c.HopOf b n g) (hne : (a, m) ≠ (b, n)) (hfg : f.dst = g.dst)
    (hmin : ∀ h ∈ hs, h.dst = g.dst → g.input.priority ≤ h.input.priority) :
    ∃ (R' : Map Hop) (j : CompRef) (ch₁ ch₂ o : Nat) (x : Hop), c'.connection = hopSets R' ∧ j.1 = .junction ∧
      Carries (R'.map (·.2)) j ch₁ f ∧ Carries (R'.map (·.2)) j ch₂ g ∧ ch₁ ≠ ch₂ ∧ (R'.map (·.2))[o]? = some x ∧ x.from = j ∧ x.dst = f.dst ∧
      ∀ τ₁ τ₂, w'.RunWith cs bad cap (τ₁ ++ τ₂) → (∀ υ, υ <+: τ₂ → Waits cap (τ₁ ++ υ) ch₂) → ¬ Gone cap (τ₁ ++ τ₂) o →
        (receivedFrom (.chan ch₁) (proj (.part j .main) τ₂)).length ≤ (receivedFrom (.chan ch₂) (proj (.part j .main) τ₂)).length + 2 := by
  obtain ⟨M, R, R', S, E, T, drain', printed', h1, P, h3⟩ := hS.laid hp hp' ho
  rw [hm] at h1
  cases h1
  have hC := P.complete hS.hops hS.complete
  obtain ⟨y, hy, e⟩ := P.merges hf hg hfg hne
  obtain ⟨_, _, q⟩ := P.ins.ends y hy
  obtain ⟨o, hco⟩ := List.getElem?_of_mem (P.listed q)
  obtain ⟨ch₁, f', f1, f2, f3, f4, f5⟩ := P.leads hf hy e.symm
  obtain ⟨ch₂, g', g1, g2, g3, g4, g5⟩ := P.leads hg hy (by rw [← hfg, e])
  refine ⟨R', (.junction, y.junction), ch₁, ch₂, o, _, rfl, rfl, f5, g5, ?_, hco, rfl, e, fun τ₁ τ₂ hrun hfull hopen => ?_⟩
  · rintro rfl
    rw [f1] at g1
    simp only [Option.some.injEq, Prod.mk.injEq] at g1
    obtain ⟨e1, e2⟩ := indexedKey_inj g1.1
    exact hne (by rw [e1]; congr 1; omega)
  · refine C104_shared rfl hw hq hC rfl hrun g2 g3 (fun h' hh ht => ?_) ⟨o, _, hco, rfl, fun h => hopen h.2⟩ hfull ch₁
    obtain ⟨b', n', h, k1, k2, k3⟩ := P.intoMerge hy hh ht
    rw [k3, g4]
    exact hmin h ((hS.hops _).mpr ⟨_, _, k1⟩) (by rw [k2, e, hfg])

end

namespace Example

/-- Three connections end at one drain, as they are written; two with the number 0. -/
def basin : Config where
  faucet := [("left".toList, "a.txt".toList), ("right".toList, "b.txt".toList), ("rush".toList, "c.txt".toList)]
  drain := [("sea".toList, "d.txt".toList)]
  regulator := []
  launch := []
  connection := [("a".toList, .conns [.start .faucet "left".toList .out none, .end .drain "sea".toList ⟨.terminate, 0⟩ none]),
    ("b".toList, .conns [.start .faucet "right".toList .out none, .end .drain "sea".toList ⟨.terminate, 0⟩ none]),
    ("c".toList, .conns [.start .faucet "rush".toList .out none, .end .drain "sea".toList ⟨.terminate, -1⟩ none])]

def basinA : Hop := ⟨⟨.faucet, "left".toList, .out⟩, none, ⟨.drain, "sea".toList⟩, ⟨.terminate, 0⟩, none⟩
def basinB : Hop := ⟨⟨.faucet, "right".toList, .out⟩, none, ⟨.drain, "sea".toList⟩, ⟨.terminate, 0⟩, none⟩
def basinC : Hop := ⟨⟨.faucet, "rush".toList, .out⟩, none, ⟨.drain, "sea".toList⟩, ⟨.terminate, -1⟩, none⟩
theorem basin_a : basin.HopOf "a".toList 0 basinA := ⟨_, _, List.mem_cons_self, rfl, _, _, rfl, rfl, rfl, rfl, rfl, rfl⟩
theorem basin_b : basin.HopOf "b".toList 0 basinB := ⟨_, _, List.mem_cons_of_mem _ List.mem_cons_self, rfl, _, _, rfl, rfl, rfl, rfl, rfl, rfl⟩
theorem basin_c : basin.HopOf "c".toList 0 basinC := ⟨_, _, List.mem_cons_of_mem _ (List.mem_cons_of_mem _ List.mem_cons_self), rfl, _, _, rfl, rfl, rfl, rfl, rfl, rfl⟩

theorem basin_hops {b i h} (hh : basin.HopOf b i h) : (b = "a".toList ∧ i = 0 ∧ h = basinA) ∨ (b = "b".toList ∧ i = 0 ∧ h = basinB) ∨ (b = "c".toList ∧ i = 0 ∧ h = basinC) := by
  obtain ⟨d, cs, hm, hd, x, y, hx, hy, e1, e2, e3, e4⟩ := hh
  obtain ⟨s, st, t, inp, dst⟩ := h
  simp only [basin, List.mem_cons, Prod.mk.injEq, List.not_mem_nil, or_false] at hm
  rcases hm with ⟨rfl, rfl⟩ | ⟨rfl, rfl⟩ | ⟨rfl, rfl⟩ <;> simp only [DConn.Means] at hd <;> subst hd
  all_goals
    rcases i with _ | _ | i <;> simp at hx hy
    subst hx hy
    simp [Connection.out, Connection.into, Connection.setName] at e1 e2 e3 e4
    simp [basinA, basinB, basinC, ← e1, ← e2, ← e3.1, ← e3.2, ← e4]

theorem basin_sound : basin.Sound [basinA, basinB, basinC] := by
  refine ⟨by decide +kernel, ?_, ?_, ⟨?_, ?_, ?_, ?_, ?_, ?_⟩, ?_, complete_of (by decide +kernel) (by decide +kernel)⟩
  · intro b d h
    simp only [basin, List.mem_cons, Prod.mk.injEq, List.not_mem_nil, or_false] at h
    rcases h with ⟨_, rfl⟩ | ⟨_, rfl⟩ | ⟨_, rfl⟩
    all_goals
      refine ⟨_, rfl, by simp, ?_, ?_⟩
      · intro i a hi
        rcases i with _ | _ | i <;> simp at hi
        all_goals (subst hi; simp [Connection.into])
      · intro i a b hi hi'
        rcases i with _ | _ | i <;> simp at hi hi'
        all_goals (subst hi; simp [Connection.out])
  · intro b i h hh hd
    rcases basin_hops hh with ⟨_, _, rfl⟩ | ⟨_, _, rfl⟩ | ⟨_, _, rfl⟩ <;> simp [basinA, basinB, basinC, basin, Map.keys]
  · intro b i h hh
    rcases basin_hops hh with ⟨_, _, rfl⟩ | ⟨_, _, rfl⟩ | ⟨_, _, rfl⟩ <;> simp [Config.Runnable, Hop.from, Hop.to, basinA, basinB, basinC, basin, Map.get, List.lookup]
  · intro b i h hh
    rcases basin_hops hh with ⟨_, _, rfl⟩ | ⟨_, _, rfl⟩ | ⟨_, _, rfl⟩ <;> simp [basinA, basinB, basinC]
  · intro b i h hh
    rcases basin_hops hh with ⟨_, _, rfl⟩ | ⟨_, _, rfl⟩ | ⟨_, _, rfl⟩ <;> simp [basinA, basinB, basinC]
  · intro b i h hh
    rcases basin_hops hh with ⟨_, _, rfl⟩ | ⟨_, _, rfl⟩ | ⟨_, _, rfl⟩ <;> simp [basinA, basinB, basinC]
  · intro b i h b' i' h' hh hh'
    rcases basin_hops hh with ⟨_, _, rfl⟩ | ⟨_, _, rfl⟩ | ⟨_, _, rfl⟩ <;> rcases basin_hops hh' with ⟨_, _, rfl⟩ | ⟨_, _, rfl⟩ | ⟨_, _, rfl⟩ <;> simp [basinA, basinB, basinC]
  · intro b i h k hh hk hfirst
    rcases basin_hops hh with ⟨_, _, rfl⟩ | ⟨_, _, rfl⟩ | ⟨rfl, rfl, rfl⟩
    · intros; rfl
    · intros; rfl
    · exfalso
      have := hfirst _ _ _ _ basin_a rfl ((counted_iff (by omega) _).mpr rfl)
      rw [counted_iff (by omega)] at hk
      subst hk
      revert this
      decide +kernel
  · intro h
    constructor
    · intro hh
      simp only [List.mem_cons, List.not_mem_nil, or_false] at hh
      rcases hh with rfl | rfl | rfl
      · exact ⟨_, _, basin_a⟩
      · exact ⟨_, _, basin_b⟩
      · exact ⟨_, _, basin_c⟩
    · rintro ⟨b, i, hh⟩
      rcases basin_hops hh with ⟨_, _, rfl⟩ | ⟨_, _, rfl⟩ | ⟨_, _, rfl⟩ <;> simp

def basinWaiter : Waiter := match manipulate id id id basin with
  | some (c', _) => ((getWaiter c').ok?).getD Waiter.new
  | none => Waiter.new
theorem basin_made : ∃ c' printed, manipulate id id id basin = some (c', printed) ∧ getWaiter c' = .ok basinWaiter := by
  cases h : manipulate id id id basin with
  | none => exact absurd (show (manipulate id id id basin).isSome = true by decide +kernel) (by simp [h])
  | some x =>
    refine ⟨x.1, x.2, rfl, ?_⟩
    have h1 : basinWaiter = ((getWaiter x.1).ok?).getD Waiter.new := by simp only [basinWaiter, h]
    have h2 : ((manipulate id id id basin).bind fun x => (getWaiter x.1).ok?).isSome = true := by decide +kernel
    rw [h] at h2
    simp only [Option.bind_some] at h2
    rw [h1]
    cases h3 : getWaiter x.1 with
    | ok v => rfl
    | err e => rw [h3] at h2; cases h2
    | panic => rw [h3] at h2; cases h2

/-- While there is something of `left`, at most one line of `right` reaches the drain. -/
example {bad : CompRef → Bool} {cap : Caps} : ∃ (c' : Config) (R' : Map Hop) (j : CompRef) (ch₁ ch₂ o : Nat) (x : Hop), c'.connection = hopSets R' ∧ j.1 = .junction ∧
    Carries (R'.map (·.2)) j ch₁ basinB ∧ Carries (R'.map (·.2)) j ch₂ basinA ∧ (R'.map (·.2))[o]? = some x ∧ x.from = j ∧ x.dst = ⟨.drain, "sea".toList⟩ ∧
    ∀ τ₁ τ₂, basinWaiter.RunWith [] bad cap (τ₁ ++ τ₂) → (∀ υ, υ <+: τ₂ → Waits cap (τ₁ ++ υ) ch₂) → ¬ Gone cap (τ₁ ++ τ₂) o →
      (receivedFrom (.chan ch₁) (proj (.part j .main) τ₂)).length ≤ 1 := by
  obtain ⟨c', printed, h1, h2⟩ := basin_made
  obtain ⟨R', h⟩ := C104_written_starved (bad := bad) (cap := cap) basin_sound (fun _ => .refl _) (fun _ => .refl _) (fun _ => .refl _) h1 h2 (order := []) rfl
    basin_b basin_a rfl rfl (by decide +kernel) (r := basinC) (by simp) rfl (by decide)
  exact ⟨c', R', h⟩

/-- Lines of `rush` get their turns; here even alone. -/
example {bad : CompRef → Bool} {cap : Caps} : ∃ (c' : Config) (R' : Map Hop) (j : CompRef) (ch₁ ch₂ o : Nat) (x : Hop), c'.connection = hopSets R' ∧ j.1 = .junction ∧
    Carries (R'.map (·.2)) j ch₁ basinA ∧ Carries (R'.map (·.2)) j ch₂ basinC ∧ ch₁ ≠ ch₂ ∧ (R'.map (·.2))[o]? = some x ∧ x.from = j ∧ x.dst = ⟨.drain, "sea".toList⟩ ∧
    ∀ τ₁ τ₂, basinWaiter.RunWith [] bad cap (τ₁ ++ τ₂) → (∀ υ, υ <+: τ₂ → Waits cap (τ₁ ++ υ) ch₂) → ¬ Gone cap (τ₁ ++ τ₂) o →
      (receivedFrom (.chan ch₁) (proj (.part j .main) τ₂)).length ≤ (receivedFrom (.chan ch₂) (proj (.part j .main) τ₂)).length + 2 := by
  obtain ⟨c', printed, h1, h2⟩ := basin_made
  obtain ⟨R', h⟩ := C104_written_shared (bad := bad) (cap := cap) basin_sound (fun _ => .refl _) (fun _ => .refl _) (fun _ => .refl _) h1 h2 (order := []) rfl
    basin_a basin_c (by decide) rfl (by decide)
  exact ⟨c', R', h⟩

end Example
end Verif
