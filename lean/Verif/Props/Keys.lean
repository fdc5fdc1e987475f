import Verif.Lemmas.Keys
/-!
# C39 Generated names
-/
namespace Verif
open Syntax

/-- `k` is `base`, an underscore and the decimal number `i`. -/
def Counted (base : Str) (i : Nat) (k : Str) : Prop :=
  ∃ ds, k = base ++ "_".toList ++ ds ∧ (∀ c ∈ ds, c ∈ digits) ∧ ds ≠ [] ∧ ds.head? ≠ some '0' ∧ number ds = i

theorem counted_iff {base : Str} {i : Nat} (hi : 0 < i) (k : Str) : Counted base i k ↔ k = indexedKey base i := by
  constructor
  · rintro ⟨ds, rfl, h1, h2, h3, rfl⟩
    rw [indexedKey, (natStr_number h1 h3 h2).1]; simp
  · rintro rfl
    exact ⟨natStr i, by simp [indexedKey], natStr_digits i, (natStr_head i hi).2, (natStr_head i hi).1, number_natStr i⟩

/-- **C39** A generated name is always found, is not in use, and is the first such of `base_1`, `base_2`, …. -/
theorem C39_fresh (base : Str) (existing : List Str) :
    newKey base existing ∉ existing ∧
    ∃ i > 0, Counted base i (newKey base existing) ∧ ∀ j, 0 < j → j < i → ∀ k, Counted base j k → k ∈ existing := by
  obtain ⟨j, hj, h1, h2, h3⟩ := newKey_spec base existing
  rw [h1]
  refine ⟨h2, j, hj, (counted_iff hj _).mpr rfl, ?_⟩
  intro i hi hij k hk
  rw [(counted_iff hi _).mp hk]
  exact h3 i hi hij

/-- **C39** Names counted differently, or from different bases, are different. -/
theorem C39_distinct {a b k : Str} {i j : Nat} (hi : 0 < i) (hj : 0 < j) (h : Counted a i k) (h' : Counted b j k) : a = b ∧ i = j := by
  rw [counted_iff hi] at h
  rw [counted_iff hj] at h'
  exact indexedKey_inj (h.symm.trans h')

example : newKey "dyn_drain".toList ["dyn_drain_1".toList, "x".toList, "dyn_drain_2".toList] = "dyn_drain_3".toList := by decide +kernel
example : Counted "dyn_drain".toList 12 "dyn_drain_12".toList :=
  ⟨"12".toList, by decide, by decide, by decide, by decide, by decide⟩

end Verif
