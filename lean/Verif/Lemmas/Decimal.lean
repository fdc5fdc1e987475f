import Verif.Props.Launch
import Verif.Lemmas.Parser
import Verif.Lemmas.Lines
/-!
# Decimal notation is unique
-/
namespace Verif
open Syntax

theorem number_same : ∀ {s t : Str}, s.length = t.length → (∀ c ∈ s, c ∈ digits) → (∀ c ∈ t, c ∈ digits) → number s = number t → s = t
  | [], [], _, _, _, _ => rfl
  | [], _ :: _, h, _, _, _ => by simp at h
  | _ :: _, [], h, _, _, _ => by simp at h
  | a :: s, b :: t, h, hs, ht, hn => by
    simp only [List.length_cons, Nat.add_right_cancel_iff] at h
    simp only [List.mem_cons, forall_eq_or_imp] at hs ht
    simp only [number] at hn
    have h1 := number_lt hs.2
    have h2 := number_lt ht.2
    rw [h] at hn h1
    have hp : 0 < 10 ^ t.length := Nat.pow_pos (by omega)
    have e1 : digits.idxOf a = digits.idxOf b := by
      have q1 : (digits.idxOf a * 10 ^ t.length + number s) / 10 ^ t.length = digits.idxOf a := by
        rw [Nat.mul_comm, Nat.mul_add_div hp, Nat.div_eq_of_lt h1, Nat.add_zero]
      have q2 : (digits.idxOf b * 10 ^ t.length + number t) / 10 ^ t.length = digits.idxOf b := by
        rw [Nat.mul_comm, Nat.mul_add_div hp, Nat.div_eq_of_lt h2, Nat.add_zero]
      rw [← q1, hn, q2]
    have e2 : a = b := by
      have q1 := List.getElem_idxOf (List.idxOf_lt_length_of_mem hs.1)
      have q2 := List.getElem_idxOf (List.idxOf_lt_length_of_mem ht.1)
      rw [← q1, ← q2]
      simp [e1]
    subst e2
    rw [number_same h hs.2 ht.2 (by omega)]

theorem number_ge {n : Nat} {s : Str} (h : DecimalNat n s) : s = ['0'] ∧ n = 0 ∨ 10 ^ (s.length - 1) ≤ n := by
  obtain ⟨h1, h2, h3, rfl⟩ := h
  cases s with
  | nil => exact absurd rfl h1
  | cons c s =>
    by_cases hc : c = '0'
    · subst hc
      have := h3 rfl
      rw [this]
      exact Or.inl ⟨rfl, by decide +kernel⟩
    · refine Or.inr ?_
      have : 0 < digits.idxOf c := by
        rcases Nat.eq_zero_or_pos (digits.idxOf c) with h | h
        · have q := List.getElem_idxOf (List.idxOf_lt_length_of_mem (h2 c (by simp)))
          simp only [h] at q
          exact absurd q.symm hc
        · exact h
      simp only [number, List.length_cons, Nat.add_sub_cancel]
      exact Nat.le_trans (Nat.le_mul_of_pos_left _ this) (Nat.le_add_right _ _)

theorem DecimalNat.length_le {n : Nat} {s t : Str} (hs : DecimalNat n s) (ht : DecimalNat n t) : s.length ≤ t.length := by
  have hl := number_lt ht.2.1
  rw [ht.2.2.2] at hl
  rcases number_ge hs with ⟨rfl, _⟩ | h
  · have := List.length_pos_iff.mpr ht.1
    exact this
  · have := (Nat.pow_lt_pow_iff_right (a := 10) (by omega)).mp (Nat.lt_of_le_of_lt h hl)
    omega

theorem DecimalNat.unique {n : Nat} {s t : Str} (hs : DecimalNat n s) (ht : DecimalNat n t) : s = t :=
  number_same (Nat.le_antisymm (hs.length_le ht) (ht.length_le hs)) hs.2.1 ht.2.1 (hs.2.2.2.trans ht.2.2.2.symm)

theorem Decimal.unique {n : Int} {s t : Str} (hs : Decimal n s) (ht : Decimal n t) : s = t := by
  unfold Decimal at hs ht
  split at hs
  · rw [if_pos ‹_›] at ht
    exact hs.unique ht
  · rw [if_neg ‹_›] at ht
    obtain ⟨s, rfl, hs⟩ := hs
    obtain ⟨t, rfl, ht⟩ := ht
    rw [hs.unique ht]

/-- There is one text for an exit status. -/
theorem ExitText.unique {s : StatusRes} {m m' : Bytes} (h : ExitText s m) (h' : ExitText s m') : m = m' := by
  cases s with
  | err => exact h.elim
  | code n =>
    obtain ⟨s, hs, rfl⟩ := h
    obtain ⟨t, ht, rfl⟩ := h'
    rw [hs.unique ht]
  | killed => exact h.trans h'.symm

theorem digit_noLF : ∀ c ∈ digits, c.toNat.toUInt8 ≠ 10 := by decide +kernel

/-- It is a line of its own. -/
theorem ExitText.line {s : StatusRes} {m : Bytes} (h : ExitText s m) : specLines m = [m] := by
  have key : ∀ {n t}, DecimalNat n t → t ≠ [] ∧ (10 : UInt8) ∉ t.map fun c => c.toNat.toUInt8 := fun {n t} h => ⟨h.1, fun hm => by
    obtain ⟨c, hc, e⟩ := List.mem_map.mp hm
    exact digit_noLF c (h.2.1 c hc) e⟩
  cases s with
  | err => exact h.elim
  | code n =>
    obtain ⟨t, ht, rfl⟩ := h
    unfold Decimal at ht
    split at ht
    · exact specLines_noLF (by simpa using (key ht).1) (key ht).2
    · obtain ⟨t, rfl, ht⟩ := ht
      refine specLines_noLF (by simp) fun hm => ?_
      rcases List.mem_cons.mp hm with h | h
      · exact absurd h (by decide)
      · exact (key ht).2 h
  | killed =>
    subst h
    decide

end Verif
