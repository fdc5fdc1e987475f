import Verif.Model.Manip
import Verif.Spec.Syntax
namespace Verif
open Syntax

theorem number_append (s t : Str) : number (s ++ t) = number s * 10 ^ t.length + number t := by
  induction s with
  | nil => simp [number]
  | cons c s ih => simp [number, ih, Nat.add_mul, Nat.pow_add, Nat.mul_assoc, Nat.add_assoc]

theorem digitAt {n : Nat} (h : n < 10) : digits.idxOf ("0123456789".toList.getD n '0') = n ∧ "0123456789".toList.getD n '0' ∈ digits := by
  have : ∀ n < 10, digits.idxOf ("0123456789".toList.getD n '0') = n ∧ "0123456789".toList.getD n '0' ∈ digits := by decide +kernel
  exact this n h

/-- A number is read back as written. -/
theorem number_natStr (n : Nat) : number (natStr n) = n := by
  induction n using Nat.strongRecOn with
  | ind n ih =>
    unfold natStr
    split
    · rename_i h
      simp only [number, (digitAt h).1]; simp
    · rename_i h
      have := (digitAt (Nat.mod_lt n (by omega : 10 > 0))).1
      rw [number_append, ih _ (by omega)]
      simp only [number, this]
      simp
      omega

theorem natStr_digits (n : Nat) : ∀ c ∈ natStr n, c ∈ digits := by
  induction n using Nat.strongRecOn with
  | ind n ih =>
    unfold natStr
    split
    · rename_i h
      intro c hc
      rw [List.mem_singleton.mp hc]
      exact (digitAt h).2
    · intro c hc
      rcases List.mem_append.mp hc with hc | hc
      · exact ih _ (by omega) c hc
      · rw [List.mem_singleton.mp hc]
        exact (digitAt (Nat.mod_lt n (by omega : 10 > 0))).2

theorem natStr_inj {m n : Nat} (h : natStr m = natStr n) : m = n := by
  rw [← number_natStr m, ← number_natStr n, h]

theorem digit_mem {c : Char} (h : c ∈ digits) : digits.idxOf c < 10 ∧ "0123456789".toList.getD (digits.idxOf c) '0' = c := by
  have : ∀ c ∈ digits, digits.idxOf c < 10 ∧ "0123456789".toList.getD (digits.idxOf c) '0' = c := by decide +kernel
  exact this c h

/-- Digits that do not begin with zero are what the number they denote is written as. -/
theorem natStr_number {s : Str} (hs : ∀ c ∈ s, c ∈ digits) (h0 : s.head? ≠ some '0') (hne : s ≠ []) : natStr (number s) = s ∧ 0 < number s := by
  generalize hl : s.length = n
  induction n generalizing s with
  | zero => exact absurd (List.length_eq_zero_iff.mp hl) hne
  | succ n ihn =>
  rcases List.eq_nil_or_concat s with rfl | ⟨t, c, rfl⟩
  · exact absurd rfl hne
  · have hc := digit_mem (hs c (by simp))
    have hn : number (t ++ [c]) = number t * 10 + digits.idxOf c := by rw [number_append]; simp [number]
    by_cases ht : t = []
    · subst ht
      have hc0 : digits.idxOf c ≠ 0 := by
        intro e
        rw [e] at hc
        apply h0
        have := hc.2
        rw [← this]; rfl
      simp only [List.nil_append, List.concat_eq_append, number] at hn ⊢
      constructor
      · unfold natStr
        rw [dif_pos (by simp; omega)]
        simp only [List.length_nil, Nat.pow_zero, Nat.mul_one, Nat.add_zero, hc.2]
      · simp; omega
    · have ih := ihn (s := t) (fun c h => hs c (by simp [h])) (by
        cases t with
        | nil => exact absurd rfl ht
        | cons x t => simpa using h0) ht (by simpa using hl)
      rw [List.concat_eq_append, hn]
      refine ⟨?_, by omega⟩
      unfold natStr
      rw [dif_neg (by omega), show (number t * 10 + digits.idxOf c) / 10 = number t by omega,
        show (number t * 10 + digits.idxOf c) % 10 = digits.idxOf c by omega, ih.1, hc.2]

theorem natStr_head (n : Nat) (hn : 0 < n) : (natStr n).head? ≠ some '0' ∧ natStr n ≠ [] := by
  induction n using Nat.strongRecOn with
  | ind n ih =>
    unfold natStr
    split
    · rename_i h
      have : ∀ n < 10, 0 < n → ["0123456789".toList.getD n '0'].head? ≠ some '0' := by decide +kernel
      exact ⟨this n h hn, by simp⟩
    · have := ih (n / 10) (by omega) (by omega)
      constructor
      · rw [List.head?_append]
        cases h : (natStr (n / 10)).head? with
        | none => exact absurd (List.head?_eq_none_iff.mp h) this.2
        | some c => rw [h] at this; simpa using this.1
      · simp

theorem split_underscore {a b s t : Str} (hs : '_' ∉ s) (ht : '_' ∉ t) (h : a ++ '_' :: s = b ++ '_' :: t) : a = b ∧ s = t := by
  induction a generalizing b with
  | nil =>
    cases b with
    | nil => simpa using h
    | cons y b =>
      simp only [List.nil_append, List.cons_append, List.cons.injEq] at h
      exact absurd (by rw [h.2]; simp) hs
  | cons x a ih =>
    cases b with
    | nil =>
      simp only [List.nil_append, List.cons_append, List.cons.injEq] at h
      exact absurd (by rw [← h.2]; simp) ht
    | cons y b =>
      simp only [List.cons_append, List.cons.injEq] at h
      obtain ⟨rfl, h⟩ := h
      obtain ⟨h1, h2⟩ := ih h
      exact ⟨by rw [h1], h2⟩

theorem underscore_not_digit (n : Nat) : '_' ∉ natStr n := fun h => absurd (natStr_digits n _ h) (by decide)

theorem indexedKey_inj {a b : Str} {i j : Nat} (h : indexedKey a i = indexedKey b j) : a = b ∧ i = j := by
  obtain ⟨h1, h2⟩ := split_underscore (underscore_not_digit i) (underscore_not_digit j) h
  exact ⟨h1, natStr_inj h2⟩

theorem newKeyFrom_spec (base : Str) (existing : List Str) (fuel i : Nat) :
    ∃ j ≥ i, newKeyFrom base existing fuel i = indexedKey base j ∧ j ≤ i + fuel ∧ (∀ x, i ≤ x → x < j → indexedKey base x ∈ existing) ∧
      (j < i + fuel → indexedKey base j ∉ existing) := by
  induction fuel generalizing i with
  | zero => exact ⟨i, Nat.le_refl _, rfl, by omega, fun x h h' => absurd h (by omega), fun h => absurd h (by omega)⟩
  | succ f ih =>
    simp only [newKeyFrom]
    split
    · rename_i h
      obtain ⟨j, hj, h1, h2, h3, h4⟩ := ih (i + 1)
      refine ⟨j, by omega, h1, by omega, ?_, fun h => h4 (by omega)⟩
      intro x hx hx'
      by_cases hi : x = i
      · subst hi; exact List.contains_iff_mem.mp h
      · exact h3 x (by omega) hx'
    · rename_i h
      exact ⟨i, Nat.le_refl _, rfl, by omega, fun x h h' => absurd h (by omega), fun _ h' => h (List.contains_iff_mem.mpr h')⟩

/-- Different elements of a list are not more than the list is long. -/
theorem pigeonhole {α} [DecidableEq α] (f : Nat → α) (l : List α) (n : Nat) (hf : ∀ x < n, ∀ y < n, f x = f y → x = y)
    (h : ∀ x < n, f x ∈ l) : n ≤ l.length := by
  induction n generalizing l with
  | zero => omega
  | succ n ih =>
    have h1 := ih (l.erase (f n)) (fun x hx y hy => hf x (by omega) y (by omega)) (fun x hx => by
      have hne : f x ≠ f n := fun e => by have := hf x (by omega) n (by omega) e; omega
      exact (List.mem_erase_of_ne hne).mpr (h x (by omega)))
    have h2 := List.length_erase_of_mem (h n (by omega))
    have h3 : 0 < l.length := List.length_pos_of_mem (h n (by omega))
    omega

theorem newKey_spec (base : Str) (existing : List Str) :
    ∃ j ≥ 1, newKey base existing = indexedKey base j ∧ indexedKey base j ∉ existing ∧ ∀ x, 1 ≤ x → x < j → indexedKey base x ∈ existing := by
  obtain ⟨j, hj, h1, h2, h3, h4⟩ := newKeyFrom_spec base existing (existing.length + 1) 1
  refine ⟨j, hj, h1, ?_, h3⟩
  apply h4
  apply Nat.lt_of_not_le
  intro hlt
  have := pigeonhole (fun x => indexedKey base (x + 1)) existing (existing.length + 1)
    (fun x _ y _ e => by have := (indexedKey_inj e).2; omega) (fun x hx => h3 _ (by omega) (by omega))
  omega

theorem newKey_fresh (base : Str) (existing : List Str) : newKey base existing ∉ existing := by
  obtain ⟨j, _, h1, h2, _⟩ := newKey_spec base existing
  rw [h1]; exact h2

/-- The next key when exactly the first `n` are in use. -/
theorem newKey_eq {base : Str} {existing : List Str} {n : Nat} (h : ∀ x, 1 ≤ x → (indexedKey base x ∈ existing ↔ x ≤ n)) :
    newKey base existing = indexedKey base (n + 1) := by
  obtain ⟨j, hj, h1, h2, h3⟩ := newKey_spec base existing
  have a := fun hn => h2 ((h j hj).mpr hn)
  rw [h1]
  by_cases hjn : n + 1 < j
  · have := (h (n + 1) (by omega)).mp (h3 (n + 1) (by omega) hjn)
    omega
  · have : ¬ j ≤ n := a
    rw [show j = n + 1 by omega]

end Verif
