import Verif.Model.Parser
import Verif.Spec.Syntax
/-!
# Rules and texts
-/
namespace Verif
open Syntax

/-! ### Combinators -/

theorem lit_ok (l s : Str) : lit l (l ++ s) = some ((), s) := by
  induction l with
  | nil => rfl
  | cons c l ih => simp [lit, ih]

theorem lit_inv {l s : Str} {x : Unit} {r : Str} (h : lit l s = some (x, r)) : s = l ++ r := by
  induction l generalizing s with
  | nil => simp [lit] at h; simp [h]
  | cons c l ih =>
    cases s with
    | nil => simp [lit] at h
    | cons d s =>
      simp only [lit] at h
      split at h
      · rename_i hc; subst hc; simp [ih h]
      · simp at h

theorem then_some {α β : Type} {a : Rule α} {f : α → Rule β} {s : Str} {y : β × Str} :
    a.then f s = some y ↔ ∃ x r, a s = some (x, r) ∧ f x r = some y := by
  unfold Rule.then
  cases h : a s with
  | none => simp
  | some x =>
    obtain ⟨x, r⟩ := x
    constructor
    · intro h; exact ⟨x, r, rfl, h⟩
    · rintro ⟨x', r', h1, h2⟩
      obtain ⟨rfl, rfl⟩ := Prod.mk.inj (Option.some.inj h1)
      exact h2

theorem then_none {α β : Type} {a : Rule α} {f : α → Rule β} {s : Str} (h : a s = none) : a.then f s = none := by
  unfold Rule.then; rw [h]

theorem then_eq {α β : Type} {a : Rule α} {f : α → Rule β} {s : Str} {x r} (h : a s = some (x, r)) : a.then f s = f x r := by
  unfold Rule.then; rw [h]

theorem or_some {α : Type} {a b : Rule α} {s : Str} {y : α × Str} (h : a.or b s = some y) : a s = some y ∨ (a s = none ∧ b s = some y) := by
  unfold Rule.or at h
  cases h1 : a s with
  | none => rw [h1] at h; exact Or.inr ⟨rfl, h⟩
  | some x => rw [h1] at h; exact Or.inl h

theorem or_left {α : Type} {a b : Rule α} {s : Str} {y : α × Str} (h : a s = some y) : a.or b s = some y := by
  unfold Rule.or; rw [h]

theorem or_right {α : Type} {a b : Rule α} {s : Str} (h : a s = none) : a.or b s = b s := by
  unfold Rule.or; rw [h]

/-- `s` does not begin with a character of the class. -/
def Stops (p : Char → Bool) (s : Str) : Prop := ∀ c, s.head? = some c → p c = false

theorem many_ok {p : Char → Bool} {l s : Str} (hl : ∀ c ∈ l, p c = true) (hs : Stops p s) : many p (l ++ s) = (l, s) := by
  induction l with
  | nil =>
    cases s with
    | nil => rfl
    | cons c s => simp [many, hs c rfl]
  | cons c l ih => simp [many, hl c (by simp), ih fun c hc => hl c (by simp [hc])]

theorem many_inv (p : Char → Bool) (s : Str) : s = (many p s).1 ++ (many p s).2 ∧ (∀ c ∈ (many p s).1, p c = true) ∧ Stops p (many p s).2 := by
  induction s with
  | nil => simp [many, Stops]
  | cons c s ih =>
    obtain ⟨h1, h2, h3⟩ := ih
    by_cases hc : p c = true
    · simp only [many, hc, if_true]
      exact ⟨by simp [← h1], by simpa [hc] using h2, h3⟩
    · simp only [many, hc, if_false, Stops]
      simp
      simpa using hc

theorem some1_ok {p : Char → Bool} {l s : Str} (hl : ∀ c ∈ l, p c = true) (hn : l ≠ []) (hs : Stops p s) : some1 p (l ++ s) = some (l, s) := by
  unfold some1
  rw [many_ok hl hs]
  cases l with
  | nil => exact absurd rfl hn
  | cons c l => rfl

theorem some1_inv {p : Char → Bool} {s l r : Str} (h : some1 p s = some (l, r)) : s = l ++ r ∧ (∀ c ∈ l, p c = true) ∧ l ≠ [] ∧ Stops p r := by
  unfold some1 at h
  obtain ⟨h1, h2, h3⟩ := many_inv p s
  generalize hm : many p s = m at *
  obtain ⟨l', r'⟩ := m
  cases l' with
  | nil => simp at h
  | cons c l' =>
    simp at h
    obtain ⟨rfl, rfl⟩ := h
    exact ⟨h1, h2, by simp, h3⟩

/-! ### Character classes -/

theorem char_le_val {a b : Char} : a ≤ b ↔ a.val.toNat ≤ b.val.toNat := Iff.rfl

theorem char_ext {a b : Char} (h : a.val.toNat = b.val.toNat) : a = b := by
  apply Char.ext; exact UInt32.toNat_inj.mp h

theorem mem_of_val {c : Char} {l : Str} {n : Nat} (hn : c.val.toNat = n) (h : l.any (fun d => d.val.toNat == n) = true) : c ∈ l := by
  simp at h
  obtain ⟨d, h1, h2⟩ := h
  have : c = d := char_ext (hn.trans h2.symm)
  exact this ▸ h1

theorem digit_iff {c : Char} : digit c = true ↔ c ∈ digits := by
  constructor
  · intro h
    simp [digit, char_le_val] at h
    have h1 : 48 ≤ c.val.toNat := h.1
    have h2 : c.val.toNat ≤ 57 := h.2
    generalize hn : c.val.toNat = n at *
    apply mem_of_val hn
    have : ∀ n : Fin 58, 48 ≤ n.val → digits.any (fun d => d.val.toNat == n.val) = true := by decide
    exact this ⟨n, by omega⟩ h1
  · intro h
    have : ∀ c ∈ digits, digit c = true := by decide
    exact this c h

theorem nameChar_iff {c : Char} : nameChar c = true ↔ c ∈ letters := by
  constructor
  · intro h
    simp [nameChar, char_le_val] at h
    have key : ∀ n : Fin 123, (97 ≤ n.val ∧ n.val ≤ 122) ∨ (65 ≤ n.val ∧ n.val ≤ 90) ∨ (48 ≤ n.val ∧ n.val ≤ 57) ∨ n.val = 95 →
        letters.any (fun d => d.val.toNat == n.val) = true := by decide +kernel
    rcases h with ((h | h) | h) | h
    · have h1 : 97 ≤ c.val.toNat := h.1
      have h2 : c.val.toNat ≤ 122 := h.2
      exact mem_of_val rfl (key ⟨c.val.toNat, by omega⟩ (by simp; omega))
    · have h1 : 65 ≤ c.val.toNat := h.1
      have h2 : c.val.toNat ≤ 90 := h.2
      exact mem_of_val rfl (key ⟨c.val.toNat, by omega⟩ (by simp; omega))
    · have h1 : 48 ≤ c.val.toNat := h.1
      have h2 : c.val.toNat ≤ 57 := h.2
      exact mem_of_val rfl (key ⟨c.val.toNat, by omega⟩ (by simp; omega))
    · subst h; decide +kernel
  · intro h
    have : ∀ c ∈ letters, nameChar c = true := by decide +kernel
    exact this c h

/-! ### Numbers -/

theorem digit_val {c : Char} (h : c ∈ digits) : c.toNat - '0'.toNat = digits.idxOf c := by
  have : ∀ c ∈ digits, c.toNat - '0'.toNat = digits.idxOf c := by decide +kernel
  exact this c h

theorem number_lt {s : Str} (h : ∀ c ∈ s, c ∈ digits) : number s < 10 ^ s.length := by
  induction s with
  | nil => simp [number]
  | cons c s ih =>
    have ih := ih fun c hc => h c (by simp [hc])
    have hc : digits.idxOf c < 10 := by
      have : ∀ c ∈ digits, digits.idxOf c < 10 := by decide +kernel
      exact this c (h c (by simp))
    simp only [number, List.length_cons, Nat.pow_succ]
    have : digits.idxOf c * 10 ^ s.length ≤ 9 * 10 ^ s.length := Nat.mul_le_mul_right _ (by omega)
    omega

theorem inIsize_iff {x : Int} : inIsize x = true ↔ -9223372036854775808 ≤ x ∧ x ≤ 9223372036854775807 := by
  unfold inIsize
  refine decide_eq_true_iff.trans ?_
  simp [isizeMax, isizeMin]
theorem inIsize_false {x : Int} : inIsize x = false ↔ x < -9223372036854775808 ∨ 9223372036854775807 < x := by
  rw [← Bool.not_eq_true, inIsize_iff]; omega

/-- Reading digits after the number `a`, within bounds or not. -/
theorem parseDigits_eq {neg : Bool} {s : Str} (h : ∀ c ∈ s, c ∈ digits) (a : Nat) (ha : inIsize (if neg then -(a : Int) else a) = true) :
    parseDigits neg (if neg then -(a : Int) else a) s =
      (let v : Int := if neg then -((a * 10 ^ s.length + number s : Nat) : Int) else ((a * 10 ^ s.length + number s : Nat) : Int)
       if inIsize v then some v else none) := by
  induction s generalizing a with
  | nil => simp [parseDigits, number, ha]
  | cons c s ih =>
    have hd := digit_val (h c (by simp))
    have hs : ∀ c ∈ s, c ∈ digits := fun c hc => h c (by simp [hc])
    have ih := ih hs (a * 10 + digits.idxOf c)
    have hx : (a * 10 + digits.idxOf c) * 10 ^ s.length + number s = a * 10 ^ (c :: s).length + number (c :: s) := by
      simp only [number, List.length_cons, Nat.pow_succ, Nat.add_mul, Nat.mul_assoc]
      rw [Nat.mul_comm 10 (10 ^ s.length)]
      omega
    have hge : a * 10 + digits.idxOf c ≤ a * 10 ^ (c :: s).length + number (c :: s) := by
      rw [← hx]
      have : 1 ≤ 10 ^ s.length := Nat.one_le_pow _ _ (by omega)
      have := Nat.mul_le_mul_left (a * 10 + digits.idxOf c) this
      omega
    rw [hx] at ih
    generalize a * 10 ^ (c :: s).length + number (c :: s) = v at *
    simp only [parseDigits, hd]
    cases neg with
    | false =>
      simp only [Bool.false_eq_true, if_false] at *
      by_cases h1 : inIsize ((a : Int) * 10) = true
      · simp only [h1, if_true]
        by_cases h2 : inIsize ((a : Int) * 10 + (digits.idxOf c : Nat)) = true
        · simp only [h2, if_true]
          have := ih (by simpa using h2)
          simpa using this
        · simp only [h2]
          have : inIsize (v : Int) = false := by
            rw [Bool.not_eq_true, inIsize_false] at h2; rw [inIsize_false]; omega
          simp [this]
      · simp only [h1]
        have : inIsize (v : Int) = false := by
          rw [Bool.not_eq_true, inIsize_false] at h1; rw [inIsize_false]; omega
        simp [this]
    | true =>
      simp only [if_true] at *
      by_cases h1 : inIsize (-(a : Int) * 10) = true
      · simp only [h1, if_true]
        by_cases h2 : inIsize (-(a : Int) * 10 - (digits.idxOf c : Nat)) = true
        · simp only [h2, if_true]
          have e : -(a : Int) * 10 - (digits.idxOf c : Nat) = -((a * 10 + digits.idxOf c : Nat) : Int) := by omega
          rw [e] at h2 ⊢
          exact ih h2
        · simp only [h2]
          have : inIsize (-(v : Int)) = false := by
            rw [Bool.not_eq_true, inIsize_false] at h2; rw [inIsize_false]; omega
          simp [this]
      · simp only [h1]
        have : inIsize (-(v : Int)) = false := by
          rw [Bool.not_eq_true, inIsize_false] at h1; rw [inIsize_false]; omega
        simp [this]

theorem parseIsize_eq (p : Prio) (h : p.Ok) : (parseIsize ((if p.minus then ['-'] else []) ++ p.ds)).getD 0 = p.meaning := by
  obtain ⟨m, ds⟩ := p
  have key := parseDigits_eq (neg := m) (s := ds) h 0 (by cases m <;> decide)
  by_cases hn : ds = []
  · subst hn
    have : ¬ Prio.Sensible ⟨m, []⟩ := by simp [Prio.Sensible]
    cases m <;> simp [parseIsize, Prio.meaning, this]
  · have sens : Prio.Sensible ⟨m, ds⟩ ↔ inIsize (if m then -((number ds : Nat) : Int) else (number ds : Nat)) = true := by
      rw [inIsize_iff]
      simp only [Prio.Sensible, Prio.value]
      generalize (if m = true then -((number ds : Nat) : Int) else (number ds : Nat)) = v
      constructor
      · rintro ⟨_, h1, h2⟩; exact ⟨by simpa using h1, by omega⟩
      · rintro ⟨h1, h2⟩; exact ⟨hn, by simpa using h1, by omega⟩
    have e : parseIsize ((if m then ['-'] else []) ++ ds) = parseDigits m 0 ds := by
      cases m with
      | true => simp [parseIsize, hn]
      | false =>
        cases ds with
        | nil => exact absurd rfl hn
        | cons c ds =>
          have hc : c ≠ '-' := by
            have : ∀ c ∈ digits, c ≠ '-' := by decide
            exact this c (h c (by simp))
          simp only [Bool.false_eq_true, if_false, List.nil_append]
          unfold parseIsize
          split
          · rename_i h; simp at h; exact absurd h.1 hc
          · simp
    simp only at e ⊢
    have z : (if m = true then -((0 : Nat) : Int) else ((0 : Nat) : Int)) = 0 := by cases m <;> rfl
    rw [z] at key
    rw [e, key]
    simp only [Prio.meaning, Prio.value, Nat.zero_mul, Nat.zero_add]
    by_cases hs : inIsize (if m then -((number ds : Nat) : Int) else (number ds : Nat)) = true
    · rw [if_pos hs, if_pos (sens.mpr hs)]; rfl
    · rw [if_neg hs, if_neg fun h => hs (sens.mp h)]; rfl

end Verif
