import Verif.Props.RuntimeEnds
import Verif.Props.Endless
/-!
# Schedules that repeat themselves
-/
namespace Verif
section
variable {w : Waiter} {cs : List Capture} {cap : Caps}

/-- So many times the same. -/
def over {α : Type} (l : List α) (n : Nat) : List α := (List.replicate n l).flatten

@[simp] theorem over_zero {α : Type} (l : List α) : over l 0 = [] := rfl
theorem over_add {α : Type} (l : List α) (n m : Nat) : over l (n + m) = over l n ++ over l m := by simp [over, ← List.replicate_append_replicate]
theorem over_succ {α : Type} (l : List α) (n : Nat) : over l (n + 1) = over l n ++ l := by rw [over_add]; simp [over]
theorem over_length {α : Type} (l : List α) (n : Nat) : (over l n).length = n * l.length := by simp [over]
theorem mem_over {α : Type} {l : List α} {n : Nat} {x : α} (h : x ∈ over l n) : x ∈ l := by
  obtain ⟨l', h1, h2⟩ := List.mem_flatten.mp h
  rw [List.eq_of_mem_replicate h1] at h2
  exact h2
theorem proj_over (i : Who) (l : List (Who × Ev)) (n : Nat) : proj i (over l n) = over (proj i l) n := by
  induction n with
  | zero => rfl
  | succ n ih => rw [over_succ, over_succ, proj_append, ih]

/-- A loop that goes round in the same way again and again. -/
theorem rounds_over {σ ρ : Type} {body : σ → Prog (σ ⊕ ρ)} {S : Nat → σ} {t : List Ev} (h : ∀ n, (body (S n)).Runs t (.inl (S (n + 1)))) (n : Nat) : LoopRounds body (S 0) (over t n) (S n) := by
  have : ∀ n k, LoopRounds body (S k) (over t n) (S (k + n)) := by
    intro n
    induction n with
    | zero => exact fun k => .nil
    | succ n ih =>
      intro k
      rw [show over t (n + 1) = t ++ over t n by rw [Nat.add_comm, over_add]; simp [over], show k + (n + 1) = k + 1 + n by omega]
      exact .next (h k) (ih (k + 1))
  simpa using this n 0

/-- What has a beginning and then repeats itself is fair, if everyone not taking part is held up each time. -/
theorem fair_periodic {τ l : List (Who × Ev)} (hl : l ≠ []) (hr : ∀ n, w.Run cs cap (τ ++ over l n)) (hf : ∀ i, (∃ e, (i, e) ∈ l) ∨ ∀ n, ¬ w.CanStep cs cap (τ ++ over l n) i) :
    ∃ σ, w.Fair cs cap σ ∧ (∀ m, ∃ n, upTo σ m <+: τ ++ over l n) ∧ ∀ n, upTo σ (τ.length + n * l.length) = τ ++ over l n := by
  have hpos : 0 < l.length := List.length_pos_iff.mpr hl
  have long : ∀ n, n ≤ (τ ++ over l n).length := by
    intro n
    rw [List.length_append, over_length]
    have := Nat.mul_le_mul_left n hpos
    omega
  have pre : ∀ {n n'}, n ≤ n' → τ ++ over l n <+: τ ++ over l n' := by
    intro n n' h
    obtain ⟨k, rfl⟩ := Nat.exists_eq_add_of_le h
    rw [over_add, ← List.append_assoc]
    exact List.prefix_append _ _
  let σ : Nat → Option (Who × Ev) := fun m => (τ ++ over l (m + 1))[m]?
  have up : ∀ m, upTo σ m = (τ ++ over l m).take m := by
    intro m
    induction m with
    | zero => simp [upTo]
    | succ m ih =>
      have h1 : (τ ++ over l m).take m = (τ ++ over l (m + 1)).take m := by
        obtain ⟨t, ht⟩ := pre (Nat.le_succ m)
        rw [← Nat.succ_eq_add_one, ← ht, List.take_append_of_le_length (long m)]
      rw [upTo, ih, h1, List.take_add_one]
  have at_ : ∀ n, upTo σ (τ.length + n * l.length) = τ ++ over l n := by
    intro n
    have hle : n ≤ τ.length + n * l.length := by
      have := Nat.mul_le_mul_left n hpos
      omega
    obtain ⟨t, ht⟩ := pre hle
    rw [up, ← ht]
    exact List.take_left' (by rw [List.length_append, over_length])
  refine ⟨σ, ⟨fun m => by rw [up]; exact (hr m).take m, fun i n hn => ?_⟩, fun m => ⟨m, by rw [up]; exact List.take_prefix _ _⟩, at_⟩
  have hle : n ≤ τ.length + n * l.length := by
    have := Nat.mul_le_mul_left n hpos
    omega
  rcases hf i with ⟨e, he⟩ | h
  · obtain ⟨j, hj, hje⟩ := List.getElem_of_mem he
    have h1 := at_ (n + 1)
    have h2 : (upTo σ (τ.length + (n + 1) * l.length))[τ.length + n * l.length + j]? = some (i, e) := by
      rw [h1, over_succ, ← List.append_assoc, List.getElem?_append_right (by rw [List.length_append, over_length]; omega), List.length_append, over_length,
        show τ.length + n * l.length + j - (τ.length + n * l.length) = j by omega, List.getElem?_eq_getElem hj, hje]
    refine ⟨τ.length + n * l.length + j, e, by omega, ?_⟩
    show (τ ++ over l (τ.length + n * l.length + j + 1))[τ.length + n * l.length + j]? = some (i, e)
    rw [h1] at h2
    have hle' : n + 1 ≤ τ.length + n * l.length + j + 1 := by omega
    obtain ⟨t, ht⟩ := pre hle'
    rw [← ht, List.getElem?_append_left (by
      rw [List.length_append, over_length, Nat.add_mul]; omega)]
    exact h2
  · exact absurd (by rw [← at_]; exact hn _ hle) (h n)

end
end Verif
