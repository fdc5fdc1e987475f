import Verif.Props.RuntimeEnds
import Verif.Spec.Stall
/-!
# Everything that has happened can go on in a fair way
-/
namespace Verif
section
variable {w : Waiter} {cs : List Capture} {cap : Caps} {idle : Nat → Prop}

open Classical in
/-- A step of `i`, if there is one that does not need an answer of what does not answer; a good one, if there is one. -/
noncomputable def Waiter.chooses (w : Waiter) (idle : Nat → Prop) (cs : List Capture) (cap : Caps) (good : Ev → Prop) (τ : List (Who × Ev)) (i : Who) : Option (Who × Ev) :=
  if h : ∃ e, good e ∧ w.Run cs cap (τ ++ [(i, e)]) ∧ ¬ e.q.stalls idle then some (i, h.choose)
  else if h : ∃ e, w.Run cs cap (τ ++ [(i, e)]) ∧ ¬ e.q.stalls idle then some (i, h.choose)
  else none

theorem chooses_run {good : Ev → Prop} {τ : List (Who × Ev)} {i : Who} {x : Who × Ev} (h : w.chooses idle cs cap good τ i = some x) : x.1 = i ∧ w.Run cs cap (τ ++ [x]) ∧ ¬ x.2.q.stalls idle := by
  unfold Waiter.chooses at h
  split at h
  · next h1 => cases h; exact ⟨rfl, h1.choose_spec.2⟩
  · split at h
    · next h1 => cases h; exact ⟨rfl, h1.choose_spec⟩
    · cases h

theorem chooses_good {good : Ev → Prop} {τ : List (Who × Ev)} {i : Who} {x : Who × Ev} (h : w.chooses idle cs cap good τ i = some x)
    (hg : ∃ e, good e ∧ w.Run cs cap (τ ++ [(i, e)]) ∧ ¬ e.q.stalls idle) : good x.2 := by
  unfold Waiter.chooses at h
  rw [dif_pos hg] at h
  cases h
  exact hg.choose_spec.1

theorem chooses_some {good : Ev → Prop} {τ : List (Who × Ev)} {i : Who} (h : w.CanStepBut idle cs cap τ i) : ∃ e, w.chooses idle cs cap good τ i = some (i, e) := by
  unfold Waiter.chooses
  split
  · exact ⟨_, rfl⟩
  · rw [dif_pos (show ∃ e, w.Run cs cap (τ ++ [(i, e)]) ∧ ¬ e.q.stalls idle from h)]; exact ⟨_, rfl⟩

/-- What is done at time `n`: everybody has a turn. -/
noncomputable def Waiter.takes (w : Waiter) (idle : Nat → Prop) (cs : List Capture) (cap : Caps) (good : Ev → Prop) (n : Nat) (τ : List (Who × Ev)) : Option (Who × Ev) :=
  match (w.everyone cs)[n % (w.everyone cs).length]? with
  | none => none
  | some i => w.chooses idle cs cap good τ i

/-- What has happened by time `n`, where `τ` is what has happened before. -/
noncomputable def Waiter.goesOn (w : Waiter) (idle : Nat → Prop) (cs : List Capture) (cap : Caps) (good : Ev → Prop) (τ : List (Who × Ev)) : Nat → List (Who × Ev)
  | 0 => τ
  | n + 1 => w.goesOn idle cs cap good τ n ++ (w.takes idle cs cap good n (w.goesOn idle cs cap good τ n)).toList

/-- Whatever has happened can go on in a fair way, everybody doing something good where possible, and some files and streams not answering. -/
theorem fair_exists (idle : Nat → Prop) (good : Ev → Prop) {τ : List (Who × Ev)} (hr : w.Run cs cap τ) :
    ∃ σ, w.FairBut idle cs cap σ ∧ upTo σ τ.length = τ ∧ ∀ n, τ.length ≤ n → ∀ i e, σ n = some (i, e) →
      ¬ e.q.stalls idle ∧ ((∃ e', good e' ∧ w.Run cs cap (upTo σ n ++ [(i, e')]) ∧ ¬ e'.q.stalls idle) → good e) := by
  let T := w.goesOn idle cs cap good τ
  let σ : Nat → Option (Who × Ev) := fun n => if n < τ.length then τ[n]? else w.takes idle cs cap good (n - τ.length) (T (n - τ.length))
  have early : ∀ n, n ≤ τ.length → upTo σ n = τ.take n := by
    intro n
    induction n with
    | zero => intro _; simp [upTo]
    | succ n ih =>
      intro h
      rw [upTo, ih (by omega), List.take_add_one]
      simp only [σ, if_pos (show n < τ.length by omega)]
  have late : ∀ k, upTo σ (τ.length + k) = T k := by
    intro k
    induction k with
    | zero => rw [Nat.add_zero, early _ (Nat.le_refl _), List.take_length]; rfl
    | succ k ih =>
      rw [← Nat.add_assoc, upTo, ih]
      simp only [σ, if_neg (show ¬ τ.length + k < τ.length by omega), show τ.length + k - τ.length = k by omega]
      rfl
  have runsT : ∀ k, w.Run cs cap (T k) := by
    intro k
    induction k with
    | zero => exact hr
    | succ k ih =>
      show w.Run cs cap (T k ++ (w.takes idle cs cap good k (T k)).toList)
      cases h : w.takes idle cs cap good k (T k) with
      | none => simpa using ih
      | some x =>
        unfold Waiter.takes at h
        split at h
        · cases h
        · exact (chooses_run h).2.1
  have at_ : ∀ n, τ.length ≤ n → σ n = w.takes idle cs cap good (n - τ.length) (upTo σ n) := by
    intro n hn
    have := late (n - τ.length)
    rw [show τ.length + (n - τ.length) = n by omega] at this
    rw [this]
    simp only [σ, if_neg (show ¬ n < τ.length by omega)]
  refine ⟨σ, ⟨fun n => ?_, fun i n hcs => ?_⟩, ?_, ?_⟩
  · by_cases h : n ≤ τ.length
    · rw [early n h]; exact hr.take n
    · have := late (n - τ.length)
      rw [show τ.length + (n - τ.length) = n by omega] at this
      rw [this]; exact runsT _
  · have hmem : i ∈ w.everyone cs := by
      obtain ⟨e, he, _⟩ := hcs n (Nat.le_refl _)
      exact sys_everyone (he.known (i, e) (by simp))
    obtain ⟨j, hj⟩ := List.getElem?_of_mem hmem
    have hlt := (List.getElem?_eq_some_iff.mp hj).1
    have hge : n ≤ (w.everyone cs).length * n := Nat.le_mul_of_pos_left n (by omega)
    have hm : τ.length ≤ τ.length + ((w.everyone cs).length * n + j) := by omega
    obtain ⟨e, he⟩ := chooses_some (good := good) (hcs (τ.length + ((w.everyone cs).length * n + j)) (by omega))
    refine ⟨τ.length + ((w.everyone cs).length * n + j), e, by omega, ?_⟩
    rw [at_ _ hm, show τ.length + ((w.everyone cs).length * n + j) - τ.length = (w.everyone cs).length * n + j by omega]
    unfold Waiter.takes
    rw [Nat.mul_add_mod, Nat.mod_eq_of_lt hlt, hj]
    exact he
  · rw [early _ (Nat.le_refl _), List.take_length]
  · intro n hn i e he
    rw [at_ n hn] at he
    unfold Waiter.takes at he
    split at he
    · cases he
    · next i' _ =>
      have h1 := (chooses_run he).1
      simp only at h1
      subst h1
      exact ⟨(chooses_run he).2.2, chooses_good he⟩

end
end Verif
