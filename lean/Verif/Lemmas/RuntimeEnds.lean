import Verif.Spec.Fair
import Verif.Lemmas.Senders
import Verif.Props.RuntimeProgress
/-!
# How much the activities of a runtime can do
-/
namespace Verif

/-! ## Schedules -/
section
variable {σ : Nat → Option (Who × Ev)}

theorem upTo_add (n k : Nat) : upTo σ (n + k) = upTo σ n ++ upTo (fun j => σ (n + j)) k := by
  induction k with
  | zero => simp [upTo]
  | succ k ih => rw [Nat.add_succ, upTo, ih, upTo, List.append_assoc]

theorem mem_upTo {n : Nat} {x : Who × Ev} (h : x ∈ upTo σ n) : ∃ m, σ m = some x := by
  induction n with
  | zero => simp [upTo] at h
  | succ n ih =>
    rw [upTo, List.mem_append] at h
    rcases h with h | h
    · exact ih h
    · exact ⟨n, by simpa using h⟩

theorem proj_upTo_succ (i : Who) (n : Nat) : proj i (upTo σ (n + 1)) = proj i (upTo σ n) ∨ ∃ e, σ n = some (i, e) ∧ proj i (upTo σ (n + 1)) = proj i (upTo σ n) ++ [e] := by
  rw [upTo, proj_append]
  cases h : σ n with
  | none => left; simp [proj]
  | some x =>
    obtain ⟨j, e⟩ := x
    by_cases hij : j = i
    · subst hij; right; exact ⟨e, rfl, by simp [proj]⟩
    · left; simp [proj, hij]

/-- What `i` has done since time `n`. -/
theorem proj_since (i : Who) {n m : Nat} (h : n ≤ m) : ∃ u, proj i (upTo σ m) = proj i (upTo σ n) ++ u ∧ ∀ e ∈ u, ∃ k, n ≤ k ∧ σ k = some (i, e) := by
  obtain ⟨k, rfl⟩ := Nat.exists_eq_add_of_le h
  refine ⟨proj i (upTo (fun j => σ (n + j)) k), by rw [upTo_add, proj_append], fun e he => ?_⟩
  obtain ⟨m, hm⟩ := mem_upTo (mem_proj.mp he)
  exact ⟨n + m, by omega, hm⟩

/-- Finitely many things that hold from some time on hold together from some time on. -/
theorem together {α : Type} {P : α → Nat → Prop} {l : List α} (h : ∀ i ∈ l, ∃ n, ∀ m, n ≤ m → P i m) : ∃ n, ∀ m, n ≤ m → ∀ i ∈ l, P i m := by
  induction l with
  | nil => exact ⟨0, by simp⟩
  | cons a l ih =>
    obtain ⟨n, hn⟩ := ih fun i hi => h i (by simp [hi])
    obtain ⟨k, hk⟩ := h a (by simp)
    refine ⟨max n k, fun m hm i hi => ?_⟩
    rcases List.mem_cons.mp hi with rfl | hi
    · exact hk m (by omega)
    · exact hn m (by omega) i hi

end

/-! ## Bounds -/

theorem exit_length {e : PushEnd} {tr : List Ev} (h : (exitTask e).Partial tr) : tr.length ≤ 2 * timesAsked tr + 1 := by
  obtain ⟨k, s, m, b, _, h'⟩ := exit_partial h
  clear h
  have h := h'
  clear h'
  have hl : ∃ l : List Ev, l.length ≤ 2 ∧ exitScript e k s m b = inVain k ++ ⟨.status, s⟩ :: l := by
    cases b
    · exact ⟨_, by simp, rfl⟩
    · exact ⟨_, by simp, rfl⟩
  obtain ⟨l, hl, he⟩ := hl
  rw [he] at h
  clear he
  induction k generalizing tr with
  | zero =>
    simp only [inVain, List.replicate_zero, List.flatten_nil, List.nil_append] at h
    cases tr with
    | nil => simp
    | cons x tr =>
      rw [List.cons_prefix_cons] at h
      obtain ⟨rfl, h⟩ := h
      have := h.length_le
      simp [timesAsked]
      omega
  | succ k ih =>
    have : inVain (k + 1) = (⟨.status, .err⟩ : Ev) :: ⟨.sleep 100, ()⟩ :: inVain k := by simp [inVain, List.replicate_succ]
    rw [this] at h
    cases tr with
    | nil => simp
    | cons x tr =>
      rw [List.cons_append, List.cons_prefix_cons] at h
      obtain ⟨rfl, h⟩ := h
      cases tr with
      | nil => simp
      | cons y tr =>
        rw [List.cons_append, List.cons_prefix_cons] at h
        obtain ⟨rfl, h⟩ := h
        have := ih h
        simp [timesAsked] at this ⊢
        omega

theorem gotOn_proj_le {k : Kind} {ch : Nat} (i : Who) (τ : List (Who × Ev)) : (gotOn k ch (proj i τ)).length ≤ (gotOn k ch (τ.map Prod.snd)).length := by
  induction τ with
  | nil => simp [gotOn]
  | cons x τ ih =>
    obtain ⟨j, e⟩ := x
    by_cases hij : j = i
    · subst hij
      rw [proj_cons_self]
      simp only [gotOn, List.map_cons, List.filterMap_cons] at ih ⊢
      cases gotOf k ch e <;> simp only [List.length_cons] <;> omega
    · rw [proj_cons_ne hij]
      simp only [gotOn, List.map_cons, List.filterMap_cons] at ih ⊢
      cases gotOf k ch e <;> simp only [List.length_cons] <;> omega

theorem sentOn_le {k : Kind} {ch : Nat} (tr : List Ev) : (sentOn k ch tr).length ≤ tr.length := List.length_filterMap_le _ _

/-- Whether an event of an activity gets anything forward: all but looking at empty inputs and sleeping for a junction, all but looking in vain for a count or manager. -/
def Waiter.moves (w : Waiter) (i : Who) (e : Ev) : Bool :=
  match w.node i with
  | some (.junction _ _ _) => !(act e).idles
  | some _ => true
  | none => match i with
    | .part _ .count => !tellsNothing e
    | .manager _ => !tellsNothing e
    | _ => true

end Verif
