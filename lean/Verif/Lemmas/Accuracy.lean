import Verif.Lemmas.Senders
import Verif.Model.Joined
/-!
# How far a buffer's count can be off, and buffers among everything polled
-/
namespace Verif

section
variable {ch : BufferChans} {j : PullJourney} {out : Push} {tr : List Ev}

theorem in_round {b : Breakable} {n : Nat} (h : (inTree ch j b n).Partial tr) : nSent .mon ch.mIn tr ≤ heard tr ∧ heard tr ≤ 1 := by
  have s0 : ∀ {k c v r}, heard [⟨.send k c v, r⟩] = 0 := by intro k c v r; cases k <;> cases r <;> rfl
  have fin : ∀ {m t}, (inEnd ch m).Partial t → nSent .mon ch.mIn t = 0 ∧ heard t = 0 := fun h => by
    obtain ⟨h1, h2⟩ := inEnd_quiet h .mon ch.mIn
    exact ⟨by rw [nSent, h1]; rfl, h2⟩
  replace h := (Prog.partial_op _ _ _).mp h
  rcases h with rfl | ⟨r, t, rfl, h⟩
  · simp [nSent]
  rw [heard_cons, heard_recv]
  cases r with
  | none =>
    replace h := send_partial h
    rcases h with rfl | ⟨t, rfl, h⟩ | ⟨t, rfl, h⟩
    · simp [nSent, sentOn_cons, sentOf]
    · have := fin h
      rw [heard_cons, s0, this.2]
      simp only [nSent, sentOn_cons, sentOf] at this ⊢
      simp [this.1]
    · rw [Prog.partial_ret] at h
      subst h
      rw [s0]
      simp [nSent, sentOn_cons, sentOf]
  | some d =>
    have last : ∀ {t : List Ev} {f : Bool → Prog (Nat ⊕ Except MErr Nat)}, (∀ r t, (f r).Partial t → nSent .mon ch.mIn t = 0 ∧ heard t = 0) →
        (Prog.op (.send .mon ch.mIn (.wrote 0)) f).Partial t → nSent .mon ch.mIn t ≤ 1 ∧ heard t = 0 := by
      intro t f hf h
      replace h := send_partial h
      rcases h with rfl | ⟨t, rfl, h⟩ | ⟨t, rfl, h⟩
      · simp [nSent]
      · have := hf _ _ h
        rw [heard_cons, s0, this.2]
        simp only [nSent, sentOn_cons, sentOf] at this ⊢
        simp [this.1]
      · have := hf _ _ h
        rw [heard_cons, s0, this.2]
        simp only [nSent, sentOn_cons, sentOf] at this ⊢
        simp [this.1]
    have ret : ∀ {x : Nat ⊕ Except MErr Nat} {t}, (Prog.ret x).Partial t → nSent .mon ch.mIn t = 0 ∧ heard t = 0 := by
      intro x t h
      rw [Prog.partial_ret] at h
      subst h
      simp [nSent]
    have two : ∀ {t : List Ev} {x : Bool}, nSent .mon ch.mIn t ≤ 1 ∧ heard t = 0 →
        nSent .mon ch.mIn (⟨.recv .data ch.input, some d⟩ :: ⟨.send .data ch.inner d, x⟩ :: t) ≤ 1 + heard (⟨.send .data ch.inner d, x⟩ :: t) ∧ 1 + heard (⟨.send .data ch.inner d, x⟩ :: t) ≤ 1 := by
      intro t x ⟨h1, h2⟩
      rw [heard_cons, s0, h2]
      simp only [nSent, sentOn_cons] at h1 ⊢
      cases x <;> simp [sentOf] <;> exact h1
    replace h := send_partial h
    rcases h with rfl | ⟨t, rfl, h⟩ | ⟨t, rfl, h⟩
    · simp [nSent, sentOn_cons, sentOf]
    · exact two (last (fun r t h => by cases r <;> exact ret h) h)
    · cases b with
      | terminate => exact two (by have := ret h; omega)
      | consume => exact two (last (fun r t h => by cases r <;> exact ret h) h)
      | finish => exact two (last (fun r t h => by cases r <;> first | exact ret h | exact fin h) h)

/-- The input half has notified everything it has heard, except perhaps the last. -/
theorem in_near (h : (bufferIn ch j out).Partial tr) : nSent .mon ch.mIn tr ≤ heard tr ∧ heard tr ≤ nSent .mon ch.mIn tr + 1 := by
  have lp : ∀ {tr}, LoopPartial (bufferIn ch j out).body (bufferIn ch j out).init tr → nSent .mon ch.mIn tr ≤ heard tr ∧ heard tr ≤ nSent .mon ch.mIn tr + 1 := by
    rintro tr ⟨n, t1, t2, h1, h2, rfl⟩
    rw [show (bufferIn ch j out).body n = _ from bufferIn_tree ch j out n] at h2
    have h3 := (in_rounds h1).2.2
    have h4 := in_round h2
    simp only [nSent, sentOn_append, List.length_append, heard_append] at *
    omega
  rcases h with h | ⟨r, t0, t3, h0, h3, rfl⟩
  · exact lp h
  · have := lp h0.toPartial
    obtain ⟨d1, d2, _⟩ := drops_acts h3
    simp [nSent, sentOn_drops h3, d2, heard, d1] at *
    exact this

/-- So has the output half. -/
theorem out_near (h : (bufferOut ch out).Partial tr) : nSent .mon ch.mOut tr ≤ heard tr ∧ heard tr ≤ nSent .mon ch.mOut tr + 1 := by
  refine ⟨(out_local h).1, ?_⟩
  have lp : ∀ {tr}, LoopPartial (bufferOut ch out).body (bufferOut ch out).init tr → heard tr ≤ nSent .mon ch.mOut tr + 1 := by
    rintro tr ⟨n, t1, t2, h1, h2, rfl⟩
    have r1 : ∀ {n n' : Nat} {t}, LoopRounds (bufferOut ch out).body n t n' → heard t ≤ nSent .mon ch.mOut t := by
      intro n n' t h
      induction h with
      | nil => simp
      | next hr _ ih => have := out_next hr; simp [nSent] at *; omega
    have h3 := r1 h1
    have h4 := (out_body h2).1
    simp only [nSent, sentOn_append, List.length_append, heard_append] at *
    omega
  rcases h with h | ⟨r, t0, t3, h0, h3, rfl⟩
  · exact lp h
  · have := lp h0.toPartial
    obtain ⟨d1, d2, _⟩ := drops_acts h3
    simp [nSent, sentOn_drops h3, d2, heard, d1] at *
    exact this
end

section
variable {ι : Type} [DecidableEq ι] {cap : Caps} {pre mid post : List (ι × Task)} {τ : List (ι × Ev)} {k : Nat}

/-- When everything is polled in order, so is what is next to each other in it. -/
theorem Polled.among (hm : mid ≠ []) (hd : ∀ x ∈ mid, ∀ y ∈ pre ++ post, x.1 ≠ y.1) (h : Polled cap (pre ++ mid ++ post) τ k) :
    Polled cap mid τ (if pre.length ≤ k ∧ k < pre.length + mid.length then k - pre.length else 0) := by
  have hl : 0 < mid.length := List.length_pos_iff.mpr hm
  have at_ : ∀ {k i t}, (pre ++ mid ++ post)[k]? = some (i, t) → pre.length ≤ k ∧ k < pre.length + mid.length → mid[k - pre.length]? = some (i, t) := by
    intro k i t h ⟨h1, h2⟩
    rw [List.getElem?_append_left (by simp; omega), List.getElem?_append_right h1] at h
    exact h
  have off : ∀ {k i t}, (pre ++ mid ++ post)[k]? = some (i, t) → ¬ (pre.length ≤ k ∧ k < pre.length + mid.length) → (i, t) ∈ pre ++ post := by
    intro k i t h hk
    by_cases h1 : k < pre.length
    · rw [List.append_assoc, List.getElem?_append_left h1] at h
      exact List.mem_append_left _ (List.mem_of_getElem? h)
    · rw [List.getElem?_append_right (by simp; omega)] at h
      exact List.mem_append_right _ (List.mem_of_getElem? h)
  induction h with
  | start =>
    have : (if pre.length ≤ 0 ∧ 0 < pre.length + mid.length then 0 - pre.length else 0) = 0 := by split <;> omega
    rw [this]
    exact .start
  | @act τ k i t e _ ha ih =>
    split at ih
    · rename_i hk
      rw [if_pos hk]
      exact .act ih (at_ ha hk)
    · rename_i hk
      rw [if_neg hk]
      exact .other ih fun x hx he => hd x hx _ (off ha hk) he
  | @other τ k j e _ hj ih => exact .other ih fun x hx => hj x (by simp [hx])
  | @yield τ k i t _ ha hb ih =>
    have hlt : k < (pre ++ mid ++ post).length := (List.getElem?_eq_some_iff.mp ha).1
    have hlen : (pre ++ mid ++ post).length = pre.length + mid.length + post.length := by simp; omega
    rw [hlen] at hlt ⊢
    have hmod : (k + 1) % (pre.length + mid.length + post.length) = if k + 1 = pre.length + mid.length + post.length then 0 else k + 1 := by
      split
      · rename_i h; rw [h, Nat.mod_self]
      · exact Nat.mod_eq_of_lt (by omega)
    rw [hmod]
    split at ih
    · rename_i hk
      have h1 := Polled.yield ih (at_ ha hk) hb
      have h2 : (k - pre.length + 1) % mid.length = if k + 1 = pre.length + mid.length then 0 else k - pre.length + 1 := by
        split
        · rename_i h; rw [show k - pre.length + 1 = mid.length by omega, Nat.mod_self]
        · exact Nat.mod_eq_of_lt (by omega)
      rw [h2] at h1
      have h3 : (if k + 1 = pre.length + mid.length then 0 else k - pre.length + 1) =
          (if pre.length ≤ (if k + 1 = pre.length + mid.length + post.length then 0 else k + 1) ∧ (if k + 1 = pre.length + mid.length + post.length then 0 else k + 1) < pre.length + mid.length then
            (if k + 1 = pre.length + mid.length + post.length then 0 else k + 1) - pre.length else 0) := by
        split <;> split <;> split <;> omega
      rw [← h3]
      exact h1
    · rename_i hk
      have h3 : (if pre.length ≤ (if k + 1 = pre.length + mid.length + post.length then 0 else k + 1) ∧ (if k + 1 = pre.length + mid.length + post.length then 0 else k + 1) < pre.length + mid.length then
            (if k + 1 = pre.length + mid.length + post.length then 0 else k + 1) - pre.length else 0) = 0 := by
        split <;> split <;> omega
      rw [h3]
      exact ih
end

end Verif
