import Verif.Props.Bytes
/-!
# Reading a stream while more comes
-/
namespace Verif

/-- The complete lines at the beginning stay the same when more comes. -/
theorem specLines_grow : ∀ (n : Nat) (bs d : Bytes), (∀ l ∈ (specLines bs).take n, ∃ e, l = e ++ [10]) → n ≤ (specLines bs).length →
    (specLines (bs ++ d)).take n = (specLines bs).take n
  | 0, _, _, _, _ => by simp
  | n + 1, bs, d, h, hn => by
    obtain ⟨h1, h2, h3⟩ := specLines_isLinesOf bs
    cases hl : specLines bs with
    | nil => rw [hl] at hn; simp at hn
    | cons l ls =>
      rw [hl] at h hn h1 h2 h3
      have hcomp : IsCompleteLine l := by
        cases ls with
        | nil =>
          rcases h3 l rfl with g | ⟨_, g⟩
          · exact g
          · obtain ⟨e, rfl⟩ := h l (by simp)
            exact absurd (by simp) g
        | cons l' ls => exact h2 l (by simp)
      have hb : bs = l ++ ls.flatten := by rw [← h1]; simp
      have hls : specLines ls.flatten = ls := by
        have := specLines_completeLine_append hcomp ls.flatten
        rw [← hb, hl] at this
        simpa using this.symm
      rw [hb, List.append_assoc, specLines_completeLine_append hcomp, List.take_succ_cons, List.take_succ_cons]
      congr 1
      have := specLines_grow n ls.flatten d (by
        rw [hls]
        intro x hx
        exact h x (by simp [hx])) (by rw [hls]; simpa using hn)
      rw [this, hls]

/-- The answers, as `motion_read_buffer` gives them. -/
theorem readsFrom_iff {h : Nat} {chunks : List Bytes} {tr : List Ev} (hc : ∀ x ∈ chunks, x ≠ []) :
    ReadsFrom h chunks tr ↔ answers h tr = (((specLines chunks.flatten).map msg ++ List.replicate (answers h tr).length eof).take (answers h tr).length).map readAnswer := by
  unfold ReadsFrom
  rw [show chunks.map ReadEvent.data = chunkScript chunks from rfl, C01_messages_are_the_lines chunks hc]

/-- The `k`-th answer. -/
def lineAt (bs : Bytes) (k : Nat) : StreamRes :=
  match (specLines bs)[k]? with
  | some d => .line d
  | none => .eof

theorem answer_at (ls : List Bytes) (n k : Nat) (hk : k < n) :
    (((ls.map msg ++ List.replicate n eof).take n).map readAnswer)[k]? = some (match ls[k]? with | some d => .line d | none => .eof) := by
  rw [List.getElem?_map, List.getElem?_take_of_lt hk]
  by_cases h : k < ls.length
  · rw [List.getElem?_append_left (by simpa using h), List.getElem?_map, List.getElem?_eq_getElem h]
    rfl
  · rw [List.getElem?_append_right (by simpa using h), List.getElem?_replicate, List.getElem?_eq_none (by omega)]
    rw [if_pos (by simp; omega)]
    rfl

theorem readsFrom_at {h : Nat} {chunks : List Bytes} {tr : List Ev} (hc : ∀ x ∈ chunks, x ≠ []) :
    ReadsFrom h chunks tr ↔ ∀ k, k < (answers h tr).length → (answers h tr)[k]? = some (lineAt chunks.flatten k) := by
  rw [readsFrom_iff hc]
  constructor
  · intro e k hk
    rw [e]
    exact answer_at _ _ _ hk
  · intro e
    apply List.ext_getElem?
    intro k
    by_cases hk : k < (answers h tr).length
    · rw [e k hk, answer_at _ _ _ hk]; rfl
    · rw [List.getElem?_eq_none (by omega), List.getElem?_eq_none (by simp; omega)]

theorem answers_append (h : Nat) (a b : List Ev) : answers h (a ++ b) = answers h a ++ answers h b := by simp [answers]

/-- There is always an answer when nothing more comes. -/
theorem ReadsFrom.next {h : Nat} {chunks : List Bytes} {tr : List Ev} (hc : ∀ x ∈ chunks, x ≠ []) (hr : ReadsFrom h chunks tr) :
    ∃ r, ReadsFrom h chunks (tr ++ [⟨.streamRead h, r⟩]) := by
  refine ⟨lineAt chunks.flatten (answers h tr).length, ?_⟩
  rw [readsFrom_at hc] at hr ⊢
  have e : answers h [(⟨.streamRead h, lineAt chunks.flatten (answers h tr).length⟩ : Ev)] = [lineAt chunks.flatten (answers h tr).length] := by simp [answers]
  intro k hk
  rw [answers_append, e] at hk ⊢
  simp at hk
  by_cases hk' : k < (answers h tr).length
  · rw [List.getElem?_append_left hk']; exact hr k hk'
  · have : k = (answers h tr).length := by omega
    subst this
    simp

/-- Answers that are complete lines remain right when more comes. -/
theorem ReadsFrom.more {h : Nat} {chunks : List Bytes} {tr : List Ev} (hc : ∀ x ∈ chunks, x ≠ []) (hr : ReadsFrom h chunks tr) (hl : ∀ r ∈ answers h tr, ∃ d, r = .line (d ++ [10]))
    {d : Bytes} (hd : d ≠ []) : ReadsFrom h (chunks ++ [d]) tr := by
  have hc' : ∀ x ∈ chunks ++ [d], x ≠ [] := by
    intro x hx
    rcases List.mem_append.mp hx with h | h
    · exact hc x h
    · simp at h; subst h; exact hd
  rw [readsFrom_at hc] at hr
  rw [readsFrom_at hc']
  have got : ∀ k, k < (answers h tr).length → ∃ e, (specLines chunks.flatten)[k]? = some (e ++ [10]) := by
    intro k hk
    have h1 := hr k hk
    obtain ⟨e, he⟩ := hl _ (List.mem_of_getElem? h1)
    unfold lineAt at he
    split at he
    · next d' h2 => cases he; exact ⟨e, h2⟩
    · cases he
  have hn : (answers h tr).length ≤ (specLines chunks.flatten).length := by
    refine Nat.le_of_not_lt fun hlt => ?_
    obtain ⟨e, he⟩ := got _ hlt
    simp at he
  have grow := specLines_grow (answers h tr).length chunks.flatten d (by
    intro l hl
    obtain ⟨k, hk, rfl⟩ := List.mem_iff_getElem.mp hl
    rw [List.length_take, Nat.lt_min] at hk
    obtain ⟨e, he⟩ := got k hk.1
    refine ⟨e, ?_⟩
    rw [List.getElem?_eq_getElem hk.2] at he
    simpa using he) hn
  intro k hk
  rw [hr k hk]
  unfold lineAt
  have e : (chunks ++ [d]).flatten = chunks.flatten ++ d := by simp
  have e2 : (specLines (chunks.flatten ++ d))[k]? = (specLines chunks.flatten)[k]? := by
    have := congrArg (·[k]?) grow
    simpa [List.getElem?_take_of_lt hk] using this
  rw [e, e2]

end Verif
