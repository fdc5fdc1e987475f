import Verif.Spec.LineByLine
import Verif.Spec.Mix
import Verif.Lemmas.Mix
import Verif.Lemmas.Lines
/-!
# Lines taken one by one, in any order
-/
namespace Verif
section
variable {α β : Type}

theorem Among.refl (a : List α) : Among a a := ⟨[], by simp⟩

theorem Among.of_perm {a b : List α} (h : a.Perm b) : Among a b := ⟨[], by simpa using h⟩

theorem Among.trans {a b c : List α} (h1 : Among a b) (h2 : Among b c) : Among a c := by
  obtain ⟨r, h1⟩ := h1
  obtain ⟨s, h2⟩ := h2
  exact ⟨r ++ s, by rw [← List.append_assoc]; exact (h1.append_right s).trans h2⟩

theorem Among.of_prefix {a b : List α} (h : a <+: b) : Among a b := by
  obtain ⟨r, rfl⟩ := h
  exact ⟨r, .refl _⟩

theorem Among.append {a b a' b' : List α} (h : Among a b) (h' : Among a' b') : Among (a ++ a') (b ++ b') := by
  obtain ⟨r, h⟩ := h
  obtain ⟨s, h'⟩ := h'
  refine ⟨r ++ s, ?_⟩
  have : (a ++ a' ++ (r ++ s)).Perm (a ++ r ++ (a' ++ s)) := by
    simp only [List.append_assoc]
    refine List.Perm.append_left a ?_
    rw [← List.append_assoc, ← List.append_assoc]
    exact List.perm_append_comm.append_right s
  exact this.trans (h.append h')

theorem Among.flatMap {a b : List α} (h : Among a b) (f : α → List β) : Among (a.flatMap f) (b.flatMap f) := by
  obtain ⟨r, h⟩ := h
  exact ⟨r.flatMap f, by rw [← List.flatMap_append]; exact h.flatMap_right f⟩

theorem Among.flatMap_each {l : List α} {f g : α → List β} (h : ∀ a ∈ l, Among (f a) (g a)) : Among (l.flatMap f) (l.flatMap g) := by
  induction l with
  | nil => exact .refl _
  | cons a l ih => exact (h a (by simp)).append (ih fun b hb => h b (by simp [hb]))

theorem Among.antisymm {a b : List α} (h : Among a b) (h' : Among b a) : a.Perm b := by
  obtain ⟨r, h⟩ := h
  obtain ⟨s, h'⟩ := h'
  have h1 := h.length_eq
  have h2 := h'.length_eq
  simp only [List.length_append] at h1 h2
  have : r = [] := List.eq_nil_of_length_eq_zero (by omega)
  subst this
  simpa using h

theorem EachBegins.among {as bs : List (List α)} (h : EachBegins as bs) : Among as.flatten bs.flatten := by
  induction h with
  | nil => exact .refl _
  | cons h1 _ ih => exact (Among.of_prefix h1).append ih

theorem EachBegins.mem {as bs : List (List α)} (h : EachBegins as bs) {a : α} (ha : a ∈ as.flatten) : a ∈ bs.flatten := by
  obtain ⟨r, h⟩ := h.among
  exact h.mem_iff.mp (List.mem_append_left _ ha)

end

theorem specLines_whole : ∀ {ls : List Bytes}, (∀ l ∈ ls, IsCompleteLine l) → specLines ls.flatten = ls
  | [], _ => rfl
  | l :: ls, h => by
    rw [List.flatten_cons, specLines_completeLine_append (h l (by simp)), specLines_whole fun m hm => h m (by simp [hm])]

theorem whole_last {l : Bytes} (h : IsCompleteLine l) : l.getLast? = some 10 := by
  obtain ⟨d, rfl, _⟩ := h; simp

theorem wholeLines_flatten {ls : List Bytes} (h : ∀ l ∈ ls, IsCompleteLine l) : wholeLines ls.flatten = ls := by
  rw [wholeLines, specLines_whole h, List.filter_eq_self]
  intro l hl
  simpa using whole_last (h l hl)

theorem wholeLines_of {bs : Bytes} (h : ∀ l ∈ specLines bs, IsCompleteLine l) : wholeLines bs = specLines bs := by
  rw [wholeLines, List.filter_eq_self]
  intro l hl
  simpa using whole_last (h l hl)

theorem mem_specLines {l : Bytes} {bs : Bytes} (h : l ∈ specLines bs) : IsCompleteLine l ∨ (l ≠ [] ∧ (10 : UInt8) ∉ l) := by
  obtain ⟨_, h1, h2⟩ := specLines_isLinesOf bs
  rcases List.eq_nil_or_concat (specLines bs) with e | ⟨v, z, e⟩
  · rw [e] at h; cases h
  · rw [List.concat_eq_append] at e
    rw [e] at h h1 h2
    simp only [List.dropLast_concat, List.getLast?_concat, Option.some.injEq] at h1 h2
    rcases List.mem_append.mp h with h | h
    · exact Or.inl (h1 l h)
    · simp at h; exact h2 l h.symm

theorem mem_wholeLines {l : Bytes} {bs : Bytes} (h : l ∈ wholeLines bs) : IsCompleteLine l := by
  rw [wholeLines, List.mem_filter] at h
  rcases mem_specLines h.1 with h1 | ⟨_, h1⟩
  · exact h1
  · refine absurd ?_ h1
    have := h.2
    simp only [decide_eq_true_eq] at this
    obtain ⟨d, rfl⟩ := List.getLast?_eq_some_iff.mp this
    simp

theorem wholeLines_cons {l : Bytes} (hl : IsCompleteLine l) (t : Bytes) : wholeLines (l ++ t) = l :: wholeLines t := by
  rw [wholeLines, specLines_completeLine_append hl, List.filter_cons, if_pos (by simpa using whole_last hl)]
  rfl

theorem wholeLines_none {bs : Bytes} (hn : (10 : UInt8) ∉ bs) : wholeLines bs = [] := by
  rw [List.eq_nil_iff_forall_not_mem]
  intro m hm
  obtain ⟨e, rfl, _⟩ := mem_wholeLines hm
  rw [wholeLines, List.mem_filter] at hm
  apply hn
  rw [← (specLines_isLinesOf bs).1]
  exact List.mem_flatten.mpr ⟨_, hm.1, by simp⟩

/-- What has been read does not change when more is read. -/
theorem wholeLines_append (a b : Bytes) : wholeLines a <+: wholeLines (a ++ b) := by
  by_cases h : (10 : UInt8) ∈ a
  · obtain ⟨d, t, e, hd⟩ := List.eq_append_cons_of_mem h
    have e : a = (d ++ [10]) ++ t := by simp [e]
    have hl : IsCompleteLine (d ++ [10]) := ⟨d, rfl, hd⟩
    rw [e, wholeLines_cons hl, List.append_assoc, wholeLines_cons hl]
    exact (List.prefix_cons_inj _).mpr (wholeLines_append t b)
  · rw [wholeLines_none h]
    exact List.nil_prefix
termination_by a.length
decreasing_by rw [e]; simp; omega

/-- Of the beginning of some lines, the complete ones are the beginning of the lines. -/
theorem wholeLines_prefix : ∀ {ls : List Bytes} {bs : Bytes}, (∀ l ∈ ls, IsCompleteLine l) → bs <+: ls.flatten → wholeLines bs <+: ls
  | [], bs, _, h => by
    have : bs = [] := List.prefix_nil.mp h
    subst this
    exact List.nil_prefix
  | l :: ls, bs, hl, h => by
    rw [List.flatten_cons] at h
    by_cases hlen : l.length ≤ bs.length
    · have h1 : l <+: bs := List.prefix_of_prefix_length_le (List.prefix_append _ _) h hlen
      obtain ⟨t, rfl⟩ := h1
      have h2 := (List.prefix_append_right_inj l).mp h
      have hw := hl l (by simp)
      rw [wholeLines_cons hw]
      exact (List.prefix_cons_inj l).mpr (wholeLines_prefix (fun m hm => hl m (by simp [hm])) h2)
    · have h1 : bs <+: l := List.prefix_of_prefix_length_le h (List.prefix_append _ _) (by omega)
      obtain ⟨d, rfl, hd⟩ := hl l (by simp)
      have h2 : bs <+: d := by
        refine List.prefix_of_prefix_length_le h1 (List.prefix_append _ _) ?_
        simp at hlen; omega
      have hn : (10 : UInt8) ∉ bs := fun h => hd (h2.subset h)
      rw [wholeLines_none hn]
      exact List.nil_prefix

end Verif
