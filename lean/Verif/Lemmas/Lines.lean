import Verif.Lemmas.Split
namespace Verif

theorem goodSeps_default : GoodSeps [[13, 10], [10]] where
  pos := by simp
  short := by simp
  prefixFree := by
    intro v hv w hw h
    simp at hv hw
    rcases hv with rfl | rfl <;> rcases hw with rfl | rfl <;> simp_all [List.prefix_iff_eq_take]

theorem firstCut_cons (splits : List Bytes) (b : UInt8) (bs : Bytes) :
    firstCut splits (b :: bs) = match isSplit (b :: bs) splits with
      | some k => some k
      | none => (firstCut splits bs).map (· + 1) := by
  split
  · rename_i k hk
    simpa using firstCut_eq_some (p := b :: bs) (q := 0) (by simp) (by simpa using hk) (by simp)
  · rename_i hk
    cases h : firstCut splits bs with
    | none =>
      simp
      apply firstCut_eq_none
      intro r hr
      cases r with
      | zero => simpa using hk
      | succ r =>
        simp
        cases h2 : isSplit (bs.drop r) splits with
        | none => rfl
        | some k =>
          exfalso
          -- the least such position would give a cut
          have : ∀ m, ∀ r, r ≤ m → r < bs.length → isSplit (bs.drop r) splits = none := by
            intro m
            induction m with
            | zero =>
              intro r hr hl
              have : r = 0 := by omega
              subst this
              cases h3 : isSplit (bs.drop 0) splits with
              | none => rfl
              | some k =>
                have := firstCut_eq_some hl h3 (by intros; omega)
                rw [h] at this; simp at this
            | succ m ih =>
              intro r hr hl
              rcases Nat.lt_or_ge m r with hlt | hge
              · cases h3 : isSplit (bs.drop r) splits with
                | none => rfl
                | some k =>
                  have := firstCut_eq_some hl h3 (by intro r' hr'; exact ih r' (by omega) (by omega))
                  rw [h] at this; simp at this
              · exact ih r hge hl
          rw [this r r (by omega) (by simp at hr; omega)] at h2
          simp at h2
    | some c =>
      obtain ⟨q, k, h1, h2, h3, h4⟩ := firstCut_some h
      have := firstCut_eq_some (p := b :: bs) (q := q + 1) (k := k) (splits := splits) (by simp; omega) (by simpa using h2)
        (by
          intro r hr
          cases r with
          | zero => simpa using hk
          | succ r => simpa using h4 r (by omega))
      rw [this]; simp; omega

theorem specLines_firstCut (p : Bytes) :
    specLines p = match firstCut [[13, 10], [10]] p with
      | some c => p.take c :: specLines (p.drop c)
      | none => if p = [] then [] else [p] := by
  induction p with
  | nil => simp [specLines, firstCut, scanLoop]
  | cons b bs ih =>
    rw [firstCut_cons]
    by_cases hb : b = 10
    · subst hb; simp [isSplit, specLines]
    · by_cases h2 : ∃ r, b = 13 ∧ bs = 10 :: r
      · obtain ⟨r, rfl, rfl⟩ := h2
        have : ¬ (r.length + 1 + 1 < 2) := by omega
        simp [isSplit, specLines, this]
      · have : isSplit (b :: bs) [[13, 10], [10]] = none := by
          rw [isSplit_none]
          simp only [List.mem_cons, List.not_mem_nil, or_false, forall_eq_or_imp, forall_eq]
          constructor
          · rintro ⟨t, ht⟩
            simp at ht
            exact h2 ⟨t, ht.1.symm, ht.2.symm⟩
          · rintro ⟨t, ht⟩
            simp at ht
            exact hb ht.1.symm
        rw [this]
        simp only [specLines, hb, if_false]
        rw [ih]
        cases h3 : firstCut [[13, 10], [10]] bs with
        | none => by_cases h4 : bs = [] <;> simp [h4]
        | some c => simp

theorem specLines_isLinesOf (bs : Bytes) : IsLinesOf (specLines bs) bs := by
  induction bs with
  | nil => simp [IsLinesOf, specLines]
  | cons b bs ih =>
    obtain ⟨h1, h2, h3⟩ := ih
    by_cases hb : b = 10
    · subst hb
      refine ⟨by simp [specLines, h1], ?_, ?_⟩
      · intro l hl
        simp [specLines] at hl
        cases hs : specLines bs with
        | nil => simp [hs] at hl
        | cons x xs =>
          rw [hs] at hl
          simp at hl
          rcases hl with rfl | hl
          · exact ⟨[], by simp, by simp⟩
          · exact h2 l (by rw [hs]; exact hl)
      · intro l hl
        simp only [specLines, if_true] at hl
        cases hs : specLines bs with
        | nil => rw [hs] at hl; simp at hl; subst hl; left; exact ⟨[], by simp, by simp⟩
        | cons x xs => rw [hs, List.getLast?_cons_cons] at hl; exact h3 l (by rw [hs]; exact hl)
    · cases hs : specLines bs with
      | nil =>
        have : bs = [] := by rw [← h1, hs]; simp
        subst this
        simp [specLines, hb, IsLinesOf, Ne.symm hb]
      | cons x xs =>
        have hx : specLines (b :: bs) = (b :: x) :: xs := by simp [specLines, hb, hs]
        rw [hx]
        rw [hs] at h1 h2 h3
        refine ⟨by simpa using h1, ?_, ?_⟩
        · intro l hl
          cases xs with
          | nil => simp at hl
          | cons y ys =>
            simp at hl
            rcases hl with rfl | hl
            · obtain ⟨c, hc1, hc2⟩ := h2 x (by simp)
              exact ⟨b :: c, by simp [hc1], by simp [hc2, Ne.symm hb]⟩
            · exact h2 l (by simp [hl])
        · intro l hl
          cases xs with
          | nil =>
            simp at hl; subst hl
            rcases h3 x (by simp) with ⟨c, hc1, hc2⟩ | ⟨_, hc2⟩
            · left; exact ⟨b :: c, by simp [hc1], by simp [hc2, Ne.symm hb]⟩
            · right; simp [hc2, Ne.symm hb]
          | cons y ys =>
            rw [List.getLast?_cons_cons] at hl
            exact h3 l (by rw [List.getLast?_cons_cons]; exact hl)

theorem specLines_completeLine_append {l : Bytes} (hl : IsCompleteLine l) (r : Bytes) :
    specLines (l ++ r) = l :: specLines r := by
  obtain ⟨c, rfl, hc⟩ := hl
  induction c with
  | nil => simp [specLines]
  | cons b c ih =>
    simp at hc
    have := ih hc.2
    simp at this
    simp [specLines, this, Ne.symm hc.1]

theorem specLines_noLF {l : Bytes} (h : l ≠ []) (hl : (10 : UInt8) ∉ l) : specLines l = [l] := by
  induction l with
  | nil => simp at h
  | cons b c ih =>
    simp at hl
    cases c with
    | nil => simp [specLines, Ne.symm hl.1]
    | cons d e =>
      have := ih (by simp) (by simpa using hl.2)
      simp [specLines] at this
      simp [specLines, Ne.symm hl.1, this]

/-- The line decomposition is unique. -/
theorem isLinesOf_unique {ls : List Bytes} {bs : Bytes} (h : IsLinesOf ls bs) : ls = specLines bs := by
  induction ls generalizing bs with
  | nil => obtain ⟨h1, _⟩ := h; simp at h1; subst h1; simp [specLines]
  | cons l ls ih =>
    obtain ⟨h1, h2, h3⟩ := h
    cases ls with
    | nil =>
      simp at h1; subst h1
      rcases h3 l (by simp) with hc | ⟨hne, hc⟩
      · have := specLines_completeLine_append hc []
        simpa [specLines] using this.symm
      · rw [specLines_noLF hne hc]
    | cons x xs =>
      have hc := h2 l (by simp)
      rw [← h1, List.flatten_cons, specLines_completeLine_append hc]
      congr 1
      apply ih
      refine ⟨rfl, ?_, ?_⟩
      · intro l' hl'; apply h2; simp at hl' ⊢; exact Or.inr hl'
      · intro l' hl'; apply h3; simpa using hl'

/-- One read, from any point of a source delivering `chunks` and then `tail`. -/
theorem readStream_spec {splits : List Bytes} (hs : GoodSeps splits) (tail : List ReadEvent) (ht : IsTail tail)
    (chunks : List Bytes) (hc : ∀ c ∈ chunks, c ≠ []) (ov : Bytes) :
    match firstCut splits (ov ++ chunks.flatten) with
    | some c => ∃ ov' chunks', readStream ⟨splits, ov, chunkScript chunks ++ tail⟩ =
          (.ok (.data ((ov ++ chunks.flatten).take c)), ⟨splits, ov', chunkScript chunks' ++ tail⟩) ∧
          ov' ++ chunks'.flatten = (ov ++ chunks.flatten).drop c ∧ (∀ c ∈ chunks', c ≠ [])
          ∧ 1 ≤ c ∧ c ≤ (ov ++ chunks.flatten).length
    | none => readStream ⟨splits, ov, chunkScript chunks ++ tail⟩ =
        match tail with
        | [] => (.ok (if ov ++ chunks.flatten = [] then .finished else .data (ov ++ chunks.flatten)), ⟨splits, [], []⟩)
        | .err e :: r => (.error e, ⟨splits, ov ++ chunks.flatten, r⟩)
        | .data _ :: r => (.ok (if ov ++ chunks.flatten = [] then .finished else .data (ov ++ chunks.flatten)), ⟨splits, [], r⟩) := by
  have := readBuffer_spec hs tail ht chunks hc ov 0 (by omega) (by intros; omega)
  split
  · rename_i c hcut
    rw [hcut] at this
    obtain ⟨ov', chunks', h1, h2, h3, h4, h5⟩ := this
    refine ⟨ov', chunks', ?_, h2, h3, h4, h5⟩
    simp only [readStream, h1]
    rw [if_neg]
    intro h
    have := congrArg List.length h
    rw [List.length_take] at this
    simp only [List.length_nil] at this
    omega
  · rename_i hcut
    rw [hcut] at this
    simp only at this
    simp only [readStream, this]
    cases tail with
    | nil => simp only [tailOutcome]
    | cons a b => cases a <;> simp only [tailOutcome]

end Verif
