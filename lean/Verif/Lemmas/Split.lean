import Verif.Spec.Lines
namespace Verif

theorem isSplit_some {buf : Bytes} {splits : List Bytes} {k : Nat} (h : isSplit buf splits = some k) :
    ∃ v ∈ splits, v.length = k ∧ v <+: buf := by
  induction splits with
  | nil => simp [isSplit] at h
  | cons v vs ih =>
    unfold isSplit at h
    split at h
    · obtain ⟨w, hw, h1, h2⟩ := ih h; exact ⟨w, by simp [hw], h1, h2⟩
    · split at h
      · rename_i h1 h2
        simp at h
        exact ⟨v, by simp, h, by rw [← h2]; exact List.take_prefix _ _⟩
      · obtain ⟨w, hw, h1, h2⟩ := ih h; exact ⟨w, by simp [hw], h1, h2⟩

theorem isSplit_none {buf : Bytes} {splits : List Bytes} :
    isSplit buf splits = none ↔ ∀ v ∈ splits, ¬ v <+: buf := by
  induction splits with
  | nil => simp [isSplit]
  | cons v vs ih =>
    unfold isSplit
    have key : v <+: buf ↔ buf.take v.length = v := by
      rw [List.prefix_iff_eq_take]; exact eq_comm
    split
    · rename_i h
      rw [ih]; simp
      intro _ h3
      have := h3.length_le; omega
    · split
      · rename_i h1 h2; simp [key, h2]
      · rename_i h1 h2; rw [ih]; simp [key, h2]

theorem isSplit_le {buf : Bytes} {splits : List Bytes} {k : Nat} (h : isSplit buf splits = some k) :
    k ≤ buf.length := by
  obtain ⟨v, _, rfl, hp⟩ := isSplit_some h; exact hp.length_le

theorem isSplit_pos {buf : Bytes} {splits : List Bytes} {k : Nat} (hs : ∀ v ∈ splits, 1 ≤ v.length)
    (h : isSplit buf splits = some k) : 1 ≤ k := by
  obtain ⟨v, hv, rfl, _⟩ := isSplit_some h; exact hs v hv

/-- Once two bytes are visible the decision at a position is final. -/
theorem isSplit_append_none {x y : Bytes} {splits : List Bytes} (hs : ∀ v ∈ splits, v.length ≤ 2)
    (hx : 2 ≤ x.length) (h : isSplit x splits = none) : isSplit (x ++ y) splits = none := by
  rw [isSplit_none] at *
  intro v hv hp
  apply h v hv
  exact (List.prefix_append_right_inj []).mp (by
    have : v <+: x := List.prefix_of_prefix_length_le hp (List.prefix_append x y) (by have := hs v hv; omega)
    simpa using this)

theorem isSplit_append_some {x y : Bytes} {splits : List Bytes} {k : Nat} (hs : GoodSeps splits)
    (h : isSplit x splits = some k) : isSplit (x ++ y) splits = some k := by
  obtain ⟨v, hv, rfl, hp⟩ := isSplit_some h
  cases h' : isSplit (x ++ y) splits with
  | none => exact absurd (hp.trans (List.prefix_append x y)) (isSplit_none.mp h' v hv)
  | some k' =>
    obtain ⟨w, hw, rfl, hp'⟩ := isSplit_some h'
    have hp2 := hp.trans (List.prefix_append x y)
    rcases Nat.le_total v.length w.length with hl | hl
    · rw [hs.prefixFree v hv w hw (List.prefix_of_prefix_length_le hp2 hp' hl)]
    · rw [hs.prefixFree w hw v hv (List.prefix_of_prefix_length_le hp' hp2 hl)]

theorem scanLoop_some {splits : List Bytes} {ov : Bytes} {pos start n s cut : Nat}
    (h : scanLoop splits ov pos start n = (s, some cut)) :
    ∃ p k, pos ≤ p ∧ p < pos + n ∧ isSplit (ov.drop p) splits = some k ∧ cut = p + k ∧
      ∀ q, pos ≤ q → q < p → isSplit (ov.drop q) splits = none := by
  induction n generalizing pos start with
  | zero => simp [scanLoop] at h
  | succ n ih =>
    unfold scanLoop at h
    split at h
    · rename_i k hk
      simp at h
      exact ⟨pos, k, by omega, by omega, hk, by omega, by intros; omega⟩
    · rename_i hk
      obtain ⟨p, k, h1, h2, h3, h4, h5⟩ := ih h
      refine ⟨p, k, by omega, by omega, h3, h4, ?_⟩
      intro q hq1 hq2
      rcases Nat.eq_or_lt_of_le hq1 with rfl | hlt
      · exact hk
      · exact h5 q hlt hq2

theorem scanLoop_none {splits : List Bytes} {ov : Bytes} {pos start n s : Nat}
    (h : scanLoop splits ov pos start n = (s, none)) :
    (∀ q, pos ≤ q → q < pos + n → isSplit (ov.drop q) splits = none) ∧
      s = if n = 0 then start else pos + n - 1 := by
  induction n generalizing pos start with
  | zero => simp [scanLoop] at h; constructor; · intros; omega
            · simp [h]
  | succ n ih =>
    unfold scanLoop at h
    split at h
    · simp at h
    · rename_i hk
      obtain ⟨h1, h2⟩ := ih h
      refine ⟨?_, ?_⟩
      · intro q hq1 hq2
        rcases Nat.eq_or_lt_of_le hq1 with rfl | hlt
        · exact hk
        · exact h1 q hlt (by omega)
      · simp only [h2]; split <;> split <;> omega

theorem scanLoop_total {splits : List Bytes} (ov : Bytes) (pos start n : Nat) :
    (∃ s cut, scanLoop splits ov pos start n = (s, some cut)) ∨
    (∃ s, scanLoop splits ov pos start n = (s, none)) := by
  rcases scanLoop splits ov pos start n with ⟨s, _ | c⟩
  · right; exact ⟨s, rfl⟩
  · left; exact ⟨s, c, rfl⟩

/-- Where the first separator of `p` ends. -/
def firstCut (splits : List Bytes) (p : Bytes) : Option Nat :=
  (scanLoop splits p 0 0 p.length).2

/-- Characterisation of `firstCut`. -/
theorem firstCut_eq_some {splits : List Bytes} {p : Bytes} {q k : Nat}
    (hq : q < p.length) (hk : isSplit (p.drop q) splits = some k)
    (hn : ∀ r, r < q → isSplit (p.drop r) splits = none) : firstCut splits p = some (q + k) := by
  unfold firstCut
  rcases scanLoop_total (splits := splits) p 0 0 p.length with ⟨s, cut, h⟩ | ⟨s, h⟩
  · obtain ⟨q', k', h1, h2, h3, h4, h5⟩ := scanLoop_some h
    rw [h]; simp
    rcases Nat.lt_trichotomy q q' with hlt | heq | hgt
    · rw [h5 q (by omega) hlt] at hk; simp at hk
    · subst heq; rw [h3] at hk; simp at hk; omega
    · rw [hn q' hgt] at h3; simp at h3
  · obtain ⟨h1, _⟩ := scanLoop_none h
    rw [h1 q (by omega) (by omega)] at hk; simp at hk

theorem firstCut_eq_none {splits : List Bytes} {p : Bytes}
    (hn : ∀ r, r < p.length → isSplit (p.drop r) splits = none) : firstCut splits p = none := by
  unfold firstCut
  rcases scanLoop_total (splits := splits) p 0 0 p.length with ⟨s, cut, h⟩ | ⟨s, h⟩
  · obtain ⟨q', k', h1, h2, h3, h4, h5⟩ := scanLoop_some h
    rw [hn q' (by omega)] at h3; simp at h3
  · rw [h]

theorem firstCut_some {splits : List Bytes} {p : Bytes} {c : Nat} (h : firstCut splits p = some c) :
    ∃ q k, q < p.length ∧ isSplit (p.drop q) splits = some k ∧ c = q + k ∧
      ∀ r, r < q → isSplit (p.drop r) splits = none := by
  unfold firstCut at h
  rcases scanLoop_total (splits := splits) p 0 0 p.length with ⟨s, cut, h'⟩ | ⟨s, h'⟩
  · rw [h'] at h; simp at h; subst h
    obtain ⟨q', k', h1, h2, h3, h4, h5⟩ := scanLoop_some h'
    exact ⟨q', k', by omega, h3, h4, fun r hr => h5 r (by omega) hr⟩
  · rw [h'] at h; simp at h

theorem drop_append_of_lt {x y : Bytes} {q : Nat} (h : q ≤ x.length) :
    (x ++ y).drop q = x.drop q ++ y := by
  simp [List.drop_append, Nat.sub_eq_zero_of_le h]

/-- The scan that `readBuffer` performs, under its invariant, decides the first cut of the
bytes seen so far, and leaves the invariant for the next round. -/
theorem scan_step {splits : List Bytes} (hs : GoodSeps splits) {ov : Bytes} {start : Nat} (y : Bytes)
    (h0 : start ≤ ov.length)
    (h1 : ∀ q, q < start → ∀ z, isSplit ((ov ++ z).drop q) splits = none) :
    (∃ s cut, scanLoop splits ov start start (ov.length - start) = (s, some cut) ∧
        firstCut splits (ov ++ y) = some cut ∧ cut ≤ ov.length ∧ 1 ≤ cut) ∨
    (∃ s, scanLoop splits ov start start (ov.length - start) = (s, none) ∧
        firstCut splits ov = none ∧ s ≤ ov.length ∧
        ∀ q, q < s → ∀ z, isSplit ((ov ++ z).drop q) splits = none) := by
  rcases scanLoop_total (splits := splits) ov start start (ov.length - start) with ⟨s, cut, h⟩ | ⟨s, h⟩
  · left
    obtain ⟨p, k, h2, h3, h4, h5, h6⟩ := scanLoop_some h
    have hpl : p < ov.length := by omega
    refine ⟨s, cut, h, ?_, ?_, ?_⟩
    · subst h5
      apply firstCut_eq_some
      · simp; omega
      · rw [drop_append_of_lt (by omega)]; exact isSplit_append_some hs h4
      · intro r hr
        by_cases hrs : r < start
        · exact h1 r hrs y
        · rw [drop_append_of_lt (by omega)]
          apply isSplit_append_none hs.short
          · simp; omega
          · exact h6 r (by omega) hr
    · have := isSplit_le h4; simp at this; omega
    · have := isSplit_pos hs.pos h4; omega
  · right
    obtain ⟨h2, h3⟩ := scanLoop_none h
    refine ⟨s, h, ?_, ?_, ?_⟩
    · apply firstCut_eq_none
      intro r hr
      by_cases hrs : r < start
      · simpa using h1 r hrs []
      · exact h2 r (by omega) (by omega)
    · rw [h3]; split <;> omega
    · intro q hq z
      by_cases hqs : q < start
      · exact h1 q hqs z
      · rw [h3] at hq
        split at hq
        · omega
        · rw [drop_append_of_lt (by omega)]
          apply isSplit_append_none hs.short
          · simp; omega
          · exact h2 q (by omega) (by omega)

/-- What a source does after its data: nothing more, or an error. -/
def tailOutcome (p : Bytes) : List ReadEvent → Except Nat Bytes × Bytes × List ReadEvent
  | [] => (.ok p, [], [])
  | .err e :: r => (.error e, p, r)
  | .data _ :: r => (.ok p, [], r)

/-- A tail that does not start with fresh data. -/
def IsTail : List ReadEvent → Prop
  | .data (_ :: _) :: _ => False
  | _ => True

theorem readBuffer_spec {splits : List Bytes} (hs : GoodSeps splits) (tail : List ReadEvent) (ht : IsTail tail)
    (chunks : List Bytes) (hc : ∀ c ∈ chunks, c ≠ []) (ov : Bytes) (start : Nat)
    (h0 : start ≤ ov.length)
    (h1 : ∀ q, q < start → ∀ z, isSplit ((ov ++ z).drop q) splits = none) :
    match firstCut splits (ov ++ chunks.flatten) with
    | some c => ∃ ov' chunks', readBuffer splits (chunkScript chunks ++ tail) ov start =
          (.ok ((ov ++ chunks.flatten).take c), ov', chunkScript chunks' ++ tail) ∧
          ov' ++ chunks'.flatten = (ov ++ chunks.flatten).drop c ∧ (∀ c ∈ chunks', c ≠ [])
          ∧ 1 ≤ c ∧ c ≤ (ov ++ chunks.flatten).length
    | none => readBuffer splits (chunkScript chunks ++ tail) ov start = tailOutcome (ov ++ chunks.flatten) tail := by
  induction chunks generalizing ov start with
  | nil =>
    simp only [chunkScript, List.map_nil, List.nil_append, List.flatten_nil, List.append_nil]
    rcases scan_step hs [] h0 h1 with ⟨s, cut, e1, e2, e3, e4⟩ | ⟨s, e1, e2, e3, e4⟩
    · simp only [List.append_nil] at e2
      rw [e2]
      refine ⟨ov.drop cut, [], ?_, by simp, by simp, e4, e3⟩
      cases tail with
      | nil => simp [readBuffer, e1]
      | cons a b => simp [readBuffer, e1]
    · rw [e2]
      cases tail with
      | nil => simp [readBuffer, e1, tailOutcome]
      | cons a b =>
        simp only [readBuffer, e1]
        cases a with
        | err e => simp [tailOutcome]
        | data bs =>
          cases bs with
          | nil => simp [tailOutcome]
          | cons => simp [IsTail] at ht
  | cons c cs ih =>
    have hcn : c ≠ [] := hc c (by simp)
    rcases scan_step hs (c ++ cs.flatten) h0 h1 with ⟨s, cut, e1, e2, e3, e4⟩ | ⟨s, e1, e2, e3, e4⟩
    · simp only [List.flatten_cons]
      rw [e2]
      refine ⟨ov.drop cut, c :: cs, ?_, ?_, hc, e4, by simp; omega⟩
      · simp [chunkScript, readBuffer, e1, List.take_append, Nat.sub_eq_zero_of_le e3]
      · rw [drop_append_of_lt e3]; simp
    · have := ih (fun c' h => hc c' (by simp [h])) (ov ++ c) s (by simp; omega)
        (fun q hq z => by rw [List.append_assoc]; exact e4 q hq (c ++ z))
      have hstep : readBuffer splits (chunkScript (c :: cs) ++ tail) ov start =
          readBuffer splits (chunkScript cs ++ tail) (ov ++ c) s := by
        simp [chunkScript, readBuffer, e1, hcn]
      rw [hstep]
      simpa [List.append_assoc] using this

/-- Nothing is lost by one call, for any separators and any source. -/
def scriptTaken : List ReadEvent → Bytes
  | [] => []
  | .data bs :: r => bs ++ scriptTaken r
  | .err _ :: r => scriptTaken r

theorem scriptTaken_append (a b : List ReadEvent) : scriptTaken (a ++ b) = scriptTaken a ++ scriptTaken b := by
  induction a with
  | nil => rfl
  | cons e r ih => cases e <;> simp [scriptTaken, ih]

/-- The message of a result, nothing for an error. -/
def okOr : Except Nat Bytes → Bytes
  | .ok v => v
  | .error _ => []

theorem readBuffer_lossless (splits : List Bytes) (script : List ReadEvent) (ov : Bytes) (start : Nat) :
    ∃ used, script = used ++ (readBuffer splits script ov start).2.2 ∧
      okOr (readBuffer splits script ov start).1 ++
        (readBuffer splits script ov start).2.1 = ov ++ scriptTaken used := by
  fun_induction readBuffer splits script ov start with
  | case1 ov start _ cut h => exact ⟨[], by simp, by simp [okOr, scriptTaken]⟩
  | case2 ov start _ h => exact ⟨[], by simp, by simp [okOr, scriptTaken]⟩
  | case3 ev rest ov start _ cut h => exact ⟨[], by simp, by simp [okOr, scriptTaken]⟩
  | case4 rest ov start s h e => exact ⟨[.err e], by simp, by simp [okOr, scriptTaken]⟩
  | case5 rest ov start s h => exact ⟨[.data []], by simp, by simp [okOr, scriptTaken]⟩
  | case6 rest ov start s h bs hb ih =>
    obtain ⟨used, h1, h2⟩ := ih
    exact ⟨.data bs :: used, by simp [← h1], by simp [scriptTaken, h2]⟩

end Verif
