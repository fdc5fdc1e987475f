import Verif.Lemmas.Lines
/-!
# Properties C01-C04: cutting byte streams into messages
-/
namespace Verif

/-- The result "here is a message". -/
abbrev msg (l : Bytes) : Except Nat IOW := .ok (.data l)
/-- The result "the stream has ended". -/
abbrev eof : Except Nat IOW := .ok .finished

/-! ## C01 -/

private theorem readTimes_finished (n : Nat) :
    (readTimes n ⟨[[13, 10], [10]], [], []⟩).1 = List.replicate n (.ok .finished) := by
  induction n with
  | zero => rfl
  | succ n ih =>
    have : readStream ⟨[[13, 10], [10]], [], []⟩ = (.ok .finished, ⟨[[13, 10], [10]], [], []⟩) := by decide
    simp [readTimes, this, ih, List.replicate_succ]

private theorem take_of_lines (n : Nat) (L : List (Except Nat IOW)) (x : Except Nat IOW) :
    (L ++ List.replicate (n + 1) x).take n = (L ++ List.replicate n x).take n := by
  simp [List.take_append]
  omega

private theorem lines_aux (n : Nat) (chunks : List Bytes) (hc : ∀ c ∈ chunks, c ≠ []) (ov : Bytes) :
    (readTimes n ⟨[[13, 10], [10]], ov, chunkScript chunks⟩).1 =
      ((specLines (ov ++ chunks.flatten)).map msg ++ List.replicate n eof).take n := by
  induction n generalizing chunks ov with
  | zero => simp [readTimes]
  | succ n ih =>
    have h := readStream_spec goodSeps_default [] trivial chunks hc ov
    have hl := specLines_firstCut (ov ++ chunks.flatten)
    simp only [List.append_nil] at h
    split at h
    · rename_i c hcut
      obtain ⟨ov', chunks', h1, h2, h3, _, _⟩ := h
      rw [hcut] at hl
      simp only at hl
      rw [hl, ← h2]
      simp only [readTimes, h1, List.map_cons, List.cons_append, List.take_succ_cons]
      rw [ih chunks' h3 ov', take_of_lines]
    · rename_i hcut
      rw [hcut] at hl
      simp only at hl h
      rw [hl]
      simp only [readTimes, h]
      rw [readTimes_finished]
      split
      · simp [List.replicate_succ]
      · simp only [List.map_cons, List.map_nil, List.cons_append, List.nil_append, List.take_succ_cons]
        rw [List.take_replicate]; congr 2; omega

/-- **C01.** Reading any number of times from a byte source that delivers `chunks` (each non-empty)
and then ends, the results are the lines of the bytes, followed by "finished" for ever after. -/
theorem C01_messages_are_the_lines (chunks : List Bytes) (hc : ∀ c ∈ chunks, c ≠ []) (n : Nat) :
    (readTimes n (Stream.new (chunkScript chunks))).1 =
      ((specLines chunks.flatten).map msg ++ List.replicate n eof).take n := by
  simpa [Stream.new] using lines_aux n chunks hc []

example : ∀ c ∈ ([[97, 13], [10, 98], [10, 99]] : List Bytes), c ≠ [] := by simp
example : (readTimes 4 (Stream.new (chunkScript [[97, 13], [10, 98], [10, 99]]))).1 =
  [.ok (.data [97, 13, 10]), .ok (.data [98, 10]), .ok (.data [99]), .ok .finished] := by decide

/-- **C01**, what `specLines` is: the one and only decomposition of the bytes into complete lines
followed by at most one incomplete non-empty line. -/
theorem C01_lines_characterised (bs : Bytes) (ls : List Bytes) :
    ls = specLines bs ↔ IsLinesOf ls bs :=
  ⟨fun h => h ▸ specLines_isLinesOf bs, isLinesOf_unique⟩

/-- **C01**, independence of the chunking. -/
theorem C01_chunking_irrelevant (c₁ c₂ : List Bytes) (h₁ : ∀ c ∈ c₁, c ≠ []) (h₂ : ∀ c ∈ c₂, c ≠ [])
    (h : c₁.flatten = c₂.flatten) (n : Nat) :
    (readTimes n (Stream.new (chunkScript c₁))).1 = (readTimes n (Stream.new (chunkScript c₂))).1 := by
  rw [C01_messages_are_the_lines c₁ h₁, C01_messages_are_the_lines c₂ h₂, h]

example : ([[97, 13], [10]] : List Bytes).flatten = ([[97], [13, 10]] : List Bytes).flatten := by decide

/-! ## C02 -/

/-- The message bytes in a list of results. -/
def delivered : List (Except Nat IOW) → Bytes
  | [] => []
  | .ok (.data d) :: r => d ++ delivered r
  | _ :: r => delivered r

/-- The data bytes in a list of read outcomes. -/
def bytesOf : List ReadEvent → Bytes
  | [] => []
  | .data bs :: r => bs ++ bytesOf r
  | .err _ :: r => bytesOf r

private theorem scriptTaken_eq (s : List ReadEvent) : scriptTaken s = bytesOf s := by
  induction s with
  | nil => rfl
  | cons e r ih => cases e <;> simp [scriptTaken, bytesOf, ih]

private theorem bytesOf_append (a b : List ReadEvent) : bytesOf (a ++ b) = bytesOf a ++ bytesOf b := by
  simp [← scriptTaken_eq, scriptTaken_append]

/-- **C02.** For every separator list, every source (data, zero-byte reads and failures in any order)
and every number of reads: the messages delivered, then the bytes held back, are the bytes held back
before and those taken from the source meanwhile. -/
theorem C02_no_byte_lost_or_invented (n : Nat) (s : Stream) :
    ∃ used, s.script = used ++ (readTimes n s).2.script ∧
      delivered (readTimes n s).1 ++ (readTimes n s).2.overflow = s.overflow ++ bytesOf used := by
  induction n generalizing s with
  | zero => exact ⟨[], by simp [readTimes], by simp [readTimes, delivered, bytesOf]⟩
  | succ n ih =>
    obtain ⟨u1, h1, h2⟩ := readBuffer_lossless s.splits s.script s.overflow 0
    obtain ⟨u2, h3, h4⟩ := ih (readStream s).2
    have e1 : (readStream s).2.script = (readBuffer s.splits s.script s.overflow 0).2.2 := by
      unfold readStream; split <;> simp_all
    have e2 : (readStream s).2.overflow = (readBuffer s.splits s.script s.overflow 0).2.1 := by
      unfold readStream; split <;> simp_all
    refine ⟨u1 ++ u2, ?_, ?_⟩
    · simp only [readTimes]
      rw [h1, ← e1, h3]; simp
    · have e3 : ∀ L, delivered ((readStream s).1 :: L) =
          okOr (readBuffer s.splits s.script s.overflow 0).1 ++ delivered L := by
        intro L
        unfold readStream
        split
        · rename_i v ov sc hv
          simp only [hv]
          by_cases hv0 : v = []
          · simp [hv0, delivered, okOr]
          · simp [hv0, delivered, okOr]
        · rename_i e ov sc hv
          simp [hv, delivered, okOr]
      simp only [readTimes]
      rw [e3, List.append_assoc, h4, ← List.append_assoc, e2, h2, bytesOf_append, scriptTaken_eq, List.append_assoc]

example : delivered (readTimes 3 ⟨[[10]], [], [.data [1], .err 5, .data [10, 2], .data []]⟩).1 = [1, 10, 2] := by decide

/-! ## C03 -/

private theorem bytes_nil {chunks : List Bytes} {ov : Bytes} (h : ov ++ chunks.flatten = [])
    (hc : ∀ c ∈ chunks, c ≠ []) : ov = [] ∧ chunks = [] := by
  simp at h
  refine ⟨h.1, ?_⟩
  cases chunks with
  | nil => rfl
  | cons c cs => exact absurd (h.2 c (by simp)) (hc c (by simp))

/-- **C03.** A source that will deliver `chunks` and then end is reported finished exactly when no
byte is left; and it then stays so. -/
theorem C03_finished_iff_nothing_left (ov : Bytes) (chunks : List Bytes) (hc : ∀ c ∈ chunks, c ≠ []) :
    ((readStream ⟨[[13, 10], [10]], ov, chunkScript chunks⟩).1 = .ok .finished ↔ ov ++ chunks.flatten = []) ∧
    (ov ++ chunks.flatten = [] →
      (readStream ⟨[[13, 10], [10]], ov, chunkScript chunks⟩).2 = ⟨[[13, 10], [10]], [], []⟩) := by
  have h := readStream_spec goodSeps_default [] trivial chunks hc ov
  simp only [List.append_nil] at h
  split at h
  · rename_i c hcut
    obtain ⟨ov', chunks', h1, h2, h3, h4, h5⟩ := h
    rw [h1]
    have : ov ++ chunks.flatten ≠ [] := by
      intro h0; rw [h0] at h5; simp at h5; omega
    simp only [this, iff_false, false_implies, and_true]
    simp
  · rw [h]
    refine ⟨?_, fun _ => rfl⟩
    by_cases h0 : ov ++ chunks.flatten = []
    · simp only [h0, if_true]
    · simp only [h0, if_false]; simp

/-- The complete lines of a byte sequence, and the incomplete rest. -/
def specComplete : Bytes → List Bytes × Bytes
  | [] => ([], [])
  | b :: bs =>
    match specComplete bs with
    | ([], r) => if b = 10 then ([[b]], r) else ([], b :: r)
    | (l :: ls, r) => if b = 10 then ([b] :: l :: ls, r) else ((b :: l) :: ls, r)

private theorem specComplete_complete {l : Bytes} (hl : IsCompleteLine l) (r : Bytes) :
    specComplete (l ++ r) = (l :: (specComplete r).1, (specComplete r).2) := by
  obtain ⟨c, rfl, hc⟩ := hl
  induction c with
  | nil => simp [specComplete]; split <;> simp_all
  | cons b c ih =>
    simp at hc
    have := ih hc.2
    simp at this
    simp [specComplete, this, Ne.symm hc.1]

private theorem specComplete_noLF {l : Bytes} (hl : (10 : UInt8) ∉ l) : specComplete l = ([], l) := by
  induction l with
  | nil => rfl
  | cons b c ih =>
    simp at hl
    simp [specComplete, ih hl.2, Ne.symm hl.1]

private theorem specComplete_firstCut (p : Bytes) :
    specComplete p = match firstCut [[13, 10], [10]] p with
      | some c => (p.take c :: (specComplete (p.drop c)).1, (specComplete (p.drop c)).2)
      | none => ([], p) := by
  have h := specLines_firstCut p
  have hi := specLines_isLinesOf p
  split
  · rename_i c hcut
    rw [hcut] at h
    simp only at h
    rw [h] at hi
    obtain ⟨h1, h2, h3⟩ := hi
    have hc : IsCompleteLine (p.take c) := by
      cases hr : specLines (p.drop c) with
      | nil =>
        rw [hr] at h2 h3
        rcases h3 (p.take c) (by simp) with hc | ⟨hne, hno⟩
        · exact hc
        · exfalso
          obtain ⟨q, k, hq, hk, hcq, _⟩ := firstCut_some hcut
          obtain ⟨v, hv, hvk, hvp⟩ := isSplit_some hk
          have hmem : (10 : UInt8) ∈ v := by simp at hv; rcases hv with rfl | rfl <;> simp
          have : v = (p.drop q).take k := by
            rw [List.prefix_iff_eq_take] at hvp; rw [← hvk]; exact hvp
          apply hno
          have h10 : (10 : UInt8) ∈ (p.take c).drop q := by
            rw [List.drop_take, hcq, Nat.add_sub_cancel_left, ← this]; exact hmem
          exact List.mem_of_mem_drop h10
      | cons x xs => rw [hr] at h2; exact h2 _ (by simp)
    conv => lhs; rw [← List.take_append_drop c p]
    rw [specComplete_complete hc]
  · rename_i hcut
    rw [hcut] at h
    simp only at h
    apply specComplete_noLF
    intro hmem
    obtain ⟨q, hq, hqe⟩ := List.getElem_of_mem hmem
    obtain ⟨_, hno⟩ : True ∧ ∀ r, r < p.length → isSplit (p.drop r) [[13, 10], [10]] = none := by
      refine ⟨trivial, ?_⟩
      intro r hr
      unfold firstCut at hcut
      rcases scanLoop_total (splits := [[13, 10], [10]]) p 0 0 p.length with ⟨s, cut, h'⟩ | ⟨s, h'⟩
      · rw [h'] at hcut; simp at hcut
      · exact (scanLoop_none h').1 r (by omega) (by omega)
    have := isSplit_none.mp (hno q hq) [10] (by simp)
    apply this
    rw [List.drop_eq_getElem_cons hq, hqe]
    simp

private theorem err_aux (e : Nat) (rest : List ReadEvent) (m : Nat) (chunks : List Bytes) (hc : ∀ c ∈ chunks, c ≠ [])
    (ov : Bytes) (hm : (specComplete (ov ++ chunks.flatten)).1.length = m) :
    readTimes (m + 1) ⟨[[13, 10], [10]], ov, chunkScript chunks ++ .err e :: rest⟩ =
      ((specComplete (ov ++ chunks.flatten)).1.map msg ++ [.error e],
        ⟨[[13, 10], [10]], (specComplete (ov ++ chunks.flatten)).2, rest⟩) := by
  induction m generalizing chunks ov with
  | zero =>
    have h := readStream_spec goodSeps_default (.err e :: rest) trivial chunks hc ov
    have hl := specComplete_firstCut (ov ++ chunks.flatten)
    split at h
    · rename_i c hcut; rw [hcut] at hl; rw [hl] at hm; simp at hm
    · rename_i hcut
      rw [hcut] at hl
      simp only at hl h
      rw [hl]
      simp only [readTimes, h]
      rfl
  | succ m ih =>
    have h := readStream_spec goodSeps_default (.err e :: rest) trivial chunks hc ov
    have hl := specComplete_firstCut (ov ++ chunks.flatten)
    split at h
    · rename_i c hcut
      obtain ⟨ov', chunks', h1, h2, h3, _, _⟩ := h
      rw [hcut] at hl
      simp only at hl
      rw [hl] at hm
      rw [← h2] at hl hm
      have := ih chunks' h3 ov' (by simpa using hm)
      rw [hl]
      rw [readTimes]
      simp only [h1, this, List.map_cons, List.cons_append]
    · rename_i hcut; rw [hcut] at hl; rw [hl] at hm; simp at hm

/-- **C03.** If the source delivers `chunks` and the next read fails, the complete lines before the
failure are delivered, then the failure itself is reported, and the incomplete rest is kept. -/
theorem C03_error_after_complete_lines (chunks : List Bytes) (hc : ∀ c ∈ chunks, c ≠ []) (e : Nat) (rest : List ReadEvent) :
    readTimes ((specComplete chunks.flatten).1.length + 1) (Stream.new (chunkScript chunks ++ .err e :: rest)) =
      ((specComplete chunks.flatten).1.map msg ++ [.error e],
        ⟨[[13, 10], [10]], (specComplete chunks.flatten).2, rest⟩) := by
  simpa [Stream.new] using err_aux e rest _ chunks hc [] rfl

/-- **C03**, what `specComplete` is. -/
theorem C03_complete_lines_characterised (bs : Bytes) :
    (specComplete bs).1.flatten ++ (specComplete bs).2 = bs ∧
    (∀ l ∈ (specComplete bs).1, IsCompleteLine l) ∧ (10 : UInt8) ∉ (specComplete bs).2 := by
  induction bs with
  | nil => simp [specComplete]
  | cons b bs ih =>
    obtain ⟨h1, h2, h3⟩ := ih
    unfold specComplete
    split
    · rename_i r hr
      rw [hr] at h1 h3
      by_cases hb : b = 10
      · subst hb
        simp at h1 h3 ⊢
        exact ⟨h1, ⟨[], by simp, by simp⟩, h3⟩
      · simp at h1 h3 ⊢
        subst h1
        simp [hb, h3, Ne.symm hb]
    · rename_i l ls r hr
      rw [hr] at h1 h2 h3
      by_cases hb : b = 10
      · subst hb
        simp at h1 h2 h3 ⊢
        exact ⟨h1, ⟨⟨[], by simp, by simp⟩, h2⟩, h3⟩
      · simp at h1 h2 h3 ⊢
        simp only [hb, if_false]
        obtain ⟨⟨c, hc1, hc2⟩, h2'⟩ := h2
        refine ⟨by simp [h1], ?_, h3⟩
        intro l' hl'
        simp at hl'
        rcases hl' with rfl | hl'
        · exact ⟨b :: c, by simp [hc1], by simp [hc2, Ne.symm hb]⟩
        · exact h2' l' hl'

example : (readTimes 2 (Stream.new (chunkScript [[97, 10, 98]] ++ .err 5 :: [.data [99, 10]]))) =
    ([.ok (.data [97, 10]), .error 5], ⟨[[13, 10], [10]], [98], [.data [99, 10]]⟩) := by decide

/-! ## C04 -/

private theorem seps_aux {splits : List Bytes} (hs : GoodSeps splits) (n : Nat) (c₁ c₂ : List Bytes)
    (h₁ : ∀ c ∈ c₁, c ≠ []) (h₂ : ∀ c ∈ c₂, c ≠ []) (o₁ o₂ : Bytes)
    (h : o₁ ++ c₁.flatten = o₂ ++ c₂.flatten) :
    (readTimes n ⟨splits, o₁, chunkScript c₁⟩).1 = (readTimes n ⟨splits, o₂, chunkScript c₂⟩).1 := by
  induction n generalizing c₁ c₂ o₁ o₂ with
  | zero => simp [readTimes]
  | succ n ih =>
    have ha := readStream_spec hs [] trivial c₁ h₁ o₁
    have hb := readStream_spec hs [] trivial c₂ h₂ o₂
    rw [h] at ha
    simp only [List.append_nil] at ha hb
    split at ha
    · rename_i c hcut
      rw [hcut] at hb
      obtain ⟨ov', ch', e1, e2, e3, _, _⟩ := ha
      obtain ⟨ov'', ch'', f1, f2, f3, _, _⟩ := hb
      simp only [readTimes, e1, f1]
      rw [ih ch' ch'' e3 f3 ov' ov'' (e2.trans f2.symm)]
    · rename_i hcut
      rw [hcut] at hb
      simp only at ha hb
      simp only [readTimes, ha, hb]

/-- **C04 (partial).** For separators of one or two bytes, none a proper prefix of another, the
messages depend on the bytes only. Missing from the full claim: longer separators (refuted below)
and lists in which one separator is a proper prefix of another (refuted below). -/
theorem C04_chunking_irrelevant_partial {splits : List Bytes} (hs : GoodSeps splits) (c₁ c₂ : List Bytes)
    (h₁ : ∀ c ∈ c₁, c ≠ []) (h₂ : ∀ c ∈ c₂, c ≠ []) (h : c₁.flatten = c₂.flatten) (n : Nat) :
    (readTimes n ⟨splits, [], chunkScript c₁⟩).1 = (readTimes n ⟨splits, [], chunkScript c₂⟩).1 :=
  seps_aux hs n c₁ c₂ h₁ h₂ [] [] (by simpa using h)

example : GoodSeps [[59], [13, 10], [10]] where
  pos := by simp
  short := by simp
  prefixFree := by decide

/-- **C04** fails for a three-byte separator: whether it is seen depends on the chunking. -/
theorem C04_refuted_for_three_byte_separators :
    ∃ (splits : List Bytes) (c₁ c₂ : List Bytes), (∀ v ∈ splits, v.length = 3) ∧
      (∀ c ∈ c₁, c ≠ []) ∧ (∀ c ∈ c₂, c ≠ []) ∧ c₁.flatten = c₂.flatten ∧
      (readTimes 2 ⟨splits, [], chunkScript c₁⟩).1 ≠ (readTimes 2 ⟨splits, [], chunkScript c₂⟩).1 :=
  ⟨[[1, 2, 3]], [[1, 2, 3, 4]], [[1, 2], [3, 4]], by decide, by decide, by decide, by decide, by decide⟩

/-- **C04** fails when one separator is a proper prefix of another. -/
theorem C04_refuted_for_overlapping_separators :
    ∃ (splits : List Bytes) (c₁ c₂ : List Bytes), (∀ v ∈ splits, 1 ≤ v.length ∧ v.length ≤ 2) ∧
      (∀ c ∈ c₁, c ≠ []) ∧ (∀ c ∈ c₂, c ≠ []) ∧ c₁.flatten = c₂.flatten ∧
      (readTimes 2 ⟨splits, [], chunkScript c₁⟩).1 ≠ (readTimes 2 ⟨splits, [], chunkScript c₂⟩).1 :=
  ⟨[[1, 2], [1]], [[1, 2]], [[1], [2]], by decide, by decide, by decide, by decide, by decide⟩

end Verif
