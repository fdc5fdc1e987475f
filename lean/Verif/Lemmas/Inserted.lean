import Verif.Lemmas.Insert
namespace Verif

/-- A junction that has been put in: after an output, and the key of the hop to it. -/
structure SIns where
  ref : OutRef
  junction : Str
  key : Str

/-- A junction that has been put in: before a component, and the key of the hop from it. -/
structure EIns where
  ref : InRef
  junction : Str
  key : Str

def newSrc (S : List SIns) (p : OutRef) : OutRef :=
  match S.find? fun x => x.ref = p with
  | some x => ⟨.junction, x.junction, .out⟩
  | none => p

def newDst (E : List EIns) (e : InRef) : InRef :=
  match E.find? fun x => x.ref = e with
  | some x => ⟨.junction, x.junction⟩
  | none => e

/-- A junction of this name is there. -/
def JunctionIn (m : Map Hop) (n : Str) : Prop :=
  ∃ k h, m.get k = some h ∧ ((h.src.ty = .junction ∧ h.src.name = n) ∨ (h.dst.ty = .junction ∧ h.dst.name = n))

/-- The hop with the least key of those satisfying a condition. -/
def FirstHop (m : Map Hop) (q : Hop → Prop) (h : Hop) : Prop :=
  ∃ k, m.get k = some h ∧ q h ∧ ∀ k' h', m.get k' = some h' → q h' → k = k' ∨ strLt k k' = true

/-- How `R` comes from `M` by putting in junctions. -/
structure Inserted (M : Map Hop) (S : List SIns) (E : List EIns) (R : Map Hop) : Prop where
  sorted : R.Sorted
  old : ∀ k h, M.get k = some h → ∃ h', R.get k = some h' ∧ h'.src = newSrc S h.src ∧ h'.dst = newDst E h.dst ∧ h'.input = h.input
  starts : ∀ x ∈ S, ∃ h, FirstHop M (fun h => h.src = x.ref) h ∧
    R.get x.key = some ⟨x.ref, none, ⟨.junction, x.junction⟩, ⟨.finish, h.input.priority⟩, none⟩
  ends : ∀ x ∈ E, ∃ h, FirstHop M (fun h => h.dst = x.ref) h ∧
    R.get x.key = some ⟨⟨.junction, x.junction, .out⟩, none, x.ref, ⟨.finish, h.input.priority⟩, none⟩
  only : ∀ k ∈ R.keys, k ∈ M.keys ∨ (∃ x ∈ S, x.key = k) ∨ (∃ x ∈ E, x.key = k)
  newKeys : (∀ x ∈ S, x.key ∉ M.keys) ∧ (∀ x ∈ E, x.key ∉ M.keys)
  keysNodup : (S.map (·.key) ++ E.map (·.key)).Nodup
  newNames : (∀ x ∈ S, ¬ JunctionIn M x.junction) ∧ (∀ x ∈ E, ¬ JunctionIn M x.junction)
  namesNodup : (S.map (·.junction) ++ E.map (·.junction)).Nodup
  refsNodup : (S.map (·.ref)).Nodup ∧ (E.map (·.ref)).Nodup

theorem newSrc_of_mem {S : List SIns} (hn : (S.map (·.ref)).Nodup) {x : SIns} (hx : x ∈ S) : newSrc S x.ref = ⟨.junction, x.junction, .out⟩ := by
  induction S with
  | nil => simp at hx
  | cons y S ih =>
    simp only [List.map_cons, List.nodup_cons] at hn
    rcases List.mem_cons.mp hx with rfl | hx
    · simp [newSrc]
    · have : y.ref ≠ x.ref := fun e => hn.1 (List.mem_map.mpr ⟨_, hx, e.symm⟩)
      have := ih hn.2 hx
      simp only [newSrc, List.find?_cons] at this ⊢
      rw [decide_eq_false ‹y.ref ≠ x.ref›]
      exact this

theorem newDst_of_mem {S : List EIns} (hn : (S.map (·.ref)).Nodup) {x : EIns} (hx : x ∈ S) : newDst S x.ref = ⟨.junction, x.junction⟩ := by
  induction S with
  | nil => simp at hx
  | cons y S ih =>
    simp only [List.map_cons, List.nodup_cons] at hn
    rcases List.mem_cons.mp hx with rfl | hx
    · simp [newDst]
    · have : y.ref ≠ x.ref := fun e => hn.1 (List.mem_map.mpr ⟨_, hx, e.symm⟩)
      have := ih hn.2 hx
      simp only [newDst, List.find?_cons] at this ⊢
      rw [decide_eq_false ‹y.ref ≠ x.ref›]
      exact this

theorem newSrc_not_mem {S : List SIns} {p : OutRef} (h : ∀ x ∈ S, x.ref ≠ p) : newSrc S p = p := by
  unfold newSrc
  rw [List.find?_eq_none.mpr (fun x hx => by simpa using h x hx)]

theorem newDst_not_mem {S : List EIns} {p : InRef} (h : ∀ x ∈ S, x.ref ≠ p) : newDst S p = p := by
  unfold newDst
  rw [List.find?_eq_none.mpr (fun x hx => by simpa using h x hx)]

theorem newSrc_cases (S : List SIns) (p : OutRef) :
    (∃ x ∈ S, x.ref = p ∧ newSrc S p = ⟨.junction, x.junction, .out⟩) ∨ ((∀ x ∈ S, x.ref ≠ p) ∧ newSrc S p = p) := by
  unfold newSrc
  cases h : S.find? fun x => x.ref = p with
  | none =>
    right
    exact ⟨fun x hx => by simpa using List.find?_eq_none.mp h x hx, rfl⟩
  | some x =>
    left
    exact ⟨x, List.mem_of_find?_eq_some h, by simpa using List.find?_some h, rfl⟩

theorem newDst_cases (S : List EIns) (p : InRef) :
    (∃ x ∈ S, x.ref = p ∧ newDst S p = ⟨.junction, x.junction⟩) ∨ ((∀ x ∈ S, x.ref ≠ p) ∧ newDst S p = p) := by
  unfold newDst
  cases h : S.find? fun x => x.ref = p with
  | none =>
    right
    exact ⟨fun x hx => by simpa using List.find?_eq_none.mp h x hx, rfl⟩
  | some x =>
    left
    exact ⟨x, List.mem_of_find?_eq_some h, by simpa using List.find?_some h, rfl⟩

theorem newSrc_append (S : List SIns) (x : SIns) (p : OutRef) (hx : ∀ y ∈ S, y.ref ≠ x.ref) :
    newSrc (S ++ [x]) p = if p = x.ref then ⟨.junction, x.junction, .out⟩ else newSrc S p := by
  unfold newSrc
  rw [List.find?_append]
  by_cases h : p = x.ref
  · subst h
    rw [List.find?_eq_none.mpr (fun y hy => by simpa using hx y hy)]
    simp
  · rw [if_neg h]
    have : x.ref ≠ p := fun e => h e.symm
    simp [this]

theorem newDst_append (S : List EIns) (x : EIns) (p : InRef) (hx : ∀ y ∈ S, y.ref ≠ x.ref) :
    newDst (S ++ [x]) p = if p = x.ref then ⟨.junction, x.junction⟩ else newDst S p := by
  unfold newDst
  rw [List.find?_append]
  by_cases h : p = x.ref
  · subst h
    rw [List.find?_eq_none.mpr (fun y hy => by simpa using hx y hy)]
    simp
  · rw [if_neg h]
    have : x.ref ≠ p := fun e => h e.symm
    simp [this]

theorem get_isSome {α} {m : Map α} {k : Str} (h : k ∈ m.keys) : ∃ v, m.get k = some v := by
  cases hg : m.get k with
  | none => exact absurd h (get_none.mp hg)
  | some v => exact ⟨v, rfl⟩

theorem mem_keys_of_get {α} {m : Map α} {k : Str} {v : α} (h : m.get k = some v) : k ∈ m.keys :=
  List.mem_map.mpr ⟨_, mem_of_get h, rfl⟩

/-- A junction of the original is still there. -/
theorem Inserted.keepsJunctions {M S E R} (hI : Inserted M S E R) {n : Str} (h : JunctionIn M n) : JunctionIn R n := by
  obtain ⟨k, h, hk, hj | hj⟩ := h
  · obtain ⟨h', q1, q2, q3, q4⟩ := hI.old k h hk
    rcases newSrc_cases S h.src with ⟨x, hx, e, _⟩ | ⟨_, e⟩
    · obtain ⟨h0, _, q⟩ := hI.starts x hx
      exact ⟨_, _, q, Or.inl (by rw [e]; exact hj)⟩
    · exact ⟨k, h', q1, Or.inl (by rw [q2, e]; exact hj)⟩
  · obtain ⟨h', q1, q2, q3, q4⟩ := hI.old k h hk
    rcases newDst_cases E h.dst with ⟨x, hx, e, _⟩ | ⟨_, e⟩
    · obtain ⟨h0, _, q⟩ := hI.ends x hx
      exact ⟨_, _, q, Or.inr (by rw [e]; exact hj)⟩
    · exact ⟨k, h', q1, Or.inr (by rw [q3, e]; exact hj)⟩

/-- The first of a sorted map. -/
theorem find_sorted {m : Map Hop} (hs : m.Sorted) {q : Hop → Bool} {kh : Str × Hop} (h : m.find? (fun x => q x.2) = some kh) :
    m.get kh.1 = some kh.2 ∧ q kh.2 = true ∧ ∀ k h', m.get k = some h' → q h' = true → kh.1 = k ∨ strLt kh.1 k = true := by
  refine ⟨get_of_mem hs.nodup (List.mem_of_find?_eq_some h), List.find?_some (p := fun x : Str × Hop => q x.2) h, ?_⟩
  intro k h' hk hq
  have hmem := mem_of_get hk
  obtain ⟨as, bs, e, hno⟩ := List.find?_eq_some_iff_append.mp h |>.2
  rw [e] at hmem hs
  rcases List.mem_append.mp hmem with hm | hm
  · have := hno _ hm; simp [hq] at this
  · rcases List.mem_cons.mp hm with hm | hm
    · left; rw [← hm]
    · right
      have := (List.pairwise_append.mp hs).2.1
      exact (List.pairwise_cons.mp this).1 _ hm

theorem Inserted.addStart {M : Map Hop} {S : List SIns} {R : Map Hop} {ex : List Str} (hI : Inserted M S [] R) (hex : ∀ k ∈ R.keys, k ∈ ex)
    {p : OutRef} (hp : ∀ x ∈ S, x.ref ≠ p) (hhit : ∃ k h, M.get k = some h ∧ h.src = p) :
    ∃ x R' ex', addStartJunction (ex, conns R) p = some (ex', conns R') ∧ x.ref = p ∧ Inserted M (S ++ [x]) [] R' ∧ ∀ k ∈ R'.keys, k ∈ ex' := by
  obtain ⟨ns, hns, hmem⟩ := extractJunctionNames_hops R
  have hmem' : ∀ n, n ∈ ns ↔ JunctionIn R n := by
    intro n
    rw [hmem]
    constructor
    · rintro ⟨⟨k, h⟩, hx, hq⟩; exact ⟨k, h, get_of_mem hI.sorted.nodup hx, hq⟩
    · rintro ⟨k, h, hx, hq⟩; exact ⟨(k, h), mem_of_get hx, hq⟩
  obtain ⟨J, hJ⟩ : ∃ J, J = newKey "junction".toList ns := ⟨_, rfl⟩
  obtain ⟨nk, hnk⟩ : ∃ nk, nk = newKey "dyn_connection".toList ex := ⟨_, rfl⟩
  have hJR : ¬ JunctionIn R J := by rw [← hmem', hJ]; exact newKey_fresh _ _
  have hnkex : nk ∉ ex := by rw [hnk]; exact newKey_fresh _ _
  -- which hops are hit
  have hMR : ∀ k h h', M.get k = some h → R.get k = some h' → (h'.src = p ↔ h.src = p) := by
    intro k h h' h1 h2
    obtain ⟨h'', q1, q2, _⟩ := hI.old k h h1
    rw [h2] at q1; cases q1
    rw [q2]
    constructor
    · intro e
      rcases newSrc_cases S h.src with ⟨x, hx, e1, e2⟩ | ⟨_, e2⟩
      · exfalso
        rw [e2] at e
        obtain ⟨k0, h0, hk0, hs0⟩ := hhit
        exact hI.newNames.1 x hx ⟨k0, h0, hk0, Or.inl (by rw [hs0, ← e]; exact ⟨rfl, rfl⟩)⟩
      · rw [← e2]; exact e
    · intro e
      rw [e]; exact newSrc_not_mem hp
  have hbr : ∀ k h', R.get k = some h' → h'.src = p → k ∈ M.keys := by
    intro k h' hk hsrc
    rcases hI.only k (mem_keys_of_get hk) with h | ⟨x, hx, rfl⟩ | ⟨x, hx, rfl⟩
    · exact h
    · obtain ⟨h0, _, q⟩ := hI.starts x hx
      rw [hk] at q; cases q
      exact absurd hsrc (hp x hx)
    · simp at hx
  obtain ⟨k1, h1, hk1, hs1⟩ := hhit
  obtain ⟨h1', hk1', e1, _⟩ := hI.old k1 h1 hk1
  have hfind : ∃ kh, R.find? (fun x => startHit p x.2) = some kh := by
    cases hf : R.find? (fun x => startHit p x.2) with
    | some kh => exact ⟨kh, rfl⟩
    | none =>
      have := List.find?_eq_none.mp hf (k1, h1') (mem_of_get hk1')
      simp only [startHit, decide_eq_true_eq] at this
      exact absurd ((hMR k1 h1 h1' hk1 hk1').mpr hs1) this
  obtain ⟨⟨k0, h0'⟩, hf0⟩ := hfind
  obtain ⟨f1, f2, f3⟩ := find_sorted hI.sorted hf0
  simp only [startHit, decide_eq_true_eq] at f1 f2 f3
  obtain ⟨h0, hk0⟩ := get_isSome (hbr k0 h0' f1 f2)
  have hpri : h0'.input = h0.input := by
    obtain ⟨h'', q1, _, _, q4⟩ := hI.old k0 h0 hk0
    rw [f1] at q1; cases q1; exact q4
  obtain ⟨r, r1, r2, r3, r4⟩ := jfold (startStep_body p J) R ⟨[], false, ex⟩ rfl List.Pairwise.nil hex hI.sorted.nodup (k0, h0') hf0
  simp only [← hnk] at r3 r4
  obtain ⟨R', hR', hR's⟩ := exists_hops r2 (by
    intro k d hd
    rw [r4] at hd
    split at hd
    · exact ⟨_, (Option.some.inj hd).symm⟩
    · cases hg : R.get k with
      | some h => rw [hg] at hd; exact ⟨_, (Option.some.inj hd).symm⟩
      | none => rw [hg] at hd; simp [Map.get] at hd)
  have hget : ∀ k, R'.get k = if k = nk then some (startBr J h0') else (R.get k).map fun h => if startHit p h then startRe J h else h := by
    intro k
    have := r4 k
    rw [hR', get_conns] at this
    by_cases hk : k = nk
    · rw [if_pos hk] at this ⊢
      cases hg : R'.get k with
      | none => rw [hg] at this; simp at this
      | some h => rw [hg] at this; simp at this; rw [conn_inj this]
    · rw [if_neg hk] at this ⊢
      cases hg : R.get k with
      | none =>
        rw [hg] at this
        simp only [Map.get, Option.map_eq_none_iff] at this
        rw [this]; rfl
      | some h =>
        rw [hg] at this
        cases hg' : R'.get k with
        | none => rw [hg'] at this; simp at this
        | some h' => rw [hg'] at this; simp at this; rw [conn_inj this]; simp
  have hnkR : nk ∉ R.keys := fun h => hnkex (hex nk h)
  have hold : ∀ k ∈ R.keys, k ≠ nk := fun k hk e => hnkR (e ▸ hk)
  have hMkeys : ∀ k ∈ M.keys, k ∈ R.keys := by
    intro k hk
    obtain ⟨h, hh⟩ := get_isSome hk
    obtain ⟨h', q, _⟩ := hI.old k h hh
    exact mem_keys_of_get q
  refine ⟨⟨p, J, nk⟩, R', nk :: ex, ?_, rfl, ?_, ?_⟩
  · simp only [addStartJunction, hns, ← hJ, r1, r3, hR']
  · constructor
    · exact hR's
    · intro k h hk
      obtain ⟨h', q1, q2, q3, q4⟩ := hI.old k h hk
      rw [hget, if_neg (hold k (mem_keys_of_get q1)), q1]
      refine ⟨_, rfl, ?_⟩
      rw [newSrc_append S _ _ hp]
      by_cases hsrc : h.src = p
      · have : startHit p h' = true := by simp only [startHit, decide_eq_true_eq]; exact (hMR k h h' hk q1).mpr hsrc
        simp only [this, if_true]; rw [if_pos hsrc]
        exact ⟨rfl, q3, q4⟩
      · have : startHit p h' = false := by simp only [startHit, decide_eq_false_iff_not]; exact fun e => hsrc ((hMR k h h' hk q1).mp e)
        simp only [this]; rw [if_neg hsrc]
        exact ⟨q2, q3, q4⟩
    · intro x hx
      rcases List.mem_append.mp hx with hx | hx
      · obtain ⟨h, q1, q2⟩ := hI.starts x hx
        refine ⟨h, q1, ?_⟩
        rw [hget, if_neg (hold _ (mem_keys_of_get q2)), q2]
        have hne : ¬ x.ref = p := hp x hx
        simp [startHit, hne]
      · rw [List.mem_singleton] at hx
        subst hx
        refine ⟨h0, ⟨k0, hk0, (hMR k0 h0 h0' hk0 f1).mp f2, ?_⟩, ?_⟩
        · intro k' h' hk' hs'
          obtain ⟨h'', q1, _⟩ := hI.old k' h' hk'
          exact f3 k' h'' q1 ((hMR k' h' h'' hk' q1).mpr hs')
        · rw [hget, if_pos rfl]
          simp only [startBr, f2, hpri]
    · intro x hx; simp at hx
    · intro k hk
      obtain ⟨h, hh⟩ := get_isSome hk
      rw [hget] at hh
      by_cases hkn : k = nk
      · right; left; exact ⟨_, List.mem_append.mpr (Or.inr (List.mem_singleton.mpr rfl)), hkn.symm⟩
      · rw [if_neg hkn] at hh
        cases hg : R.get k with
        | none => rw [hg] at hh; simp at hh
        | some h' =>
          rcases hI.only k (mem_keys_of_get hg) with h | ⟨x, hx, e⟩ | ⟨x, hx, e⟩
          · exact Or.inl h
          · exact Or.inr (Or.inl ⟨x, List.mem_append.mpr (Or.inl hx), e⟩)
          · simp at hx
    · refine ⟨fun x hx => ?_, fun x hx => by simp at hx⟩
      rcases List.mem_append.mp hx with hx | hx
      · exact hI.newKeys.1 x hx
      · rw [List.mem_singleton] at hx
        subst hx
        exact fun h => hnkR (hMkeys _ h)
    · have h0 := hI.keysNodup
      simp only [List.map_nil, List.append_nil, List.map_append, List.map_cons] at h0 ⊢
      rw [List.nodup_append]
      refine ⟨h0, by simp, ?_⟩
      intro a ha b hb
      rw [List.mem_singleton] at hb
      subst hb
      rintro rfl
      obtain ⟨x, hx, e⟩ := List.mem_map.mp ha
      obtain ⟨h, _, q⟩ := hI.starts x hx
      exact hnkR (e ▸ mem_keys_of_get q)
    · refine ⟨fun x hx => ?_, fun x hx => by simp at hx⟩
      rcases List.mem_append.mp hx with hx | hx
      · exact hI.newNames.1 x hx
      · rw [List.mem_singleton] at hx
        subst hx
        exact fun h => hJR (hI.keepsJunctions h)
    · have h0 := hI.namesNodup
      simp only [List.map_nil, List.append_nil, List.map_append, List.map_cons] at h0 ⊢
      rw [List.nodup_append]
      refine ⟨h0, by simp, ?_⟩
      intro a ha b hb
      rw [List.mem_singleton] at hb
      subst hb
      rintro rfl
      obtain ⟨x, hx, e⟩ := List.mem_map.mp ha
      obtain ⟨h, _, q⟩ := hI.starts x hx
      exact hJR ⟨_, _, q, Or.inr ⟨rfl, e⟩⟩
    · refine ⟨?_, by simp⟩
      rw [List.map_append, List.nodup_append]
      refine ⟨hI.refsNodup.1, by simp, ?_⟩
      intro a ha b hb
      simp only [List.map_cons, List.map_nil, List.mem_singleton] at hb
      subst hb
      rintro rfl
      obtain ⟨x, hx, e⟩ := List.mem_map.mp ha
      exact hp x hx e
  · intro k hk
    obtain ⟨h, hh⟩ := get_isSome hk
    rw [hget] at hh
    by_cases hkn : k = nk
    · simp [hkn]
    · rw [if_neg hkn] at hh
      cases hg : R.get k with
      | none => rw [hg] at hh; simp at hh
      | some h' => exact List.mem_cons_of_mem _ (hex k (mem_keys_of_get hg))

theorem Inserted.addEnd {M : Map Hop} {S : List SIns} {E : List EIns} {R : Map Hop} {ex : List Str} (hI : Inserted M S E R) (hex : ∀ k ∈ R.keys, k ∈ ex)
    {p : InRef} (hp : ∀ x ∈ E, x.ref ≠ p) (hhit : ∃ k h, M.get k = some h ∧ h.dst = p) :
    ∃ x R' ex', addEndJunction (ex, conns R) p = some (ex', conns R') ∧ x.ref = p ∧ Inserted M S (E ++ [x]) R' ∧ ∀ k ∈ R'.keys, k ∈ ex' := by
  obtain ⟨ns, hns, hmem⟩ := extractJunctionNames_hops R
  have hmem' : ∀ n, n ∈ ns ↔ JunctionIn R n := by
    intro n
    rw [hmem]
    constructor
    · rintro ⟨⟨k, h⟩, hx, hq⟩; exact ⟨k, h, get_of_mem hI.sorted.nodup hx, hq⟩
    · rintro ⟨k, h, hx, hq⟩; exact ⟨(k, h), mem_of_get hx, hq⟩
  obtain ⟨J, hJ⟩ : ∃ J, J = newKey "junction".toList ns := ⟨_, rfl⟩
  obtain ⟨nk, hnk⟩ : ∃ nk, nk = newKey "dyn_connection".toList ex := ⟨_, rfl⟩
  have hJR : ¬ JunctionIn R J := by rw [← hmem', hJ]; exact newKey_fresh _ _
  have hnkex : nk ∉ ex := by rw [hnk]; exact newKey_fresh _ _
  have hMR : ∀ k h h', M.get k = some h → R.get k = some h' → (h'.dst = p ↔ h.dst = p) := by
    intro k h h' h1 h2
    obtain ⟨h'', q1, _, q2, _⟩ := hI.old k h h1
    rw [h2] at q1; cases q1
    rw [q2]
    constructor
    · intro e
      rcases newDst_cases E h.dst with ⟨x, hx, e1, e2⟩ | ⟨_, e2⟩
      · exfalso
        rw [e2] at e
        obtain ⟨k0, h0, hk0, hs0⟩ := hhit
        exact hI.newNames.2 x hx ⟨k0, h0, hk0, Or.inr (by rw [hs0, ← e]; exact ⟨rfl, rfl⟩)⟩
      · rw [← e2]; exact e
    · intro e
      rw [e]; exact newDst_not_mem hp
  have hbr : ∀ k h', R.get k = some h' → h'.dst = p → k ∈ M.keys := by
    intro k h' hk hdst
    rcases hI.only k (mem_keys_of_get hk) with h | ⟨x, hx, rfl⟩ | ⟨x, hx, rfl⟩
    · exact h
    · obtain ⟨h0, _, q⟩ := hI.starts x hx
      rw [hk] at q; cases q
      obtain ⟨k0, h0, hk0, hs0⟩ := hhit
      exact absurd ⟨k0, h0, hk0, Or.inr (by rw [hs0, ← hdst]; exact ⟨rfl, rfl⟩)⟩ (hI.newNames.1 x hx)
    · obtain ⟨h0, _, q⟩ := hI.ends x hx
      rw [hk] at q; cases q
      exact absurd hdst (hp x hx)
  obtain ⟨k1, h1, hk1, hs1⟩ := hhit
  obtain ⟨h1', hk1', e1, _⟩ := hI.old k1 h1 hk1
  have hfind : ∃ kh, R.find? (fun x => endHit p x.2) = some kh := by
    cases hf : R.find? (fun x => endHit p x.2) with
    | some kh => exact ⟨kh, rfl⟩
    | none =>
      have := List.find?_eq_none.mp hf (k1, h1') (mem_of_get hk1')
      simp only [endHit, decide_eq_true_eq] at this
      exact absurd ((hMR k1 h1 h1' hk1 hk1').mpr hs1) this
  obtain ⟨⟨k0, h0'⟩, hf0⟩ := hfind
  obtain ⟨f1, f2, f3⟩ := find_sorted hI.sorted hf0
  simp only [endHit, decide_eq_true_eq] at f1 f2 f3
  obtain ⟨h0, hk0⟩ := get_isSome (hbr k0 h0' f1 f2)
  have hpri : h0'.input = h0.input := by
    obtain ⟨h'', q1, _, _, q4⟩ := hI.old k0 h0 hk0
    rw [f1] at q1; cases q1; exact q4
  obtain ⟨r, r1, r2, r3, r4⟩ := jfold (endStep_body p J) R ⟨[], false, ex⟩ rfl List.Pairwise.nil hex hI.sorted.nodup (k0, h0') hf0
  simp only [← hnk] at r3 r4
  obtain ⟨R', hR', hR's⟩ := exists_hops r2 (by
    intro k d hd
    rw [r4] at hd
    split at hd
    · exact ⟨_, (Option.some.inj hd).symm⟩
    · cases hg : R.get k with
      | some h => rw [hg] at hd; exact ⟨_, (Option.some.inj hd).symm⟩
      | none => rw [hg] at hd; simp [Map.get] at hd)
  have hget : ∀ k, R'.get k = if k = nk then some (endBr J h0') else (R.get k).map fun h => if endHit p h then endRe J h else h := by
    intro k
    have := r4 k
    rw [hR', get_conns] at this
    by_cases hk : k = nk
    · rw [if_pos hk] at this ⊢
      cases hg : R'.get k with
      | none => rw [hg] at this; simp at this
      | some h => rw [hg] at this; simp at this; rw [conn_inj this]
    · rw [if_neg hk] at this ⊢
      cases hg : R.get k with
      | none =>
        rw [hg] at this
        simp only [Map.get, Option.map_eq_none_iff] at this
        rw [this]; rfl
      | some h =>
        rw [hg] at this
        cases hg' : R'.get k with
        | none => rw [hg'] at this; simp at this
        | some h' => rw [hg'] at this; simp at this; rw [conn_inj this]; simp
  have hnkR : nk ∉ R.keys := fun h => hnkex (hex nk h)
  have hold : ∀ k ∈ R.keys, k ≠ nk := fun k hk e => hnkR (e ▸ hk)
  have hMkeys : ∀ k ∈ M.keys, k ∈ R.keys := by
    intro k hk
    obtain ⟨h, hh⟩ := get_isSome hk
    obtain ⟨h', q, _⟩ := hI.old k h hh
    exact mem_keys_of_get q
  refine ⟨⟨p, J, nk⟩, R', nk :: ex, ?_, rfl, ?_, ?_⟩
  · simp only [addEndJunction, hns, ← hJ, r1, r3, hR']
  · constructor
    · exact hR's
    · intro k h hk
      obtain ⟨h', q1, q2, q3, q4⟩ := hI.old k h hk
      rw [hget, if_neg (hold k (mem_keys_of_get q1)), q1]
      refine ⟨_, rfl, ?_⟩
      rw [newDst_append E _ _ hp]
      by_cases hdst : h.dst = p
      · have : endHit p h' = true := by simp only [endHit, decide_eq_true_eq]; exact (hMR k h h' hk q1).mpr hdst
        simp only [this, if_true]; rw [if_pos hdst]
        exact ⟨q2, rfl, q4⟩
      · have : endHit p h' = false := by simp only [endHit, decide_eq_false_iff_not]; exact fun e => hdst ((hMR k h h' hk q1).mp e)
        simp only [this]; rw [if_neg hdst]
        exact ⟨q2, q3, q4⟩
    · intro x hx
      obtain ⟨h, q1, q2⟩ := hI.starts x hx
      refine ⟨h, q1, ?_⟩
      rw [hget, if_neg (hold _ (mem_keys_of_get q2)), q2]
      have hne : ¬ (InRef.mk .junction x.junction) = p := by
        intro e
        exact hI.newNames.1 x hx ⟨k1, h1, hk1, Or.inr (by rw [hs1, ← e]; exact ⟨rfl, rfl⟩)⟩
      simp [endHit, hne]
    · intro x hx
      rcases List.mem_append.mp hx with hx | hx
      · obtain ⟨h, q1, q2⟩ := hI.ends x hx
        refine ⟨h, q1, ?_⟩
        rw [hget, if_neg (hold _ (mem_keys_of_get q2)), q2]
        have hne : ¬ x.ref = p := hp x hx
        simp [endHit, hne]
      · rw [List.mem_singleton] at hx
        subst hx
        refine ⟨h0, ⟨k0, hk0, (hMR k0 h0 h0' hk0 f1).mp f2, ?_⟩, ?_⟩
        · intro k' h' hk' hs'
          obtain ⟨h'', q1, _⟩ := hI.old k' h' hk'
          exact f3 k' h'' q1 ((hMR k' h' h'' hk' q1).mpr hs')
        · rw [hget, if_pos rfl]
          simp only [endBr, f2, hpri]
    · intro k hk
      obtain ⟨h, hh⟩ := get_isSome hk
      rw [hget] at hh
      by_cases hkn : k = nk
      · right; right; exact ⟨_, List.mem_append.mpr (Or.inr (List.mem_singleton.mpr rfl)), hkn.symm⟩
      · rw [if_neg hkn] at hh
        cases hg : R.get k with
        | none => rw [hg] at hh; simp at hh
        | some h' =>
          rcases hI.only k (mem_keys_of_get hg) with h | ⟨x, hx, e⟩ | ⟨x, hx, e⟩
          · exact Or.inl h
          · exact Or.inr (Or.inl ⟨x, hx, e⟩)
          · exact Or.inr (Or.inr ⟨x, List.mem_append.mpr (Or.inl hx), e⟩)
    · refine ⟨hI.newKeys.1, fun x hx => ?_⟩
      rcases List.mem_append.mp hx with hx | hx
      · exact hI.newKeys.2 x hx
      · rw [List.mem_singleton] at hx
        subst hx
        exact fun h => hnkR (hMkeys _ h)
    · rw [List.map_append, ← List.append_assoc, List.nodup_append]
      refine ⟨hI.keysNodup, by simp, ?_⟩
      intro a ha b hb
      simp only [List.map_cons, List.map_nil, List.mem_singleton] at hb
      subst hb
      rintro rfl
      rcases List.mem_append.mp ha with ha | ha
      · obtain ⟨x, hx, e⟩ := List.mem_map.mp ha
        obtain ⟨h, _, q⟩ := hI.starts x hx
        exact hnkR (e ▸ mem_keys_of_get q)
      · obtain ⟨x, hx, e⟩ := List.mem_map.mp ha
        obtain ⟨h, _, q⟩ := hI.ends x hx
        exact hnkR (e ▸ mem_keys_of_get q)
    · refine ⟨hI.newNames.1, fun x hx => ?_⟩
      rcases List.mem_append.mp hx with hx | hx
      · exact hI.newNames.2 x hx
      · rw [List.mem_singleton] at hx
        subst hx
        exact fun h => hJR (hI.keepsJunctions h)
    · rw [List.map_append, ← List.append_assoc, List.nodup_append]
      refine ⟨hI.namesNodup, by simp, ?_⟩
      intro a ha b hb
      simp only [List.map_cons, List.map_nil, List.mem_singleton] at hb
      subst hb
      rintro rfl
      rcases List.mem_append.mp ha with ha | ha
      · obtain ⟨x, hx, e⟩ := List.mem_map.mp ha
        obtain ⟨h, _, q⟩ := hI.starts x hx
        exact hJR ⟨_, _, q, Or.inr ⟨rfl, e⟩⟩
      · obtain ⟨x, hx, e⟩ := List.mem_map.mp ha
        obtain ⟨h, _, q⟩ := hI.ends x hx
        exact hJR ⟨_, _, q, Or.inl ⟨rfl, e⟩⟩
    · refine ⟨hI.refsNodup.1, ?_⟩
      rw [List.map_append, List.nodup_append]
      refine ⟨hI.refsNodup.2, by simp, ?_⟩
      intro a ha b hb
      simp only [List.map_cons, List.map_nil, List.mem_singleton] at hb
      subst hb
      rintro rfl
      obtain ⟨x, hx, e⟩ := List.mem_map.mp ha
      exact hp x hx e
  · intro k hk
    obtain ⟨h, hh⟩ := get_isSome hk
    rw [hget] at hh
    by_cases hkn : k = nk
    · simp [hkn]
    · rw [if_neg hkn] at hh
      cases hg : R.get k with
      | none => rw [hg] at hh; simp at hh
      | some h' => exact List.mem_cons_of_mem _ (hex k (mem_keys_of_get hg))

theorem addStarts {M : Map Hop} (ps : List OutRef) {S : List SIns} {R : Map Hop} {ex : List Str} (hI : Inserted M S [] R) (hex : ∀ k ∈ R.keys, k ∈ ex)
    (hn : (S.map (·.ref) ++ ps).Nodup) (hhit : ∀ p ∈ ps, ∃ k h, M.get k = some h ∧ h.src = p) :
    ∃ S' R' ex', foldOpt addStartJunction (ex, conns R) ps = some (ex', conns R') ∧ S'.map (·.ref) = S.map (·.ref) ++ ps ∧
      Inserted M S' [] R' ∧ ∀ k ∈ R'.keys, k ∈ ex' := by
  induction ps generalizing S R ex with
  | nil => exact ⟨S, R, ex, rfl, by simp, hI, hex⟩
  | cons p ps ih =>
    have hp : ∀ x ∈ S, x.ref ≠ p := by
      intro x hx e
      rw [List.nodup_append] at hn
      exact hn.2.2 x.ref (List.mem_map.mpr ⟨x, hx, rfl⟩) p (by simp) e
    obtain ⟨x, R', ex', h1, h2, h3, h4⟩ := hI.addStart hex hp (hhit p (by simp))
    obtain ⟨S'', R'', ex'', q1, q2, q3, q4⟩ := ih h3 h4 (by simpa [h2] using hn) (fun p hp => hhit p (by simp [hp]))
    exact ⟨S'', R'', ex'', by simp only [foldOpt, h1, q1], by rw [q2]; simp [h2], q3, q4⟩

theorem addEnds {M : Map Hop} (ps : List InRef) {S : List SIns} {E : List EIns} {R : Map Hop} {ex : List Str} (hI : Inserted M S E R) (hex : ∀ k ∈ R.keys, k ∈ ex)
    (hn : (E.map (·.ref) ++ ps).Nodup) (hhit : ∀ p ∈ ps, ∃ k h, M.get k = some h ∧ h.dst = p) :
    ∃ E' R' ex', foldOpt addEndJunction (ex, conns R) ps = some (ex', conns R') ∧ E'.map (·.ref) = E.map (·.ref) ++ ps ∧
      Inserted M S E' R' ∧ ∀ k ∈ R'.keys, k ∈ ex' := by
  induction ps generalizing E R ex with
  | nil => exact ⟨E, R, ex, rfl, by simp, hI, hex⟩
  | cons p ps ih =>
    have hp : ∀ x ∈ E, x.ref ≠ p := by
      intro x hx e
      rw [List.nodup_append] at hn
      exact hn.2.2 x.ref (List.mem_map.mpr ⟨x, hx, rfl⟩) p (by simp) e
    obtain ⟨x, R', ex', h1, h2, h3, h4⟩ := hI.addEnd hex hp (hhit p (by simp))
    obtain ⟨S'', R'', ex'', q1, q2, q3, q4⟩ := ih h3 h4 (by simpa [h2] using hn) (fun p hp => hhit p (by simp [hp]))
    exact ⟨S'', R'', ex'', by simp only [foldOpt, h1, q1], by rw [q2]; simp [h2], q3, q4⟩

theorem inserted_refl {M : Map Hop} (hs : M.Sorted) : Inserted M [] [] M :=
  ⟨hs, fun k h hk => ⟨h, hk, rfl, rfl, rfl⟩, fun x hx => absurd hx (by simp), fun x hx => absurd hx (by simp), fun k hk => Or.inl hk,
    ⟨fun x hx => absurd hx (by simp), fun x hx => absurd hx (by simp)⟩, by simp,
    ⟨fun x hx => absurd hx (by simp), fun x hx => absurd hx (by simp)⟩, by simp, by simp⟩

/-- Used by more than one hop. -/
def UsedTwice (m : Map Hop) (q : Hop → Prop) : Prop :=
  ∃ k k' h h', k ≠ k' ∧ m.get k = some h ∧ m.get k' = some h' ∧ q h ∧ q h'

/-- All of `add_junctions`: exactly the outputs and components that are used twice get a junction. -/
theorem addJunctions_inserted {M : Map Hop} (hs : M.Sorted) {perm : List OutRef → List OutRef} {perm' : List InRef → List InRef}
    (hp : ∀ l, (perm l).Perm l) (hp' : ∀ l, (perm' l).Perm l) :
    ∃ S E R, addJunctions perm perm' (conns M) = some (conns R) ∧ Inserted M S E R ∧
      (∀ p, (∃ x ∈ S, x.ref = p) ↔ UsedTwice M fun h => h.src = p) ∧ (∀ e, (∃ x ∈ E, x.ref = e) ↔ UsedTwice M fun h => h.dst = e) := by
  obtain ⟨outs, ins, h1, h2, h3, h4, h5⟩ := countStartEnds_hops M [] [] (by simp) (by simp)
  have hmo : ∀ p, p ∈ perm (multis outs) ↔ UsedTwice M fun h => h.src = p := by
    intro p
    rw [(hp _).mem_iff, mem_multis h2, h4]
    have := countP_two hs.nodup (fun h => decide (h.src = p))
    simp only [cnt, List.find?_nil, Option.map_none, Option.getD_none, Nat.zero_add, this, decide_eq_true_eq, UsedTwice]
  have hmi : ∀ p, p ∈ perm' (multis ins) ↔ UsedTwice M fun h => h.dst = p := by
    intro p
    rw [(hp' _).mem_iff, mem_multis h3, h5]
    have := countP_two hs.nodup (fun h => decide (h.dst = p))
    simp only [cnt, List.find?_nil, Option.map_none, Option.getD_none, Nat.zero_add, this, decide_eq_true_eq, UsedTwice]
  obtain ⟨S, R, ex, q1, q2, q3, q4⟩ := addStarts (perm (multis outs)) (inserted_refl hs) (ex := M.keys) (fun k h => h)
    (by simpa using (hp _).nodup_iff.mpr (nodup_multis h2)) (fun p h => by
      obtain ⟨k, _, h, _, _, hk, _, e, _⟩ := (hmo p).mp h
      exact ⟨k, h, hk, e⟩)
  obtain ⟨E, R', ex', r1, r2, r3, r4⟩ := addEnds (perm' (multis ins)) q3 q4
    (by simpa using (hp' _).nodup_iff.mpr (nodup_multis h3)) (fun p h => by
      obtain ⟨k, _, h, _, _, hk, _, e, _⟩ := (hmi p).mp h
      exact ⟨k, h, hk, e⟩)
  refine ⟨S, E, R', ?_, r3, ?_, ?_⟩
  · simp only [addJunctions, h1, keys_conns, q1, r1]
  · intro p
    rw [← hmo]
    have : p ∈ S.map (·.ref) ↔ p ∈ perm (multis outs) := by rw [q2]; simp
    rw [← this, List.mem_map]
  · intro p
    rw [← hmi]
    have : p ∈ E.map (·.ref) ↔ p ∈ perm' (multis ins) := by rw [r2]; simp
    rw [← this, List.mem_map]

end Verif
