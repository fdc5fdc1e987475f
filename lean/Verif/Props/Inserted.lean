import Verif.Props.Hops
/-!
# C37, C38 Automatic junctions
-/
namespace Verif

/-- A way along hops, given by their keys, from an output to a component, that leads through junctions satisfying `New` only. -/
inductive Way (R : Map Hop) (New : Str → Prop) : OutRef → InRef → List Str → Prop
  | last {k h p d} : R.get k = some h → h.src = p → h.dst = d → Way R New p d [k]
  | step {k h p d J ks} : R.get k = some h → h.src = p → h.dst = ⟨.junction, J⟩ → New J → Way R New ⟨.junction, J, .out⟩ d ks →
      Way R New p d (k :: ks)

/-- Not one of the junctions that were put in. -/
def OutRef.Old (M : Map Hop) (p : OutRef) : Prop := p.ty = .junction → JunctionIn M p.name
def InRef.Old (M : Map Hop) (e : InRef) : Prop := e.ty = .junction → JunctionIn M e.name

theorem JunctionIn.src {M : Map Hop} {k h} (hk : M.get k = some h) : h.src.Old M := fun e => ⟨k, h, hk, Or.inl ⟨e, rfl⟩⟩
theorem JunctionIn.dst {M : Map Hop} {k h} (hk : M.get k = some h) : h.dst.Old M := fun e => ⟨k, h, hk, Or.inr ⟨e, rfl⟩⟩

section
variable {M R : Map Hop} {S : List SIns} {E : List EIns} (hI : Inserted M S E R)
include hI

/-- The three kinds of hops after insertion. -/
theorem Inserted.kinds {k : Str} {h : Hop} (hk : R.get k = some h) :
    (∃ h₀, M.get k = some h₀ ∧ h.src = newSrc S h₀.src ∧ h.dst = newDst E h₀.dst ∧ h.input = h₀.input) ∨
    (∃ x ∈ S, x.key = k ∧ k ∉ M.keys ∧ h.src = x.ref ∧ h.dst = ⟨.junction, x.junction⟩ ∧ h.input.breakable = .finish) ∨
    (∃ x ∈ E, x.key = k ∧ k ∉ M.keys ∧ h.src = ⟨.junction, x.junction, .out⟩ ∧ h.dst = x.ref ∧ h.input.breakable = .finish) := by
  rcases hI.only k (mem_keys_of_get hk) with hm | ⟨x, hx, rfl⟩ | ⟨x, hx, rfl⟩
  · obtain ⟨h₀, h0⟩ := get_isSome hm
    obtain ⟨h', q1, q2⟩ := hI.old k h₀ h0
    rw [hk] at q1; cases q1
    exact Or.inl ⟨h₀, h0, q2⟩
  · obtain ⟨h', _, q⟩ := hI.starts x hx
    rw [hk] at q; cases q
    exact Or.inr (Or.inl ⟨x, hx, rfl, hI.newKeys.1 x hx, rfl, rfl, rfl⟩)
  · obtain ⟨h', _, q⟩ := hI.ends x hx
    rw [hk] at q; cases q
    exact Or.inr (Or.inr ⟨x, hx, rfl, hI.newKeys.2 x hx, rfl, rfl, rfl⟩)

theorem Inserted.startRef {x : SIns} (hx : x ∈ S) : x.ref.Old M := by
  obtain ⟨h, ⟨k, hk, e, _⟩, _⟩ := hI.starts x hx
  rw [← e]; exact JunctionIn.src hk

theorem Inserted.endRef {x : EIns} (hx : x ∈ E) : x.ref.Old M := by
  obtain ⟨h, ⟨k, hk, e, _⟩, _⟩ := hI.ends x hx
  rw [← e]; exact JunctionIn.dst hk

theorem Inserted.uniqueStart {x y : SIns} (hx : x ∈ S) (hy : y ∈ S) (h : x.junction = y.junction ∨ x.ref = y.ref ∨ x.key = y.key) : x = y := by
  have aux : ∀ {β : Type} (f : SIns → β), (S.map f).Nodup → f x = f y → x = y := by
    intro β f hn e
    rw [List.nodup_iff_pairwise_ne, List.pairwise_map] at hn
    rcases List.mem_iff_getElem.mp hx with ⟨i, hi, rfl⟩
    rcases List.mem_iff_getElem.mp hy with ⟨j, hj, rfl⟩
    rw [List.pairwise_iff_getElem] at hn
    rcases Nat.lt_trichotomy i j with h | h | h
    · exact absurd e (hn i j hi hj h)
    · subst h; rfl
    · exact absurd e.symm (hn j i hj hi h)
  rcases h with h | h | h
  · exact aux _ (List.nodup_append.mp hI.namesNodup).1 h
  · exact aux _ hI.refsNodup.1 h
  · exact aux _ (List.nodup_append.mp hI.keysNodup).1 h

theorem Inserted.uniqueEnd {x y : EIns} (hx : x ∈ E) (hy : y ∈ E) (h : x.junction = y.junction ∨ x.ref = y.ref ∨ x.key = y.key) : x = y := by
  have aux : ∀ {β : Type} (f : EIns → β), (E.map f).Nodup → f x = f y → x = y := by
    intro β f hn e
    rw [List.nodup_iff_pairwise_ne, List.pairwise_map] at hn
    rcases List.mem_iff_getElem.mp hx with ⟨i, hi, rfl⟩
    rcases List.mem_iff_getElem.mp hy with ⟨j, hj, rfl⟩
    rw [List.pairwise_iff_getElem] at hn
    rcases Nat.lt_trichotomy i j with h | h | h
    · exact absurd e (hn i j hi hj h)
    · subst h; rfl
    · exact absurd e.symm (hn j i hj hi h)
  rcases h with h | h | h
  · exact aux _ (List.nodup_append.mp hI.namesNodup).2.1 h
  · exact aux _ hI.refsNodup.2 h
  · exact aux _ (List.nodup_append.mp hI.keysNodup).2.1 h

theorem Inserted.startEndNames {x : SIns} {y : EIns} (hx : x ∈ S) (hy : y ∈ E) : x.junction ≠ y.junction :=
  (List.nodup_append.mp hI.namesNodup).2.2 _ (List.mem_map.mpr ⟨x, hx, rfl⟩) _ (List.mem_map.mpr ⟨y, hy, rfl⟩)

/-- The keys of the hops on the way for an original hop. -/
def stretch (S : List SIns) (E : List EIns) (k : Str) (h : Hop) : List Str :=
  ((S.find? fun x => x.ref = h.src).map (·.key)).toList ++ [k] ++ ((E.find? fun x => x.ref = h.dst).map (·.key)).toList

theorem Inserted.way {k : Str} {h : Hop} (hk : M.get k = some h) : Way R (fun J => ¬ JunctionIn M J) h.src h.dst (stretch S E k h) := by
  obtain ⟨h', q1, q2, q3, q4⟩ := hI.old k h hk
  have tail : Way R (fun J => ¬ JunctionIn M J) (newSrc S h.src) h.dst (k :: ((E.find? fun x => x.ref = h.dst).map (·.key)).toList) := by
    unfold newDst at q3
    cases hf : E.find? fun x => x.ref = h.dst with
    | none => rw [hf] at q3; exact .last q1 q2 q3
    | some x =>
      rw [hf] at q3
      have hx := List.mem_of_find?_eq_some hf
      have he : x.ref = h.dst := by simpa using List.find?_some hf
      obtain ⟨h0, _, q⟩ := hI.ends x hx
      exact .step q1 q2 q3 (hI.newNames.2 x hx) (.last q rfl he)
  unfold stretch
  unfold newSrc at tail
  cases hf : S.find? fun x => x.ref = h.src with
  | none => rw [hf] at tail; simpa using tail
  | some x =>
    rw [hf] at tail
    have hx := List.mem_of_find?_eq_some hf
    have he : x.ref = h.src := by simpa using List.find?_some hf
    obtain ⟨h0, _, q⟩ := hI.starts x hx
    exact .step q he rfl (hI.newNames.1 x hx) (by simpa using tail)

/-- From a junction put in before a component there is only one way on. -/
theorem Inserted.fromEnd {y : EIns} (hy : y ∈ E) {d : InRef} {ks : List Str} (hw : Way R (fun J => ¬ JunctionIn M J) ⟨.junction, y.junction, .out⟩ d ks)
    (hd : d.Old M) : ks = [y.key] ∧ d = y.ref := by
  have key : ∀ {k h}, R.get k = some h → h.src = ⟨.junction, y.junction, .out⟩ → k = y.key ∧ h.dst = y.ref := by
    intro k h hk hs
    rcases hI.kinds hk with ⟨h₀, h0, q1, _⟩ | ⟨x, hx, rfl, _, q1, _⟩ | ⟨x, hx, rfl, _, q1, q2, _⟩
    · exfalso
      rcases newSrc_cases S h₀.src with ⟨x, hx, _, e⟩ | ⟨_, e⟩
      · rw [hs, e] at q1
        exact hI.startEndNames hx hy (by simpa using q1.symm)
      · rw [e] at q1
        exact hI.newNames.2 y hy (by
          have := JunctionIn.src h0
          rw [← q1, hs] at this
          exact this rfl)
    · exfalso
      have := hI.startRef hx
      rw [← q1, hs] at this
      exact hI.newNames.2 y hy (this rfl)
    · rw [hs] at q1
      have : x = y := hI.uniqueEnd hx hy (Or.inl (by simpa using q1.symm))
      subst this
      exact ⟨rfl, q2⟩
  cases hw with
  | last h1 h2 h3 =>
    obtain ⟨rfl, e⟩ := key h1 h2
    exact ⟨rfl, by rw [← h3, e]⟩
  | step h1 h2 h3 h4 _ =>
    exfalso
    obtain ⟨rfl, e⟩ := key h1 h2
    have := hI.endRef hy
    rw [← e, h3] at this
    exact h4 (this rfl)

/-- From a hop of the original on. -/
theorem Inserted.fromHop {k : Str} {h h₀ : Hop} (hk : R.get k = some h) (h0 : M.get k = some h₀) {J : Str} {d : InRef} {ks : List Str}
    (hd : h.dst = ⟨.junction, J⟩) (hJ : ¬ JunctionIn M J) (hw : Way R (fun J => ¬ JunctionIn M J) ⟨.junction, J, .out⟩ d ks) (hold : d.Old M) :
    ks = ((E.find? fun x => x.ref = h₀.dst).map (·.key)).toList ∧ d = h₀.dst := by
  obtain ⟨h', q1, q2, q3, q4⟩ := hI.old k h₀ h0
  rw [hk] at q1; cases q1
  unfold newDst at q3
  cases hf : E.find? fun x => x.ref = h₀.dst with
  | none =>
    rw [hf] at q3
    simp only at q3
    exfalso
    have := JunctionIn.dst h0
    rw [← q3, hd] at this
    exact hJ (this rfl)
  | some x =>
    rw [hf] at q3
    have hx := List.mem_of_find?_eq_some hf
    have he : x.ref = h₀.dst := by simpa using List.find?_some hf
    have : J = x.junction := by rw [hd] at q3; simpa using q3
    subst this
    obtain ⟨e1, e2⟩ := hI.fromEnd hx hw hold
    exact ⟨by rw [e1]; rfl, by rw [e2, he]⟩

/-- Every way between things that were there before is the way of a hop. -/
theorem Inserted.ways {p : OutRef} {d : InRef} {ks : List Str} (hw : Way R (fun J => ¬ JunctionIn M J) p d ks) (hp : p.Old M) (hd : d.Old M) :
    ∃ k h, M.get k = some h ∧ h.src = p ∧ h.dst = d ∧ ks = stretch S E k h := by
  cases hw with
  | @last k h _ _ h1 h2 h3 =>
    rcases hI.kinds h1 with ⟨h₀, h0, q1, q2, _⟩ | ⟨x, hx, _, _, _, q2, _⟩ | ⟨x, hx, _, _, q1, _⟩
    · refine ⟨k, h₀, h0, ?_⟩
      unfold stretch newSrc newDst at *
      cases hf : S.find? fun x => x.ref = h₀.src with
      | some x =>
        rw [hf] at q1
        rw [← h2, q1] at hp
        exact absurd (hp rfl) (hI.newNames.1 x (List.mem_of_find?_eq_some hf))
      | none =>
        rw [hf] at q1
        cases hf' : E.find? fun x => x.ref = h₀.dst with
        | some x =>
          rw [hf'] at q2
          rw [← h3, q2] at hd
          exact absurd (hd rfl) (hI.newNames.2 x (List.mem_of_find?_eq_some hf'))
        | none =>
          rw [hf'] at q2
          exact ⟨by rw [← h2, q1], by rw [← h3, q2], rfl⟩
    · rw [← h3, q2] at hd
      exact absurd (hd rfl) (hI.newNames.1 x hx)
    · rw [← h2, q1] at hp
      exact absurd (hp rfl) (hI.newNames.2 x hx)
  | @step k h _ _ J ks h1 h2 h3 h4 hw =>
    rcases hI.kinds h1 with ⟨h₀, h0, q1, q2, _⟩ | ⟨x, hx, hxk, _, q1, q2, _⟩ | ⟨x, hx, _, _, q1, _⟩
    · obtain ⟨e1, e2⟩ := hI.fromHop h1 h0 h3 h4 hw hd
      refine ⟨k, h₀, h0, ?_, e2.symm, ?_⟩
      · rcases newSrc_cases S h₀.src with ⟨x, hx, _, e⟩ | ⟨_, e⟩
        · rw [← h2, q1, e] at hp
          exact absurd (hp rfl) (hI.newNames.1 x hx)
        · rw [← h2, q1, e]
      · rw [e1]
        unfold stretch
        unfold newSrc at q1
        cases hf : S.find? fun x => x.ref = h₀.src with
        | some x =>
          rw [hf] at q1
          rw [← h2, q1] at hp
          exact absurd (hp rfl) (hI.newNames.1 x (List.mem_of_find?_eq_some hf))
        | none => rfl
    · -- into a junction after an output
      have hJ : J = x.junction := by rw [q2] at h3; simpa using h3.symm
      subst hJ
      have key : ∀ {k' h'}, R.get k' = some h' → h'.src = ⟨.junction, x.junction, .out⟩ → ∃ h₀, M.get k' = some h₀ ∧ h₀.src = p := by
        intro k' h' hk' hs'
        rcases hI.kinds hk' with ⟨h₀, h0, r1, _⟩ | ⟨y, hy, _, _, r1, _⟩ | ⟨y, hy, _, _, r1, _⟩
        · rcases newSrc_cases S h₀.src with ⟨y, hy, e', e⟩ | ⟨_, e⟩
          · rw [hs', e] at r1
            have : x = y := hI.uniqueStart hx hy (Or.inl (by simpa using r1))
            subst this
            exact ⟨h₀, h0, by rw [← e', ← h2, q1]⟩
          · exfalso
            have := JunctionIn.src h0
            rw [← e, ← r1, hs'] at this
            exact hI.newNames.1 x hx (this rfl)
        · exfalso
          have := hI.startRef hy
          rw [← r1, hs'] at this
          exact hI.newNames.1 x hx (this rfl)
        · exfalso
          rw [hs'] at r1
          exact hI.startEndNames hx hy (by simpa using r1)
      have hfind : S.find? (fun y => y.ref = p) = some x := by
        cases hf : S.find? (fun y => y.ref = p) with
        | none =>
          have := List.find?_eq_none.mp hf x hx
          simp only [decide_eq_true_eq] at this
          exact absurd (by rw [← q1, h2]) this
        | some y =>
          have hy := List.mem_of_find?_eq_some hf
          have he : y.ref = p := by simpa using List.find?_some hf
          rw [hI.uniqueStart hy hx (Or.inr (Or.inl (by rw [he, ← h2, q1])))]
      cases hw with
      | @last k' h' _ _ w1 w2 w3 =>
        obtain ⟨h₀, h0, e⟩ := key w1 w2
        obtain ⟨h'', r1, r2, r3, _⟩ := hI.old k' h₀ h0
        rw [w1] at r1; cases r1
        refine ⟨k', h₀, h0, e, ?_⟩
        unfold stretch
        unfold newDst at r3
        rw [e, hfind]
        cases hf' : E.find? fun x => x.ref = h₀.dst with
        | some z =>
          rw [hf'] at r3
          rw [← w3, r3] at hd
          exact absurd (hd rfl) (hI.newNames.2 z (List.mem_of_find?_eq_some hf'))
        | none =>
          rw [hf'] at r3
          exact ⟨by rw [← w3, r3], by simp [hxk]⟩
      | @step k' h' _ _ J' ks' w1 w2 w3 w4 w5 =>
        obtain ⟨h₀, h0, e⟩ := key w1 w2
        obtain ⟨e1, e2⟩ := hI.fromHop w1 h0 w3 w4 w5 hd
        refine ⟨k', h₀, h0, e, e2.symm, ?_⟩
        unfold stretch
        rw [e1, e, hfind]
        simp [hxk]
    · rw [← h2, q1] at hp
      exact absurd (hp rfl) (hI.newNames.2 x hx)

theorem Inserted.stretch_old {k k' : Str} {h : Hop} (hk : k' ∈ stretch S E k h) (hm : k' ∈ M.keys) : k' = k := by
  unfold stretch at hk
  simp only [List.append_assoc, List.mem_append, Option.mem_toList, Option.map_eq_some_iff, List.mem_singleton] at hk
  rcases hk with ⟨x, hx, rfl⟩ | rfl | ⟨x, hx, rfl⟩
  · exact absurd hm (hI.newKeys.1 x (List.mem_of_find?_eq_some hx))
  · rfl
  · exact absurd hm (hI.newKeys.2 x (List.mem_of_find?_eq_some hx))

end

/-- A map of hops as connection sets: what processing has made of a configuration before junctions are put in. -/
abbrev hopSets (m : Map Hop) : Map DConn := m.map fun x => (x.1, x.2.conn)

/-- **C37** Junctions put in automatically do not change who feeds whom. The connection sets after it are again hops, the original keys are still there
with their pipe variation and priority, all other hops are to or from a new junction and of variation `F`. Between outputs and components that were there before, the ways
through new junctions are exactly the original hops: there is one way for each hop, passing its key and no other original key, and no other way. This for every order in which the hash maps
are iterated. -/
theorem C37_ways {M : Map Hop} (hs : M.Sorted) {perm : List OutRef → List OutRef} {perm' : List InRef → List InRef}
    (hp : ∀ l, (perm l).Perm l) (hp' : ∀ l, (perm' l).Perm l) :
    ∃ R, addJunctions perm perm' (hopSets M) = some (hopSets R) ∧ R.Sorted ∧
      (∀ k h, M.get k = some h → ∃ h', R.get k = some h' ∧ h'.input = h.input) ∧
      (∀ k h', k ∉ M.keys → R.get k = some h' → h'.input.breakable = .finish ∧
        ((h'.src.ty = .junction ∧ ¬ JunctionIn M h'.src.name) ∨ (h'.dst.ty = .junction ∧ ¬ JunctionIn M h'.dst.name))) ∧
      (∀ k h, M.get k = some h → ∃ ks, Way R (fun J => ¬ JunctionIn M J) h.src h.dst ks ∧ k ∈ ks ∧ (∀ k' ∈ ks, k' ∈ M.keys → k' = k) ∧
        ∀ ks', Way R (fun J => ¬ JunctionIn M J) h.src h.dst ks' → k ∈ ks' → ks' = ks) ∧
      (∀ p d ks, p.Old M → d.Old M → Way R (fun J => ¬ JunctionIn M J) p d ks → ∃ k h, k ∈ ks ∧ M.get k = some h ∧ h.src = p ∧ h.dst = d) := by
  obtain ⟨S, E, R, h1, hI, _, _⟩ := addJunctions_inserted hs hp hp'
  refine ⟨R, h1, hI.sorted, ?_, ?_, ?_, ?_⟩
  · intro k h hk
    obtain ⟨h', q, _, _, e⟩ := hI.old k h hk
    exact ⟨h', q, e⟩
  · intro k h' hkn hk
    rcases hI.kinds hk with ⟨h₀, h0, _⟩ | ⟨x, hx, _, _, _, q, e⟩ | ⟨x, hx, _, _, q, _, e⟩
    · exact absurd (mem_keys_of_get h0) hkn
    · exact ⟨e, Or.inr (by rw [q]; exact ⟨rfl, hI.newNames.1 x hx⟩)⟩
    · exact ⟨e, Or.inl (by rw [q]; exact ⟨rfl, hI.newNames.2 x hx⟩)⟩
  · intro k h hk
    refine ⟨stretch S E k h, hI.way hk, by simp [stretch], fun k' h1 h2 => hI.stretch_old h1 h2, ?_⟩
    intro ks' hw hmem
    obtain ⟨k', h', q1, q2, q3, rfl⟩ := hI.ways hw (JunctionIn.src hk) (JunctionIn.dst hk)
    have := hI.stretch_old hmem (mem_keys_of_get hk)
    subst this
    rw [hk] at q1; cases q1
    rfl
  · intro p d ks hp hd hw
    obtain ⟨k, h, q1, q2, q3, rfl⟩ := hI.ways hw hp hd
    exact ⟨k, h, by simp [stretch], q1, q2, q3⟩

/-- **C38** After junctions have been put in, everything but the new junctions is used at most once: no output of anything else is the source of two hops, nothing else is the
destination of two hops. In particular nothing but a junction is connected twice. -/
theorem C38_single {M : Map Hop} (hs : M.Sorted) {perm : List OutRef → List OutRef} {perm' : List InRef → List InRef}
    (hp : ∀ l, (perm l).Perm l) (hp' : ∀ l, (perm' l).Perm l) :
    ∃ R, addJunctions perm perm' (hopSets M) = some (hopSets R) ∧
      ∀ k k' h h', R.get k = some h → R.get k' = some h' →
        (h.src = h'.src → h.src.Old M → k = k') ∧ (h.dst = h'.dst → h.dst.Old M → k = k') := by
  obtain ⟨S, E, R, h1, hI, hS, hE⟩ := addJunctions_inserted hs hp hp'
  refine ⟨R, h1, ?_⟩
  intro k k' h h' hk hk'
  constructor
  · intro e hold
    have old' : h'.src.Old M := e ▸ hold
    have aux : ∀ {k h}, R.get k = some h → h.src.Old M → (∃ h₀, M.get k = some h₀ ∧ h₀.src = h.src ∧ ∀ x ∈ S, x.ref ≠ h.src) ∨ ∃ x ∈ S, x.ref = h.src ∧ x.key = k := by
      intro k h hk hold
      rcases hI.kinds hk with ⟨h₀, h0, q1, _⟩ | ⟨x, hx, q, _, q1, _⟩ | ⟨x, hx, _, _, q1, _⟩
      · rcases newSrc_cases S h₀.src with ⟨x, hx, _, e⟩ | ⟨hno, e⟩
        · rw [q1, e] at hold
          exact absurd (hold rfl) (hI.newNames.1 x hx)
        · exact Or.inl ⟨h₀, h0, by rw [q1, e], by rw [q1, e]; exact hno⟩
      · exact Or.inr ⟨x, hx, q1.symm, q⟩
      · rw [q1] at hold
        exact absurd (hold rfl) (hI.newNames.2 x hx)
    rcases aux hk hold with ⟨a, a1, a2, a3⟩ | ⟨x, hx, x1, rfl⟩ <;> rcases aux hk' old' with ⟨b, b1, b2, b3⟩ | ⟨y, hy, y1, rfl⟩
    · apply Decidable.byContradiction
      intro hne
      obtain ⟨x, hx, hxr⟩ := (hS h.src).mpr ⟨k, k', a, b, hne, a1, b1, a2, b2.trans e.symm⟩
      exact a3 x hx hxr
    · exact absurd (y1.trans e.symm) (a3 y hy)
    · exact absurd (x1.trans e) (b3 x hx)
    · rw [hI.uniqueStart hx hy (Or.inr (Or.inl (by rw [x1, y1, e])))]
  · intro e hold
    have old' : h'.dst.Old M := e ▸ hold
    have aux : ∀ {k h}, R.get k = some h → h.dst.Old M → (∃ h₀, M.get k = some h₀ ∧ h₀.dst = h.dst ∧ ∀ x ∈ E, x.ref ≠ h.dst) ∨ ∃ x ∈ E, x.ref = h.dst ∧ x.key = k := by
      intro k h hk hold
      rcases hI.kinds hk with ⟨h₀, h0, _, q1, _⟩ | ⟨x, hx, _, _, _, q1, _⟩ | ⟨x, hx, q, _, _, q1, _⟩
      · rcases newDst_cases E h₀.dst with ⟨x, hx, _, e⟩ | ⟨hno, e⟩
        · rw [q1, e] at hold
          exact absurd (hold rfl) (hI.newNames.2 x hx)
        · exact Or.inl ⟨h₀, h0, by rw [q1, e], by rw [q1, e]; exact hno⟩
      · rw [q1] at hold
        exact absurd (hold rfl) (hI.newNames.1 x hx)
      · exact Or.inr ⟨x, hx, q1.symm, q⟩
    rcases aux hk hold with ⟨a, a1, a2, a3⟩ | ⟨x, hx, x1, rfl⟩ <;> rcases aux hk' old' with ⟨b, b1, b2, b3⟩ | ⟨y, hy, y1, rfl⟩
    · apply Decidable.byContradiction
      intro hne
      obtain ⟨x, hx, hxr⟩ := (hE h.dst).mpr ⟨k, k', a, b, hne, a1, b1, a2, b2.trans e.symm⟩
      exact a3 x hx hxr
    · exact absurd (y1.trans e.symm) (a3 y hy)
    · exact absurd (x1.trans e) (b3 x hx)
    · rw [hI.uniqueEnd hx hy (Or.inr (Or.inl (by rw [x1, y1, e])))]

/-- **C38** Nothing is put in where nothing is used twice. -/
theorem C38_minimal {M : Map Hop} (hs : M.Sorted) {perm : List OutRef → List OutRef} {perm' : List InRef → List InRef}
    (hp : ∀ l, (perm l).Perm l) (hp' : ∀ l, (perm' l).Perm l)
    (hone : ∀ k k' h h', M.get k = some h → M.get k' = some h' → h.src = h'.src ∨ h.dst = h'.dst → k = k') :
    addJunctions perm perm' (hopSets M) = some (hopSets M) := by
  obtain ⟨outs, ins, h1, h2, h3, h4, h5⟩ := countStartEnds_hops M [] [] (by simp) (by simp)
  have hmo : multis outs = [] := by
    rw [List.eq_nil_iff_forall_not_mem]
    intro p hp
    rw [mem_multis h2, h4] at hp
    have := (countP_two hs.nodup (fun h => decide (h.src = p))).mp (by simpa [cnt] using hp)
    obtain ⟨k, k', h, h', hne, q1, q2, q3, q4⟩ := this
    simp only [decide_eq_true_eq] at q3 q4
    exact hne (hone k k' h h' q1 q2 (Or.inl (q3.trans q4.symm)))
  have hmi : multis ins = [] := by
    rw [List.eq_nil_iff_forall_not_mem]
    intro p hp
    rw [mem_multis h3, h5] at hp
    have := (countP_two hs.nodup (fun h => decide (h.dst = p))).mp (by simpa [cnt] using hp)
    obtain ⟨k, k', h, h', hne, q1, q2, q3, q4⟩ := this
    simp only [decide_eq_true_eq] at q3 q4
    exact hne (hone k k' h h' q1 q2 (Or.inr (q3.trans q4.symm)))
  have e1 : perm [] = [] := (hp []).eq_nil
  have e2 : perm' [] = [] := (hp' []).eq_nil
  simp only [conns] at h1
  simp only [addJunctions, hopSets, h1, hmo, hmi, e1, e2, foldOpt]

/-! ## A case: one output used twice, one component used twice, by the same hops -/

def twice : Map Hop :=
  [("m_1".toList, ⟨⟨.faucet, "tap".toList, .out⟩, none, ⟨.launch, "x".toList⟩, ⟨.consume, 3⟩, none⟩),
   ("m_2".toList, ⟨⟨.faucet, "tap".toList, .out⟩, none, ⟨.launch, "x".toList⟩, ⟨.terminate, 0⟩, none⟩),
   ("m_3".toList, ⟨⟨.junction, "junction_1".toList, .err⟩, none, ⟨.launch, "x".toList⟩, ⟨.terminate, 0⟩, none⟩)]

example : twice.Sorted := by unfold Map.Sorted; decide +kernel

example : addJunctions id id (hopSets twice) = some (hopSets
  [("dyn_connection_1".toList, ⟨⟨.faucet, "tap".toList, .out⟩, none, ⟨.junction, "junction_2".toList⟩, ⟨.finish, 3⟩, none⟩),
   ("dyn_connection_2".toList, ⟨⟨.junction, "junction_3".toList, .out⟩, none, ⟨.launch, "x".toList⟩, ⟨.finish, 3⟩, none⟩),
   ("m_1".toList, ⟨⟨.junction, "junction_2".toList, .out⟩, none, ⟨.junction, "junction_3".toList⟩, ⟨.consume, 3⟩, none⟩),
   ("m_2".toList, ⟨⟨.junction, "junction_2".toList, .out⟩, none, ⟨.junction, "junction_3".toList⟩, ⟨.terminate, 0⟩, none⟩),
   ("m_3".toList, ⟨⟨.junction, "junction_1".toList, .err⟩, none, ⟨.junction, "junction_3".toList⟩, ⟨.terminate, 0⟩, none⟩)]) := by
  decide +kernel

end Verif
