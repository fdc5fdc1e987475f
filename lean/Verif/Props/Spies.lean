import Verif.Props.Inserted
/-!
# C40, C58 Exit drains
-/
namespace Verif

/-- A drain that has been added for the exit status of a program, and the key of the hop to it. -/
structure Spy where
  launch : Str
  drain : Str
  key : Str

def Spy.hop (t : Spy) : Hop := ⟨⟨.launch, t.launch, .exit⟩, none, ⟨.drain, t.drain⟩, ⟨.terminate, 0⟩, none⟩

theorem conns_put {R : Map Hop} (k : Str) (h : Hop) : (conns R).sortedPut k h.conn = conns (R.sortedPut k h) := by
  unfold Map.sortedPut
  induction R with
  | nil => rfl
  | cons x R ih =>
    obtain ⟨k', h'⟩ := x
    simp only [conns, List.map_cons, Map.sortedEntry] at ih ⊢
    split
    · rfl
    · split
      · rfl
      · rw [ih]; rfl

theorem get_put {α} (m : Map α) (k : Str) (v : α) (x : Str) : (m.put k v).get x = if x = k then some v else m.get x := by
  unfold Map.put
  rw [get_entry]
  cases m.get k <;> rfl

theorem mem_keys_put {α} (m : Map α) (k : Str) (v : α) (x : Str) : x ∈ (m.put k v).keys ↔ x = k ∨ x ∈ m.keys := mem_keys_entry _ _ _ _ _

theorem addSpy_fold (L : List Str) (s : SpyState) (R : Map Hop) (hc : s.config.connection = conns R) (hs : R.Sorted)
    (hk : ∀ k ∈ R.keys, k ∈ s.keys) (hd : ∀ d ∈ s.config.drain.keys, d ∈ s.drains) :
    ∃ (T : List Spy) (R' : Map Hop) (drain' : Map Str), (L.foldl addSpy s).config = { s.config with drain := drain', connection := conns R' } ∧
      T.map (·.launch) = L ∧ R'.Sorted ∧
      (T.map (·.key)).Nodup ∧ (∀ t ∈ T, t.key ∉ s.keys) ∧ (T.map (·.drain)).Nodup ∧ (∀ t ∈ T, t.drain ∉ s.drains) ∧
      (∀ t ∈ T, R'.get t.key = some t.hop) ∧ (∀ k, (∀ t ∈ T, t.key ≠ k) → R'.get k = R.get k) ∧
      (∀ t ∈ T, drain'.get t.drain = some "/dev/null".toList) ∧ (∀ d, (∀ t ∈ T, t.drain ≠ d) → drain'.get d = s.config.drain.get d) := by
  induction L generalizing s R with
  | nil =>
    refine ⟨[], R, s.config.drain, ?_, rfl, hs, by simp, by simp, by simp, by simp, by simp, fun _ _ => rfl, by simp, fun _ _ => rfl⟩
    rw [← hc]; rfl
  | cons n L ih =>
    obtain ⟨d, hdd⟩ : ∃ d, d = newKey "dyn_drain".toList s.drains := ⟨_, rfl⟩
    obtain ⟨k, hkk⟩ : ∃ k, k = newKey "dyn_connection".toList s.keys := ⟨_, rfl⟩
    have hdf : d ∉ s.drains := hdd ▸ newKey_fresh _ _
    have hkf : k ∉ s.keys := hkk ▸ newKey_fresh _ _
    have e : addSpy s n = ⟨{ s.config with
        drain := s.config.drain.put d "/dev/null".toList
        connection := s.config.connection.sortedPut k (Spy.hop ⟨n, d, k⟩).conn }, d :: s.drains, k :: s.keys⟩ := by
      simp only [addSpy, ← hdd, ← hkk]; rfl
    obtain ⟨T, R', drain', q1, q2, q3, q4, q5, q6, q7, q8, q9, q10, q11⟩ := ih (addSpy s n) (R.sortedPut k (Spy.hop ⟨n, d, k⟩))
      (by rw [e, hc]; exact conns_put _ _) (sorted_sortedPut hs _ _)
      (by
        intro x hx
        rw [e]
        rcases (mem_keys_sortedPut hs _ _ _).mp hx with rfl | hx
        · exact List.mem_cons_self
        · exact List.mem_cons_of_mem _ (hk x hx))
      (by
        intro x hx
        rw [e] at hx ⊢
        rcases (mem_keys_put _ _ _ _).mp hx with rfl | hx
        · exact List.mem_cons_self
        · exact List.mem_cons_of_mem _ (hd x hx))
    rw [e] at q5 q7 q11
    simp only [List.mem_cons, not_or] at q5 q7
    refine ⟨⟨n, d, k⟩ :: T, R', drain', ?_, by simp [q2], q3, ?_, ?_, ?_, ?_, ?_, ?_, ?_, ?_⟩
    · rw [List.foldl_cons, q1, e]
    · simp only [List.map_cons, List.nodup_cons]
      refine ⟨fun h => ?_, q4⟩
      obtain ⟨t, ht, h⟩ := List.mem_map.mp h
      exact (q5 t ht).1 h
    · intro t ht
      rcases List.mem_cons.mp ht with rfl | ht
      · exact hkf
      · exact (q5 t ht).2
    · simp only [List.map_cons, List.nodup_cons]
      refine ⟨fun h => ?_, q6⟩
      obtain ⟨t, ht, h⟩ := List.mem_map.mp h
      exact (q7 t ht).1 h
    · intro t ht
      rcases List.mem_cons.mp ht with rfl | ht
      · exact hdf
      · exact (q7 t ht).2
    · intro t ht
      rcases List.mem_cons.mp ht with rfl | ht
      · rw [q9 _ (fun t ht => (q5 t ht).1), get_sortedPut hs, if_pos rfl]
      · exact q8 t ht
    · intro x hx
      rw [q9 x (fun t ht => hx t (by simp [ht])), get_sortedPut hs, if_neg (fun e => hx ⟨n, d, k⟩ List.mem_cons_self e.symm)]
    · intro t ht
      rcases List.mem_cons.mp ht with rfl | ht
      · rw [q11 _ (fun t ht => (q7 t ht).1), get_put, if_pos rfl]
      · exact q10 t ht
    · intro x hx
      rw [q11 x (fun t ht => hx t (by simp [ht])), get_put, if_neg (fun e => hx ⟨n, d, k⟩ List.mem_cons_self e.symm)]

/-- A program is the source of a hop, and none of its hops is from the exit port. -/
def Unspied (R : Map Hop) (n : Str) : Prop :=
  (∃ k h, R.get k = some h ∧ h.src.ty = .launch ∧ h.src.name = n) ∧ ¬ ∃ k h, R.get k = some h ∧ h.src = ⟨.launch, n, .exit⟩

theorem pairsOf_conns (R : Map Hop) : pairsOf (conns R) =
    R.map fun x => (.start x.2.src.ty x.2.src.name x.2.src.port x.2.set, .end x.2.dst.ty x.2.dst.name x.2.input x.2.dset) := by
  induction R with
  | nil => rfl
  | cons x R ih =>
    unfold pairsOf conns at ih ⊢
    simp only [List.map_cons, List.filterMap_cons, Hop.conn] at ih ⊢
    rw [ih]

theorem startLaunch_start (r : OutRef) (s : Option Str) : startLaunch (.start r.ty r.name r.port s) = if r.ty = .launch then some r.name else none := by
  obtain ⟨ty, n, o⟩ := r
  cases ty <;> simp [startLaunch]

theorem exitLaunch_start (r : OutRef) (s : Option Str) : exitLaunch (.start r.ty r.name r.port s) = if r.ty = .launch ∧ r.port = .exit then some r.name else none := by
  obtain ⟨ty, n, o⟩ := r
  cases ty <;> cases o <;> simp [exitLaunch]

theorem collect_spec (l : List (Connection × Connection)) (acc : List Str) (hn : acc.Nodup) :
    (l.foldl insertLaunch acc).Nodup ∧ ∀ n, n ∈ l.foldl insertLaunch acc ↔ n ∈ acc ∨ ∃ p ∈ l, startLaunch p.1 = some n := by
  induction l generalizing acc with
  | nil => simp [hn]
  | cons p l ih =>
    simp only [List.foldl_cons, insertLaunch]
    cases hf : startLaunch p.1 with
    | none =>
      simp only
      refine ⟨(ih acc hn).1, fun n => ?_⟩
      rw [(ih acc hn).2]; simp [hf]
    | some m =>
      simp only
      by_cases hm : acc.contains m
      · rw [if_pos hm]
        refine ⟨(ih acc hn).1, fun n => ?_⟩
        rw [(ih acc hn).2]
        simp only [List.mem_cons, exists_eq_or_imp, hf, Option.some.injEq]
        constructor
        · rintro (h | h)
          · exact Or.inl h
          · exact Or.inr (Or.inr h)
        · rintro (h | rfl | h)
          · exact Or.inl h
          · exact Or.inl (List.contains_iff_mem.mp hm)
          · exact Or.inr h
      · rw [if_neg hm]
        have hm' : m ∉ acc := fun h => hm (List.contains_iff_mem.mpr h)
        have hn' : (acc ++ [m]).Nodup := by
          rw [List.nodup_append]
          refine ⟨hn, by simp, ?_⟩
          intro a ha b hb e
          rw [List.mem_singleton] at hb
          exact hm' (by rw [← hb, ← e]; exact ha)
        refine ⟨(ih _ hn').1, fun n => ?_⟩
        rw [(ih _ hn').2]
        simp only [List.mem_append, List.mem_cons, List.not_mem_nil, or_false, exists_eq_or_imp, hf, Option.some.injEq]
        constructor
        · rintro ((h | h) | h)
          · exact Or.inl h
          · exact Or.inr (Or.inl h.symm)
          · exact Or.inr (Or.inr h)
        · rintro (h | h | h)
          · exact Or.inl (Or.inl h)
          · exact Or.inl (Or.inr h.symm)
          · exact Or.inr h

theorem requiredSpies_spec {R : Map Hop} (hs : R.Sorted) : (requiredSpies (conns R)).Nodup ∧ ∀ n, n ∈ requiredSpies (conns R) ↔ Unspied R n := by
  have hall := collect_spec (pairsOf (conns R)) [] (by simp)
  have hhas : ∀ n, n ∈ ((pairsOf (conns R)).filterMap fun p => exitLaunch p.1) ↔ ∃ k h, R.get k = some h ∧ h.src = ⟨.launch, n, .exit⟩ := by
    intro n
    rw [pairsOf_conns]
    simp only [List.mem_filterMap, List.mem_map]
    constructor
    · rintro ⟨_, ⟨⟨k, h⟩, hx, rfl⟩, he⟩
      simp only [exitLaunch_start] at he
      split at he
      · rename_i hc
        refine ⟨k, h, get_of_mem hs.nodup hx, ?_⟩
        obtain ⟨⟨_, _, _⟩, _⟩ := h
        simp at he hc; simp [he, hc]
      · simp at he
    · rintro ⟨k, h, hk, he⟩
      refine ⟨_, ⟨(k, h), mem_of_get hk, rfl⟩, ?_⟩
      show exitLaunch (.start h.src.ty h.src.name h.src.port h.set) = _
      rw [exitLaunch_start, he]; simp
  unfold requiredSpies
  refine ⟨hall.1.sublist List.filter_sublist, fun n => ?_⟩
  simp only [List.mem_filter, hall.2, List.not_mem_nil, false_or, Bool.not_eq_true', Unspied]
  refine and_congr ?_ ?_
  · rw [pairsOf_conns]
    constructor
    · rintro ⟨_, hp, he⟩
      obtain ⟨⟨k, h⟩, hx, rfl⟩ := List.mem_map.mp hp
      simp only [startLaunch_start] at he
      split at he
      · rename_i hc
        exact ⟨k, h, get_of_mem hs.nodup hx, hc, by simpa using he⟩
      · simp at he
    · rintro ⟨k, h, hk, h1, h2⟩
      refine ⟨_, List.mem_map.mpr ⟨(k, h), mem_of_get hk, rfl⟩, ?_⟩
      show startLaunch (.start h.src.ty h.src.name h.src.port h.set) = _
      rw [startLaunch_start, if_pos h1, h2]
  · rw [← hhas n]
    cases hc : ((pairsOf (conns R)).filterMap fun p => exitLaunch p.1).contains n with
    | true => simp [List.contains_iff_mem.mp hc]
    | false =>
      have : n ∉ ((pairsOf (conns R)).filterMap fun p => exitLaunch p.1) := fun h => by
        rw [List.contains_iff_mem.mpr h] at hc; simp at hc
      simp [this]

/-- What the exit drains do to a configuration of hops. -/
theorem spies_added (c : Config) (R : Map Hop) (hc : c.connection = conns R) (hs : R.Sorted) {order : List Str → List Str} (ho : ∀ l, (order l).Perm l) :
    ∃ (T : List Spy) (R' : Map Hop) (drain' : Map Str),
      (addSpies c (order (requiredSpies c.connection))).1 = { c with drain := drain', connection := conns R' } ∧ R'.Sorted ∧
      (∀ n, (∃ t ∈ T, t.launch = n) ↔ Unspied R n) ∧ (T.map (·.launch)).Nodup ∧
      (T.map (·.key)).Nodup ∧ (∀ t ∈ T, t.key ∉ R.keys) ∧ (T.map (·.drain)).Nodup ∧ (∀ t ∈ T, t.drain ∉ c.drain.keys) ∧
      (∀ t ∈ T, R'.get t.key = some t.hop) ∧ (∀ k, (∀ t ∈ T, t.key ≠ k) → R'.get k = R.get k) ∧
      (∀ t ∈ T, drain'.get t.drain = some "/dev/null".toList) ∧ (∀ d, (∀ t ∈ T, t.drain ≠ d) → drain'.get d = c.drain.get d) := by
  obtain ⟨hn, hm⟩ := requiredSpies_spec hs
  rw [← hc] at hn hm
  obtain ⟨T, R', drain', q1, q2, q3, q4, q5, q6, q7, q8, q9, q10, q11⟩ :=
    addSpy_fold (order (requiredSpies c.connection)) ⟨c, c.drain.keys, c.connection.keys⟩ R hc hs
      (fun k hk => by rw [hc, keys_conns]; exact hk) (fun d hd => hd)
  refine ⟨T, R', drain', q1, q3, ?_, ?_, q4, ?_, q6, q7, q8, q9, q10, q11⟩
  · intro n
    rw [← hm, ← (ho _).mem_iff, ← q2, List.mem_map]
  · rw [q2]; exact (ho _).nodup_iff.mpr hn
  · intro t ht h
    refine q5 t ht ?_
    rw [hc, keys_conns]; exact h

theorem inj_of_nodup {α β} {f : α → β} {l : List α} (hn : (l.map f).Nodup) {x y : α} (hx : x ∈ l) (hy : y ∈ l) (h : f x = f y) : x = y := by
  rw [List.nodup_iff_pairwise_ne, List.pairwise_map, List.pairwise_iff_getElem] at hn
  rcases List.mem_iff_getElem.mp hx with ⟨i, hi, rfl⟩
  rcases List.mem_iff_getElem.mp hy with ⟨j, hj, rfl⟩
  rcases Nat.lt_trichotomy i j with h' | h' | h'
  · exact absurd h (hn i j hi hj h')
  · subst h'; rfl
  · exact absurd h.symm (hn j i hj hi h')

/-- **C40** Every program that is the source of a hop gets its exit status consumed. Hops, drains and everything else that was there stays as it was. Each program that
is the source of a hop but has no hop from its exit port gets exactly one; nothing else is added. The new hop goes to a drain of its own, not configured before, that leads to `/dev/null`. -/
theorem C40_spies (c : Config) (R : Map Hop) (hc : c.connection = hopSets R) (hs : R.Sorted) {order : List Str → List Str} (ho : ∀ l, (order l).Perm l) :
    ∃ (R' : Map Hop) (drain' : Map Str),
      (addSpies c (order (requiredSpies c.connection))).1 = { c with drain := drain', connection := hopSets R' } ∧ R'.Sorted ∧
      (∀ k h, R.get k = some h → R'.get k = some h) ∧ (∀ d v, c.drain.get d = some v → drain'.get d = some v) ∧
      (∀ n, Unspied R n → ∃ k h, R'.get k = some h ∧ h.src = ⟨.launch, n, .exit⟩ ∧ ∀ k' h', R'.get k' = some h' → h'.src = h.src → k' = k) ∧
      (∀ k h, R.get k = none → R'.get k = some h → ∃ n d, h = ⟨⟨.launch, n, .exit⟩, none, ⟨.drain, d⟩, ⟨.terminate, 0⟩, none⟩ ∧ Unspied R n ∧
        c.drain.get d = none ∧ drain'.get d = some "/dev/null".toList ∧
        ∀ k' h', R.get k' = none → R'.get k' = some h' → h'.dst = h.dst → k' = k) ∧
      (∀ d, c.drain.get d = none → drain'.get d ≠ none → ∃ k h, R.get k = none ∧ R'.get k = some h ∧ h.dst = ⟨.drain, d⟩) := by
  obtain ⟨T, R', drain', q1, q2, q3, q4, q5, q6, q7, q8, q9, q10, q11, q12⟩ := spies_added c R hc hs ho
  have hnone : ∀ t ∈ T, R.get t.key = none := fun t ht => get_none.mpr (q6 t ht)
  have hsplit : ∀ k h, R'.get k = some h → (∃ t ∈ T, t.key = k ∧ h = t.hop) ∨ R.get k = some h := by
    intro k h hk
    by_cases hT : ∃ t ∈ T, t.key = k
    · obtain ⟨t, ht, rfl⟩ := hT
      rw [q9 t ht] at hk
      exact Or.inl ⟨t, ht, rfl, (Option.some.inj hk).symm⟩
    · right
      rw [← q10 k (fun t ht e => hT ⟨t, ht, e⟩)]; exact hk
  refine ⟨R', drain', q1, q2, ?_, ?_, ?_, ?_, ?_⟩
  · intro k h hk
    rw [q10 k (fun t ht e => by rw [← e, hnone t ht] at hk; simp at hk)]; exact hk
  · intro d v hd
    rw [q12 d (fun t ht e => q8 t ht (by rw [e]; exact mem_keys_of_get hd))]; exact hd
  · intro n hn
    obtain ⟨t, ht, rfl⟩ := (q3 n).mpr hn
    refine ⟨t.key, t.hop, q9 t ht, rfl, ?_⟩
    intro k' h' hk' hsrc
    rcases hsplit k' h' hk' with ⟨t', ht', rfl, rfl⟩ | hR
    · have : t'.launch = t.launch := by simpa [Spy.hop] using hsrc
      rw [inj_of_nodup q4 ht' ht this]
    · exact absurd ⟨k', h', hR, hsrc⟩ hn.2
  · intro k h hkn hk
    rcases hsplit k h hk with ⟨t, ht, rfl, rfl⟩ | hR
    · refine ⟨t.launch, t.drain, rfl, (q3 _).mp ⟨t, ht, rfl⟩, get_none.mpr (q8 t ht), q11 t ht, ?_⟩
      intro k' h' hk'n hk' hdst
      rcases hsplit k' h' hk' with ⟨t', ht', rfl, rfl⟩ | hR'
      · have : t'.drain = t.drain := by simpa [Spy.hop] using hdst
        rw [inj_of_nodup q7 ht' ht this]
      · rw [hk'n] at hR'; simp at hR'
    · rw [hkn] at hR; simp at hR
  · intro d hd hd'
    by_cases hT : ∃ t ∈ T, t.drain = d
    · obtain ⟨t, ht, rfl⟩ := hT
      exact ⟨t.key, t.hop, hnone t ht, q9 t ht, rfl⟩
    · exact absurd ((q12 d (fun t ht e => hT ⟨t, ht, e⟩)).trans hd) hd'

/-- A program whose output goes to a drain that is not configured and is called like the first generated drain. -/
def captured : Config where
  faucet := []
  regulator := []
  drain := []
  launch := [("x".toList, ⟨some "ls".toList, none, [], []⟩)]
  connection := [("a".toList, .join "launch:x | drain:dyn_drain_1".toList)]

/-- **C40, limit** Generated drains are new among the configured ones only: the drain for the exit status may be one that is used already, without a configuration.
Lint would report that drain as missing its configuration; after processing it has one, of `/dev/null`, and is used twice. -/
theorem C40_unconfigured : (lint captured).map (·.2) = some [.inFlowConnectionButMissingConfig .drain "dyn_drain_1".toList] ∧
    (manipulate id id id captured).map (·.1) = some { captured with
      drain := [("dyn_drain_1".toList, "/dev/null".toList)]
      connection := hopSets
        [("a_1".toList, ⟨⟨.launch, "x".toList, .out⟩, none, ⟨.drain, "dyn_drain_1".toList⟩, ⟨.terminate, 0⟩, none⟩),
         ("dyn_connection_1".toList, ⟨⟨.launch, "x".toList, .exit⟩, none, ⟨.drain, "dyn_drain_1".toList⟩, ⟨.terminate, 0⟩, none⟩)] } ∧
    (manipulate id id id captured).bind (fun r => (lint r.1).map (·.2)) = some [] := by
  decide +kernel

/-- **C58, refuted** Whenever processing does not abort it prints the names of all configured drains. -/
theorem C58_refuted (c : Config) {perm perm' spyOrder} {r} (h : manipulate perm perm' spyOrder c = some r) : r.2 = c.drain.keys := by
  unfold manipulate at h
  split at h
  · simp at h
  · split at h
    · simp at h
    · split at h
      · simp at h
      · simp only [Option.some.injEq] at h
        rw [← h]; rfl

end Verif
