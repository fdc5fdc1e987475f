import Verif.Lemmas.Hops
namespace Verif

/-! ## Maps of hops -/

/-- A map of hops as a map of connection sets. -/
def conns (m : Map Hop) : Map DConn := m.map fun x => (x.1, x.2.conn)

theorem conn_inj {h h' : Hop} (e : h.conn = h'.conn) : h = h' := by
  obtain ⟨⟨_, _, _⟩, _, ⟨_, _⟩, _, _⟩ := h
  obtain ⟨⟨_, _, _⟩, _, ⟨_, _⟩, _, _⟩ := h'
  simp only [Hop.conn, DConn.conns.injEq, List.cons.injEq, Connection.start.injEq, Connection.end.injEq, and_true] at e
  obtain ⟨⟨rfl, rfl, rfl, rfl⟩, rfl, rfl, rfl, rfl⟩ := e
  rfl

theorem get_conns (m : Map Hop) (k : Str) : (conns m).get k = (m.get k).map Hop.conn := by
  induction m with
  | nil => rfl
  | cons x m ih =>
    obtain ⟨k', h⟩ := x
    simp only [conns, List.map_cons, Map.get]
    split
    · rfl
    · exact ih

theorem keys_conns (m : Map Hop) : (conns m).keys = m.keys := by
  simp [conns, Map.keys, Function.comp_def]

theorem sorted_conns {m : Map Hop} : (conns m).Sorted ↔ m.Sorted := by
  unfold Map.Sorted conns
  rw [List.pairwise_map]

/-- A sorted map of pairs is a map of hops. -/
theorem exists_hops {r : Map DConn} (hs : r.Sorted) (h : ∀ k d, r.get k = some d → ∃ hop : Hop, d = hop.conn) :
    ∃ m : Map Hop, r = conns m ∧ m.Sorted := by
  have hmem : ∀ x ∈ r, ∃ hop : Hop, x.2 = hop.conn := fun x hx => h x.1 x.2 (get_of_mem hs.nodup hx)
  have : ∃ m : Map Hop, r = conns m := by
    clear h hs
    induction r with
    | nil => exact ⟨[], rfl⟩
    | cons x r ih =>
      obtain ⟨m, rfl⟩ := ih fun y hy => hmem y (by simp [hy])
      obtain ⟨hop, hx⟩ := hmem x (by simp)
      obtain ⟨k, d⟩ := x
      simp only at hx; subst hx
      exact ⟨(k, hop) :: m, rfl⟩
  obtain ⟨m, rfl⟩ := this
  exact ⟨m, rfl, sorted_conns.mp hs⟩

/-! ## The two folds -/

/-- What one round of a fold does. -/
def JRel (hit : Hop → Bool) (re br : Hop → Hop) (s : InsertState) (k : Str) (h : Hop) (s' : InsertState) : Prop :=
  s'.acc.Sorted ∧
  (hit h = false → s'.added = s.added ∧ s'.existing = s.existing ∧ ∀ x, s'.acc.get x = if x = k then some h.conn else s.acc.get x) ∧
  (hit h = true → s.added = true → s'.added = true ∧ s'.existing = s.existing ∧ ∀ x, s'.acc.get x = if x = k then some (re h).conn else s.acc.get x) ∧
  (hit h = true → s.added = false → s'.added = true ∧ s'.existing = newKey "dyn_connection".toList s.existing :: s.existing ∧
    ∀ x, s'.acc.get x = if x = k then some (re h).conn else if x = newKey "dyn_connection".toList s.existing then some (br h).conn else s.acc.get x)

def JBody (f : InsertState → Str × DConn → Option InsertState) (hit : Hop → Bool) (re br : Hop → Hop) : Prop :=
  ∀ s k h, s.acc.Sorted → k ∈ s.existing → ∃ s', f s (k, h.conn) = some s' ∧ JRel hit re br s k h s'

def startHit (p : OutRef) (h : Hop) : Bool := decide (h.src = p)
def startRe (J : Str) (h : Hop) : Hop := ⟨⟨.junction, J, .out⟩, none, h.dst, h.input, none⟩
def startBr (J : Str) (h : Hop) : Hop := ⟨h.src, none, ⟨.junction, J⟩, ⟨.finish, h.input.priority⟩, none⟩
def endHit (e : InRef) (h : Hop) : Bool := decide (h.dst = e)
def endRe (J : Str) (h : Hop) : Hop := ⟨h.src, none, ⟨.junction, J⟩, h.input, none⟩
def endBr (J : Str) (h : Hop) : Hop := ⟨⟨.junction, J, .out⟩, none, h.dst, ⟨.finish, h.input.priority⟩, none⟩

theorem startStep_body (p : OutRef) (J : Str) : JBody (startStep p J) (startHit p) (startRe J) (startBr J) := by
  intro s k h hs hk
  obtain ⟨⟨ty, n, o⟩, st, ⟨ety, en⟩, ei, est⟩ := h
  obtain ⟨pt, pn, po⟩ := p
  simp only [startStep, Hop.conn, JRel, startHit, decide_eq_true_eq, decide_eq_false_iff_not, OutRef.mk.injEq]
  by_cases hc : ty = pt ∧ n = pn ∧ o = po
  · obtain ⟨rfl, rfl, rfl⟩ := hc
    simp only [and_self, if_true]
    cases ha : s.added with
    | true =>
      refine ⟨_, rfl, sorted_sortedPut hs _ _, fun h => absurd h (by simp), fun _ _ => ⟨rfl, rfl, fun x => ?_⟩, fun _ h => by simp at h⟩
      exact get_sortedPut hs _ _ _
    | false =>
      refine ⟨_, rfl, sorted_sortedPut (sorted_sortedPut hs _ _) _ _, fun h => absurd h (by simp), fun _ h => by simp at h, fun _ _ => ⟨rfl, rfl, fun x => ?_⟩⟩
      simp only [get_sortedPut (sorted_sortedPut hs _ _), get_sortedPut hs]
      rfl
  · refine ⟨{ s with acc := s.acc.sortedPut k _ }, by rw [if_neg hc], sorted_sortedPut hs _ _, fun _ => ⟨rfl, rfl, fun x => get_sortedPut hs _ _ _⟩, fun h => absurd h hc, fun h => absurd h hc⟩

theorem endStep_body (e : InRef) (J : Str) : JBody (endStep e J) (endHit e) (endRe J) (endBr J) := by
  intro s k h hs hk
  obtain ⟨⟨ty, n, o⟩, st, ⟨ety, en⟩, ei, est⟩ := h
  obtain ⟨pt, pn⟩ := e
  simp only [endStep, Hop.conn, JRel, endHit, decide_eq_true_eq, decide_eq_false_iff_not, InRef.mk.injEq]
  by_cases hc : ety = pt ∧ en = pn
  · obtain ⟨rfl, rfl⟩ := hc
    simp only [and_self, if_true]
    cases ha : s.added with
    | true =>
      refine ⟨_, rfl, sorted_sortedPut hs _ _, fun h => absurd h (by simp), fun _ _ => ⟨rfl, rfl, fun x => ?_⟩, fun _ h => by simp at h⟩
      exact get_sortedPut hs _ _ _
    | false =>
      refine ⟨_, rfl, sorted_sortedPut (sorted_sortedPut hs _ _) _ _, fun h => absurd h (by simp), fun _ h => by simp at h, fun _ _ => ⟨rfl, rfl, fun x => ?_⟩⟩
      simp only [get_sortedPut (sorted_sortedPut hs _ _), get_sortedPut hs]
      by_cases h1 : x = k
      · have : x ≠ newKey "dyn_connection".toList s.existing := by
          intro e
          exact newKey_fresh "dyn_connection".toList s.existing (by rw [← e, h1]; exact hk)
        rw [if_neg this, if_pos h1, if_pos h1]; rfl
      · rw [if_neg h1, if_neg h1]; rfl
  · refine ⟨{ s with acc := s.acc.sortedPut k _ }, by rw [if_neg hc], sorted_sortedPut hs _ _, fun _ => ⟨rfl, rfl, fun x => get_sortedPut hs _ _ _⟩, fun h => absurd h hc, fun h => absurd h hc⟩

/-- Once the bridge has been added. -/
theorem jfold_added {f hit re br} (hf : JBody f hit re br) (m : Map Hop) (s : InsertState) (ha : s.added = true) (hs : s.acc.Sorted)
    (hk : ∀ k ∈ m.keys, k ∈ s.existing) (hn : m.keys.Nodup) :
    ∃ r, foldOpt f s (conns m) = some r ∧ r.acc.Sorted ∧ r.existing = s.existing ∧
      ∀ x, r.acc.get x = match m.get x with
        | some h => some (if hit h then re h else h).conn
        | none => s.acc.get x := by
  induction m generalizing s with
  | nil => exact ⟨s, rfl, hs, rfl, fun x => rfl⟩
  | cons y m ih =>
    obtain ⟨k, h⟩ := y
    obtain ⟨s', e, q1, q2, q3, _⟩ := hf s k h hs (hk k (by simp [Map.keys]))
    simp only [Map.keys, List.map_cons, List.nodup_cons] at hn
    have key : s'.added = true ∧ s'.existing = s.existing ∧ ∀ x, s'.acc.get x = if x = k then some (if hit h then re h else h).conn else s.acc.get x := by
      cases hh : hit h with
      | false =>
        obtain ⟨a, b, c⟩ := q2 hh
        refine ⟨a.trans ha, b, fun x => ?_⟩
        rw [c]; simp
      | true =>
        obtain ⟨a, b, c⟩ := q3 hh ha
        refine ⟨a, b, fun x => ?_⟩
        rw [c]; simp
    obtain ⟨k1, k2, k3⟩ := key
    obtain ⟨r, h1, h2, h3, h4⟩ := ih s' k1 q1 (fun x hx => by rw [k2]; exact hk x (by simp only [Map.keys, List.map_cons, List.mem_cons]; exact Or.inr hx)) hn.2
    refine ⟨r, by simp only [conns, List.map_cons, foldOpt, e]; exact h1, h2, h3.trans k2, ?_⟩
    intro x
    rw [h4]
    simp only [Map.get]
    by_cases hx : k = x
    · subst hx
      have : Map.get m k = none := get_none.mpr hn.1
      rw [this, if_pos rfl]
      simp only
      rw [k3, if_pos rfl]
    · rw [if_neg hx]
      cases Map.get m x with
      | some h' => rfl
      | none => simp only; rw [k3, if_neg (fun e => hx e.symm)]

/-- A whole fold. -/
theorem jfold {f hit re br} (hf : JBody f hit re br) (m : Map Hop) (s : InsertState) (ha : s.added = false) (hs : s.acc.Sorted)
    (hk : ∀ k ∈ m.keys, k ∈ s.existing) (hn : m.keys.Nodup) (h0 : Str × Hop) (hfst : m.find? (fun x => hit x.2) = some h0) :
    ∃ r, foldOpt f s (conns m) = some r ∧ r.acc.Sorted ∧ r.existing = newKey "dyn_connection".toList s.existing :: s.existing ∧
      ∀ x, r.acc.get x = if x = newKey "dyn_connection".toList s.existing then some (br h0.2).conn else match m.get x with
        | some h => some (if hit h then re h else h).conn
        | none => s.acc.get x := by
  induction m generalizing s with
  | nil => simp at hfst
  | cons y m ih =>
    obtain ⟨k, h⟩ := y
    have hkk := hk k (by simp [Map.keys])
    have hnk : newKey "dyn_connection".toList s.existing ≠ k := fun e => newKey_fresh _ _ (by rw [e]; exact hkk)
    obtain ⟨s', e, q1, q2, q3, q4⟩ := hf s k h hs hkk
    simp only [Map.keys, List.map_cons, List.nodup_cons] at hn
    cases hh : hit h with
    | false =>
      obtain ⟨a, b, c⟩ := q2 hh
      have hfst' : m.find? (fun x => hit x.2) = some h0 := by
        rw [List.find?_cons_of_neg (by simp [hh])] at hfst; exact hfst
      obtain ⟨r, h1, h2, h3, h4⟩ := ih s' (a.trans ha) q1 (fun x hx => by rw [b]; exact hk x (by simp only [Map.keys, List.map_cons, List.mem_cons]; exact Or.inr hx)) hn.2 hfst'
      refine ⟨r, by simp only [conns, List.map_cons, foldOpt, e]; exact h1, h2, h3.trans (by rw [b]), ?_⟩
      intro x
      rw [h4, b]
      by_cases hxn : x = newKey "dyn_connection".toList s.existing
      · rw [if_pos hxn, if_pos hxn]
      · rw [if_neg hxn, if_neg hxn]
        simp only [Map.get]
        by_cases hx : k = x
        · subst hx
          have : Map.get m k = none := get_none.mpr hn.1
          rw [this, if_pos rfl]
          simp only
          rw [c, if_pos rfl, hh]; simp
        · rw [if_neg hx]
          cases Map.get m x with
          | some h' => rfl
          | none => simp only; rw [c, if_neg (fun e => hx e.symm)]
    | true =>
      obtain ⟨a, b, c⟩ := q4 hh ha
      have hfst' : h0 = (k, h) := by
        rw [List.find?_cons_of_pos (by simp [hh])] at hfst; exact (Option.some.inj hfst).symm
      subst hfst'
      obtain ⟨r, h1, h2, h3, h4⟩ := jfold_added hf m s' a q1 (fun x hx => by
        rw [b]; exact List.mem_cons_of_mem _ (hk x (by simp only [Map.keys, List.map_cons, List.mem_cons]; exact Or.inr hx))) hn.2
      refine ⟨r, by simp only [conns, List.map_cons, foldOpt, e]; exact h1, h2, h3.trans b, ?_⟩
      intro x
      rw [h4]
      by_cases hxn : x = newKey "dyn_connection".toList s.existing
      · subst hxn
        have : Map.get m (newKey "dyn_connection".toList s.existing) = none := by
          rw [get_none]
          intro hx
          exact newKey_fresh _ _ (hk _ (by simp only [Map.keys, List.map_cons, List.mem_cons]; exact Or.inr hx))
        rw [if_pos rfl, this]
        simp only
        rw [c, if_neg hnk, if_pos rfl]
      · rw [if_neg hxn]
        simp only [Map.get]
        by_cases hx : k = x
        · subst hx
          have : Map.get m k = none := get_none.mpr hn.1
          rw [this, if_pos rfl]
          simp only
          rw [c, if_pos rfl, hh]; simp
        · rw [if_neg hx]
          cases Map.get m x with
          | some h' => rfl
          | none => simp only; rw [c, if_neg (fun e => hx e.symm), if_neg hxn]

/-! ## Names of junctions -/

theorem junctionNames_hop (h : Hop) : ∃ ns, junctionNames [.start h.src.ty h.src.name h.src.port h.set, .end h.dst.ty h.dst.name h.input h.dset] = some ns ∧
    ∀ n, n ∈ ns ↔ (h.src.ty = .junction ∧ h.src.name = n) ∨ (h.dst.ty = .junction ∧ h.dst.name = n) := by
  by_cases h1 : h.src.ty = .junction <;> by_cases h2 : h.dst.ty = .junction <;> simp [junctionNames, junctionName, h1, h2, eq_comm]

theorem extractJunctionNames_hops (m : Map Hop) : ∃ ns, extractJunctionNames (conns m) = some ns ∧
    ∀ n, n ∈ ns ↔ ∃ x ∈ m, (x.2.src.ty = .junction ∧ x.2.src.name = n) ∨ (x.2.dst.ty = .junction ∧ x.2.dst.name = n) := by
  induction m with
  | nil => exact ⟨[], rfl, by simp⟩
  | cons x m ih =>
    obtain ⟨ns, h1, h2⟩ := ih
    obtain ⟨ns', h3, h4⟩ := junctionNames_hop x.2
    refine ⟨ns' ++ ns, ?_, ?_⟩
    · unfold conns at h1
      obtain ⟨k, h⟩ := x
      have e : conns ((k, h) :: m) = (k, h.conn) :: List.map (fun x => (x.fst, x.snd.conn)) m := rfl
      rw [e, show h.conn = .conns [.start h.src.ty h.src.name h.src.port h.set, .end h.dst.ty h.dst.name h.input h.dset] from rfl, extractJunctionNames, h3, h1]
    · intro n
      simp only [List.mem_append, h2, h4, List.mem_cons, exists_eq_or_imp]

/-! ## Counting -/

section Count
variable {κ : Type} [DecidableEq κ]

def cnt (l : List (κ × Nat)) (k : κ) : Nat := ((l.find? fun x => x.1 = k).map (·.2)).getD 0

theorem cnt_countUp (l : List (κ × Nat)) (k x : κ) : cnt (countUp k l) x = cnt l x + if x = k then 1 else 0 := by
  induction l with
  | nil =>
    by_cases h : k = x
    · simp [countUp, cnt, h]
    · have : x ≠ k := fun e => h e.symm
      simp [countUp, cnt, h, this]
  | cons y l ih =>
    obtain ⟨k', n⟩ := y
    simp only [countUp]
    by_cases h : k' = k
    · subst h
      rw [if_pos rfl]
      by_cases hx : k' = x
      · simp [cnt, hx]
      · have : x ≠ k' := fun e => hx e.symm
        simp [cnt, hx, this]
    · rw [if_neg h]
      by_cases hx : k' = x
      · have : x ≠ k := fun e => h (hx.trans e)
        simp [cnt, hx, this]
      · simp only [cnt, List.find?_cons, hx, decide_false] at ih ⊢
        exact ih

theorem mem_countUp_keys (l : List (κ × Nat)) (k x : κ) : x ∈ (countUp k l).map Prod.fst ↔ x = k ∨ x ∈ l.map Prod.fst := by
  induction l with
  | nil => simp [countUp]
  | cons y l ih =>
    obtain ⟨k', n⟩ := y
    simp only [countUp]
    split
    · rename_i h; subst h; simp
    · simp only [List.map_cons, List.mem_cons, ih]
      constructor
      · rintro (h | h | h) <;> simp [h]
      · rintro (h | h | h) <;> simp [h]

theorem nodup_countUp {l : List (κ × Nat)} (k : κ) (h : (l.map Prod.fst).Nodup) : ((countUp k l).map Prod.fst).Nodup := by
  induction l with
  | nil => simp [countUp]
  | cons y l ih =>
    obtain ⟨k', n⟩ := y
    simp only [List.map_cons, List.nodup_cons] at h
    simp only [countUp]
    split
    · rename_i e; subst e; simpa using h
    · rename_i e
      simp only [List.map_cons, List.nodup_cons]
      refine ⟨?_, ih h.2⟩
      rw [mem_countUp_keys]
      rintro (h' | h')
      · exact e h'
      · exact h.1 h'

theorem mem_of_cnt {l : List (κ × Nat)} {k : κ} (h : 0 < cnt l k) : (k, cnt l k) ∈ l := by
  unfold cnt at h ⊢
  cases hf : l.find? fun x => x.1 = k with
  | none => rw [hf] at h; simp at h
  | some x =>
    have h1 := List.find?_some hf
    have h2 := List.mem_of_find?_eq_some hf
    obtain ⟨a, b⟩ := x
    simp at h1; subst h1
    simpa using h2

theorem cnt_of_mem {l : List (κ × Nat)} (hn : (l.map Prod.fst).Nodup) {k : κ} {n : Nat} (h : (k, n) ∈ l) : cnt l k = n := by
  induction l with
  | nil => simp at h
  | cons y l ih =>
    obtain ⟨k', m⟩ := y
    simp only [List.map_cons, List.nodup_cons] at hn
    rcases List.mem_cons.mp h with h | h
    · cases h; simp [cnt]
    · have : k' ≠ k := fun e => hn.1 (List.mem_map.mpr ⟨_, h, e.symm⟩)
      have := ih hn.2 h
      simp only [cnt, List.find?_cons] at this ⊢
      rw [decide_eq_false ‹k' ≠ k›]
      exact this

theorem multis_eq (l : List (κ × Nat)) : multis l = (l.filter fun x => decide (2 ≤ x.2)).map Prod.fst := by
  have : ∀ acc : List κ, l.foldl (fun acc (kv : κ × Nat) => if kv.2 < 2 then acc else acc ++ [kv.1]) acc = acc ++ (l.filter fun x => decide (2 ≤ x.2)).map Prod.fst := by
    induction l with
    | nil => simp
    | cons x l ih =>
      intro acc
      simp only [List.foldl_cons]
      by_cases h : x.2 < 2
      · rw [if_pos h, ih, List.filter_cons_of_neg (by simp; omega)]
      · rw [if_neg h, ih, List.filter_cons_of_pos (by simp; omega)]
        simp
  unfold multis; simpa using this []

theorem nodup_multis {l : List (κ × Nat)} (hn : (l.map Prod.fst).Nodup) : (multis l).Nodup := by
  rw [multis_eq]
  exact hn.sublist (List.Sublist.map _ List.filter_sublist)

theorem mem_multis {l : List (κ × Nat)} (hn : (l.map Prod.fst).Nodup) (k : κ) : k ∈ multis l ↔ 2 ≤ cnt l k := by
  rw [multis_eq]
  simp only [List.mem_map, List.mem_filter, decide_eq_true_eq]
  constructor
  · rintro ⟨⟨k', n⟩, ⟨h1, h2⟩, rfl⟩
    rw [cnt_of_mem hn h1]; exact h2
  · intro h
    exact ⟨_, ⟨mem_of_cnt (by omega), h⟩, rfl⟩

end Count

theorem countStartEnds_hops (m : Map Hop) (outs : List (OutRef × Nat)) (ins : List (InRef × Nat)) (ho : (outs.map Prod.fst).Nodup) (hi : (ins.map Prod.fst).Nodup) :
    ∃ outs' ins', countStartEnds outs ins (conns m) = some (outs', ins') ∧ (outs'.map Prod.fst).Nodup ∧ (ins'.map Prod.fst).Nodup ∧
      (∀ p, cnt outs' p = cnt outs p + m.countP fun x => decide (x.2.src = p)) ∧
      (∀ e, cnt ins' e = cnt ins e + m.countP fun x => decide (x.2.dst = e)) := by
  induction m generalizing outs ins with
  | nil => exact ⟨outs, ins, rfl, ho, hi, by simp, by simp⟩
  | cons x m ih =>
    obtain ⟨k, h⟩ := x
    obtain ⟨o', i', h1, h2, h3, h4, h5⟩ := ih (countUp h.src outs) (countUp h.dst ins) (nodup_countUp _ ho) (nodup_countUp _ hi)
    refine ⟨o', i', ?_, h2, h3, ?_, ?_⟩
    · simp only [conns, List.map_cons, countStartEnds, Hop.conn]; exact h1
    · intro p
      rw [h4, cnt_countUp, List.countP_cons]
      by_cases hp : h.src = p
      · subst hp; simp; omega
      · have : p ≠ h.src := fun e => hp e.symm
        simp [hp, this]
    · intro p
      rw [h5, cnt_countUp, List.countP_cons]
      by_cases hp : h.dst = p
      · subst hp; simp; omega
      · have : p ≠ h.dst := fun e => hp e.symm
        simp [hp, this]

theorem countP_two {m : Map Hop} (hn : m.keys.Nodup) (q : Hop → Bool) : 2 ≤ m.countP (fun x => q x.2) ↔
    ∃ k k' h h', k ≠ k' ∧ m.get k = some h ∧ m.get k' = some h' ∧ q h = true ∧ q h' = true := by
  rw [List.countP_eq_length_filter]
  constructor
  · intro h
    match hl : m.filter (fun x => q x.2), h with
    | (k, a) :: (k', b) :: rest, _ =>
      have hsub : ((k, a) :: (k', b) :: rest).Sublist m := hl ▸ List.filter_sublist
      have hnd := hn.sublist (hsub.map Prod.fst)
      have ha : (k, a) ∈ m.filter (fun x => q x.2) := by rw [hl]; simp
      have hb : (k', b) ∈ m.filter (fun x => q x.2) := by rw [hl]; simp
      rw [List.mem_filter] at ha hb
      refine ⟨k, k', a, b, ?_, get_of_mem hn ha.1, get_of_mem hn hb.1, ha.2, hb.2⟩
      rintro rfl
      simp at hnd
    | [_], h => rw [hl] at h; exact absurd h (by simp)
    | [], h => rw [hl] at h; exact absurd h (by simp)
  · rintro ⟨k, k', h, h', hne, h1, h2, q1, q2⟩
    have m1 : (k, h) ∈ m.filter (fun x => q x.2) := List.mem_filter.mpr ⟨mem_of_get h1, q1⟩
    have m2 : (k', h') ∈ m.filter (fun x => q x.2) := List.mem_filter.mpr ⟨mem_of_get h2, q2⟩
    generalize m.filter (fun x => q x.2) = l at m1 m2
    match l, m1, m2 with
    | [], m1, _ => simp at m1
    | [x], m1, m2 =>
      simp only [List.mem_singleton] at m1 m2
      rw [← m2] at m1
      exact absurd (congrArg Prod.fst m1) hne
    | x :: y :: l, _, _ => simp

end Verif
