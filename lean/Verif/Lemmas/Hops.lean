import Verif.Lemmas.Keys
import Verif.Lemmas.Maps
import Verif.Spec.Hops
namespace Verif

theorem foldl_chunker (acc : List Apart) (a b : Connection) (l : List Connection) :
    l.foldl chunker (acc ++ [.double a b]) = acc ++ .double a b :: List.zipWith .double (b :: l) l := by
  induction l generalizing acc a b with
  | nil => simp
  | cons c l ih =>
    have : chunker (acc ++ [.double a b]) c = (acc ++ [.double a b]) ++ [.double b c] := by simp [chunker]
    simp only [List.foldl_cons, this, ih]
    simp

theorem chunks (a b : Connection) (l : List Connection) :
    (a :: b :: l).foldl chunker [] = List.zipWith .double (a :: b :: l) (b :: l) := by
  have h1 : chunker [] a = [.single a] := rfl
  have h2 : chunker [.single a] b = [] ++ [.double a b] := rfl
  simp only [List.foldl_cons, h1, h2, foldl_chunker]
  simp

theorem asEnd_eq {b : Connection} {r : InRef} {i : InputPort} (h : b.into = some (r, i)) :
    asEnd b = some (.end r.ty r.name i b.setName) := by
  cases b <;> simp only [Connection.into, Option.some.injEq, Prod.mk.injEq, reduceCtorEq] at h
  all_goals obtain ⟨rfl, rfl⟩ := h; rfl

theorem asStart_eq {a : Connection} {r : OutRef} (h : a.out = some r) : asStart a = some (.start r.ty r.name r.port a.setName) := by
  cases a <;> simp only [Connection.out, Option.some.injEq, reduceCtorEq] at h
  all_goals subst h; rfl

theorem asEnd_none {b : Connection} (h : b.into = none) : asEnd b = none := by
  cases b <;> simp [Connection.into] at h; rfl

theorem asStart_none {b : Connection} (h : b.out = none) : asStart b = none := by
  cases b <;> simp [Connection.out] at h; rfl

/-- All but the length. -/
def Linked (cs : List Connection) : Prop :=
  (∀ i a, cs[i + 1]? = some a → a.into ≠ none) ∧ (∀ i a b, cs[i]? = some a → cs[i + 1]? = some b → a.out ≠ none)

theorem linked_cons {a b : Connection} {l : List Connection} :
    Linked (a :: b :: l) ↔ a.out ≠ none ∧ b.into ≠ none ∧ Linked (b :: l) := by
  constructor
  · rintro ⟨h1, h2⟩
    exact ⟨h2 0 a b rfl rfl, h1 0 b rfl, fun i x hx => h1 (i + 1) x hx, fun i x y hx hy => h2 (i + 1) x y hx hy⟩
  · rintro ⟨h1, h2, h3, h4⟩
    constructor
    · intro i x hx
      cases i with
      | zero => simp at hx; subst hx; exact h2
      | succ i => exact h3 i x hx
    · intro i x y hx hy
      cases i with
      | zero => simp at hx; subst hx; exact h1
      | succ i => exact h4 i x y hx hy

theorem apart_linked (a : Connection) (l : List Connection) (hw : Linked (a :: l)) :
    ∃ hs : List Hop, apartPairs (List.zipWith .double (a :: l) l) = some (hs.map Hop.conn) ∧ ∀ i h, hs[i]? = some h ↔ HopAt (a :: l) i h := by
  induction l generalizing a with
  | nil => exact ⟨[], rfl, fun i h => by simp [HopAt]⟩
  | cons b l ih =>
    obtain ⟨h1, h2, h3⟩ := linked_cons.mp hw
    obtain ⟨hs, e, hh⟩ := ih b h3
    obtain ⟨o, ho⟩ := Option.ne_none_iff_exists'.mp h1
    obtain ⟨⟨r, i⟩, hi⟩ := Option.ne_none_iff_exists'.mp h2
    refine ⟨⟨o, a.setName, r, i, b.setName⟩ :: hs, ?_, ?_⟩
    · simp only [List.zipWith_cons_cons, apartPairs, apartPair, asEnd_eq hi, asStart_eq ho, e]
      rfl
    · intro j h
      cases j with
      | zero =>
        simp only [List.getElem?_cons_zero, Option.some.injEq, HopAt, IsHop]
        constructor
        · rintro rfl
          exact ⟨a, b, rfl, rfl, ho, rfl, hi, rfl⟩
        · rintro ⟨a', b', ha, hb, q1, q2, q3, q4⟩
          simp at hb; subst ha; subst hb
          rw [ho] at q1; rw [hi] at q3
          obtain ⟨_, _, _, _, _⟩ := h
          simp at q1 q2 q3 q4
          obtain ⟨q3, q5⟩ := q3
          subst q1 q2 q3 q4 q5; rfl
      | succ j =>
        simp only [List.getElem?_cons_succ]
        exact hh j h

theorem apart_not_linked (a : Connection) (l : List Connection) (hw : ¬ Linked (a :: l)) :
    apartPairs (List.zipWith .double (a :: l) l) = none := by
  induction l generalizing a with
  | nil => exact absurd ⟨fun i a h => by simp at h, fun i a b h h' => by simp at h'⟩ hw
  | cons b l ih =>
    simp only [List.zipWith_cons_cons, apartPairs, apartPair]
    by_cases h1 : a.out = none
    · rw [asStart_none h1]; cases asEnd b <;> rfl
    · by_cases h2 : b.into = none
      · rw [asEnd_none h2]
      · rw [ih b (fun h => hw (linked_cons.mpr ⟨h1, h2, h⟩))]
        split
        · rename_i h; simp at h
        · rfl

theorem breakApart_good {cs : List Connection} (hw : WellFormed cs) :
    ∃ hs : List Hop, breakApart cs = some (hs.map Hop.conn) ∧ ∀ i h, hs[i]? = some h ↔ HopAt cs i h := by
  match cs, hw with
  | [], _ => exact ⟨[], rfl, fun i h => by simp [HopAt]⟩
  | [a], hw => exact absurd rfl hw.1
  | a :: b :: l, hw =>
    unfold breakApart
    rw [chunks]
    exact apart_linked a (b :: l) hw.2

theorem breakApart_bad {cs : List Connection} (hw : ¬ WellFormed cs) : breakApart cs = none := by
  match cs, hw with
  | [], hw => exact absurd ⟨by simp, fun i a h => by simp at h, fun i a b h => by simp at h⟩ hw
  | [a], _ => rfl
  | a :: b :: l, hw =>
    unfold breakApart
    rw [chunks]
    exact apart_not_linked a (b :: l) fun h => hw ⟨by simp, h⟩

theorem get_sortedPut {α} {m : Map α} (hm : m.Sorted) (k : Str) (v : α) (x : Str) :
    (m.sortedPut k v).get x = if x = k then some v else m.get x := by
  unfold Map.sortedPut
  rw [get_sortedEntry hm]
  cases m.get k <;> rfl

theorem sorted_sortedPut {α} {m : Map α} (hm : m.Sorted) (k : Str) (v : α) : (m.sortedPut k v).Sorted := sorted_sortedEntry hm _ _ _

theorem mem_keys_sortedPut {α} {m : Map α} (hm : m.Sorted) (k : Str) (v : α) (x : Str) : x ∈ (m.sortedPut k v).keys ↔ x = k ∨ x ∈ m.keys :=
  mem_keys_sortedEntry hm _ _ _ _

/-- Adding the hops of one set: from the `n + 1`-st key on. -/
theorem addPairs_spec (base : Str) (ps : List DConn) (acc : Map DConn) (existing : List Str) (n : Nat) (hs : acc.Sorted)
    (he : ∀ x, 1 ≤ x → (indexedKey base x ∈ existing ↔ x ≤ n)) :
    (addPairs base ps acc existing).Sorted ∧
    (∀ k, (∀ i, k ≠ indexedKey base (n + 1 + i)) → (addPairs base ps acc existing).get k = acc.get k) ∧
    (∀ i, (addPairs base ps acc existing).get (indexedKey base (n + 1 + i)) = match ps[i]? with
      | some p => some p
      | none => acc.get (indexedKey base (n + 1 + i))) := by
  induction ps generalizing acc existing n with
  | nil => exact ⟨hs, fun _ _ => rfl, fun i => rfl⟩
  | cons p ps ih =>
    have hk := newKey_eq he
    simp only [addPairs, hk]
    obtain ⟨h1, h2, h3⟩ := ih (acc.sortedPut (indexedKey base (n + 1)) p) (indexedKey base (n + 1) :: existing) (n + 1)
      (sorted_sortedPut hs _ _) (fun x hx => by
        simp only [List.mem_cons, he x hx]
        constructor
        · rintro (h | h)
          · have := (indexedKey_inj h).2; omega
          · omega
        · intro h
          by_cases hxn : x ≤ n
          · exact Or.inr hxn
          · left; rw [show x = n + 1 by omega])
    refine ⟨h1, ?_, ?_⟩
    · intro k hk'
      rw [h2 k (fun i => by rw [show n + 1 + 1 + i = n + 1 + (i + 1) by omega]; exact hk' _), get_sortedPut hs, if_neg]
      have := hk' 0; simpa using this
    · intro i
      cases i with
      | zero =>
        rw [h2 _ (fun i => by intro e; have := (indexedKey_inj e).2; omega), get_sortedPut hs, if_pos rfl]
        rfl
      | succ i =>
        rw [show n + 1 + (i + 1) = n + 1 + 1 + i by omega, h3 i, List.getElem?_cons_succ]
        cases ps[i]? with
        | some q => rfl
        | none =>
          simp only
          rw [get_sortedPut hs, if_neg (by intro e; have := (indexedKey_inj e).2; omega)]

/-- What is in the map after some of the sets have been taken apart. -/
def Paired (m : Map DConn) (r : Map DConn) : Prop :=
  r.Sorted ∧ ∀ k d, r.get k = some d ↔ ∃ b cs i h, (b, .conns cs) ∈ m ∧ HopAt cs i h ∧ k = indexedKey b (i + 1) ∧ d = h.conn

theorem pairUp_step {done : Map DConn} {acc : Map DConn} {b : Str} {cs : List Connection} (hp : Paired done acc) (hb : b ∉ done.keys) (hw : WellFormed cs) :
    ∃ acc', pairUpFolder acc (b, .conns cs) = some acc' ∧ Paired (done ++ [(b, .conns cs)]) acc' := by
  obtain ⟨hs, e, hh⟩ := breakApart_good hw
  have hout : ∀ x, indexedKey b x ∉ acc.keys := by
    intro x hx
    cases hg : acc.get (indexedKey b x) with
    | none => exact (get_none.mp hg) hx
    | some d =>
      obtain ⟨b', cs', i, h, hm, _, hk, _⟩ := (hp.2 _ _).mp hg
      rw [(indexedKey_inj hk).1] at hb
      exact hb (List.mem_map.mpr ⟨_, hm, rfl⟩)
  have he : ∀ x, 1 ≤ x → (indexedKey b x ∈ acc.keys ↔ x ≤ 0) := fun x hx => ⟨fun h => absurd h (hout x), fun h => by omega⟩
  obtain ⟨h1, h2, h3⟩ := addPairs_spec b (hs.map Hop.conn) acc acc.keys 0 hp.1 he
  refine ⟨_, by simp only [pairUpFolder, e], h1, ?_⟩
  intro k d
  by_cases hk : ∃ i, k = indexedKey b (0 + 1 + i)
  · obtain ⟨i, rfl⟩ := hk
    rw [h3 i]
    have hnone : acc.get (indexedKey b (0 + 1 + i)) = none := get_none.mpr (hout _)
    rw [hnone, List.getElem?_map]
    constructor
    · intro hd
      cases hsi : hs[i]? with
      | none => rw [hsi] at hd; simp at hd
      | some h =>
        rw [hsi] at hd; simp at hd
        exact ⟨b, cs, i, h, by simp, (hh i h).mp hsi, by rw [Nat.add_comm (0 + 1) i], hd.symm⟩
    · rintro ⟨b', cs', j, h, hm, hhop, hk, rfl⟩
      obtain ⟨rfl, hij⟩ := indexedKey_inj hk
      have : j = i := by omega
      subst this
      have : cs' = cs := by
        rcases List.mem_append.mp hm with hm | hm
        · exact absurd (List.mem_map.mpr ⟨_, hm, rfl⟩) hb
        · simpa using hm
      subst this
      rw [(hh j h).mpr hhop]; rfl
  · have hk' : ∀ i, k ≠ indexedKey b (0 + 1 + i) := fun i e => hk ⟨i, e⟩
    rw [h2 k hk', hp.2]
    constructor
    · rintro ⟨b', cs', i, h, hm, r⟩; exact ⟨b', cs', i, h, by simp [hm], r⟩
    · rintro ⟨b', cs', i, h, hm, hhop, hkk, rfl⟩
      rcases List.mem_append.mp hm with hm | hm
      · exact ⟨b', cs', i, h, hm, hhop, hkk, rfl⟩
      · simp at hm
        obtain ⟨rfl, rfl⟩ := hm
        exact absurd hkk (by rw [Nat.add_comm i 1]; exact hk' i)

theorem pairUp_good (m done acc : Map DConn) (hn : (done ++ m).keys.Nodup) (hp : Paired done acc) (hw : ∀ b d, (b, d) ∈ m → ∃ cs, d = .conns cs ∧ WellFormed cs) :
    ∃ r, pairUp acc m = some r ∧ Paired (done ++ m) r := by
  induction m generalizing done acc with
  | nil => exact ⟨acc, rfl, by simpa using hp⟩
  | cons x m ih =>
    obtain ⟨b, d⟩ := x
    obtain ⟨cs, rfl, hcs⟩ := hw b d (by simp)
    have hb : b ∉ done.keys := by
      intro hb
      simp only [Map.keys, List.map_append, List.map_cons] at hn hb
      rw [List.nodup_append] at hn
      exact hn.2.2 b hb b (by simp) rfl
    obtain ⟨acc', e, hp'⟩ := pairUp_step hp hb hcs
    have := ih (done ++ [(b, .conns cs)]) acc' (by simpa using hn) hp' (fun b d h => hw b d (by simp [h]))
    obtain ⟨r, hr, hr'⟩ := this
    exact ⟨r, by simp only [pairUp, e, hr], by simpa using hr'⟩

theorem pairUp_bad (m acc : Map DConn) (hw : ∃ b d, (b, d) ∈ m ∧ ∀ cs, d = .conns cs → ¬ WellFormed cs) : pairUp acc m = none := by
  induction m generalizing acc with
  | nil => obtain ⟨_, _, h, _⟩ := hw; simp at h
  | cons x m ih =>
    obtain ⟨b, d, hm, hb⟩ := hw
    simp only [pairUp]
    rcases List.mem_cons.mp hm with rfl | hm
    · cases d with
      | join s => rfl
      | conns cs => simp only [pairUpFolder, breakApart_bad (hb cs rfl)]
    · cases pairUpFolder acc x with
      | none => rfl
      | some acc' => exact ih acc' ⟨b, d, hm, hb⟩

theorem paired_nil : Paired [] [] := ⟨List.Pairwise.nil, fun k d => by simp [Map.get]⟩

end Verif
