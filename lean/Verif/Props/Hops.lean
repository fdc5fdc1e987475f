import Verif.Lemmas.Inserted
import Verif.Props.Keys
import Verif.Props.Settings
/-!
# C34, C35, C36 Taking connection sets apart; when processing aborts
-/
namespace Verif

/-- A connection set that can be processed. -/
def DConn.Good (d : DConn) : Prop := ∃ cs, d.Means cs ∧ WellFormed cs

/-- The hops of a configuration: the `i`-th hop of the connection set `b`. -/
def Config.HopOf (c : Config) (b : Str) (i : Nat) (h : Hop) : Prop := ∃ d cs, (b, d) ∈ c.connection ∧ d.Means cs ∧ HopAt cs i h

theorem converted_means {d : DConn} {cs} (h : d.Means cs) : converted d = .conns cs := by
  cases d with
  | conns l => simp only [DConn.Means] at h; subst h; rfl
  | join s => simp only [DConn.Means] at h; simp [converted, h]

theorem means_of_converted {d : DConn} {cs} (h : converted d = .conns cs) : d.Means cs := by
  cases d with
  | conns l => simpa [converted, DConn.Means] using h
  | join s =>
    cases hl : loadConnection s with
    | ok l => simp [converted, hl] at h; subst h; exact hl
    | parseError => simp [converted, hl] at h
    | panic => exact absurd hl (load_not_panic s)

theorem good_iff_converted (d : DConn) : d.Good ↔ ∃ cs, converted d = .conns cs ∧ WellFormed cs := by
  constructor
  · rintro ⟨cs, h, hw⟩; exact ⟨cs, converted_means h, hw⟩
  · rintro ⟨cs, h, hw⟩; exact ⟨cs, means_of_converted h, hw⟩

/-- Converting and taking apart. -/
theorem paired (m : Map DConn) (hn : m.keys.Nodup) (hg : ∀ b d, (b, d) ∈ m → d.Good) :
    ∃ ws hm, convertConnections m = some (m.map (fun x => (x.1, converted x.2)), ws) ∧
      pairUp [] (m.map fun x => (x.1, converted x.2)) = some (conns hm) ∧ hm.Sorted ∧
      ∀ k h, hm.get k = some h ↔ ∃ b d cs i, (b, d) ∈ m ∧ d.Means cs ∧ HopAt cs i h ∧ Counted b (i + 1) k := by
  obtain ⟨ws, h1, _⟩ := convert_eq m
  obtain ⟨r, h2, h3, h4⟩ := pairUp_good (m.map fun x => (x.1, converted x.2)) [] []
    (by simp only [Map.keys, List.nil_append, List.map_map]; exact hn) paired_nil (by
    intro b d hb
    obtain ⟨⟨b', d'⟩, hm, he⟩ := List.mem_map.mp hb
    simp at he; obtain ⟨rfl, rfl⟩ := he
    exact (good_iff_converted d').mp (hg _ _ hm))
  obtain ⟨hm, rfl, hs⟩ := exists_hops h3 (fun k d hd => by
    obtain ⟨_, _, _, h, _, _, _, e⟩ := (h4 k d).mp hd; exact ⟨h, e⟩)
  refine ⟨ws, hm, h1, h2, hs, ?_⟩
  intro k h
  have : hm.get k = some h ↔ (conns hm).get k = some h.conn := by
    rw [get_conns]
    constructor
    · intro e; rw [e]; rfl
    · intro e
      cases hg : hm.get k with
      | none => rw [hg] at e; simp at e
      | some h' => rw [hg] at e; simp at e; rw [conn_inj e]
  rw [this, h4]
  simp only [List.nil_append, List.mem_map, Prod.mk.injEq, Prod.exists]
  constructor
  · rintro ⟨b, cs, i, h', ⟨b', d, hmem, rfl, hc⟩, hh, hk, e⟩
    cases conn_inj e
    exact ⟨b', d, cs, i, hmem, means_of_converted hc, hh, (counted_iff (by omega) _).mpr hk⟩
  · rintro ⟨b, d, cs, i, hmem, hc, hh, hk⟩
    exact ⟨b, cs, i, h, ⟨b, d, hmem, rfl, converted_means hc⟩, hh, (counted_iff (by omega) _).mp hk, rfl⟩

/-- **C34** Taking apart: the hops that come out are exactly the hops of the connection sets, the `i`-th hop (from 1) of the set `b` under the
key `b_i`, whatever the sets are called, each with its ports, pipe variation and priority; everything else in the configuration stays. -/
theorem C34_hops (c : Config) (hn : c.connection.keys.Nodup) (hg : ∀ b d, (b, d) ∈ c.connection → d.Good) :
    ∃ m : Map DConn, manipulateLight c = some { c with connection := m } ∧ m.Sorted ∧
      ∀ k d, m.get k = some d ↔ ∃ b i h, c.HopOf b i h ∧ Counted b (i + 1) k ∧ d = h.conn := by
  obtain ⟨ws, hm, h1, h2, h3, h4⟩ := paired c.connection hn hg
  refine ⟨conns hm, ?_, sorted_conns.mpr h3, ?_⟩
  · simp only [manipulateLight, h1, h2]
  · intro k d
    rw [get_conns]
    constructor
    · intro e
      cases hgk : hm.get k with
      | none => rw [hgk] at e; simp at e
      | some h =>
        rw [hgk] at e; simp at e
        obtain ⟨b, d', cs, i, q1, q2, q3, q4⟩ := (h4 k h).mp hgk
        exact ⟨b, i, h, ⟨d', cs, q1, q2, q3⟩, q4, e.symm⟩
    · rintro ⟨b, i, h, ⟨d', cs, q1, q2, q3⟩, q4, rfl⟩
      rw [(h4 k h).mpr ⟨b, d', cs, i, q1, q2, q3, q4⟩]; rfl

/-- **C34** Different hops get different keys. -/
theorem C34_distinct {b b' k : Str} {i i' : Nat} (h : Counted b (i + 1) k) (h' : Counted b' (i' + 1) k) : b = b' ∧ i = i' := by
  obtain ⟨h1, h2⟩ := C39_distinct (by omega) (by omega) h h'
  exact ⟨h1, by omega⟩

/-- **C34** A well formed set of `n + 1` components has exactly the hops 0 to `n - 1`, one each. -/
theorem C34_count {cs : List Connection} (hw : WellFormed cs) (i : Nat) :
    (i + 1 < cs.length → ∃ h, HopAt cs i h ∧ ∀ h', HopAt cs i h' → h' = h) ∧ (∀ h, HopAt cs i h → i + 1 < cs.length) := by
  constructor
  · intro hi
    have h1 : cs[i]? = some cs[i] := List.getElem?_eq_getElem (by omega)
    have h2 : cs[i + 1]? = some cs[i + 1] := List.getElem?_eq_getElem hi
    obtain ⟨o, ho⟩ := Option.ne_none_iff_exists'.mp (hw.2.2 i _ _ h1 h2)
    obtain ⟨⟨r, p⟩, hr⟩ := Option.ne_none_iff_exists'.mp (hw.2.1 i _ h2)
    refine ⟨⟨o, _, r, p, _⟩, ⟨_, _, h1, h2, ho, rfl, hr, rfl⟩, ?_⟩
    rintro ⟨o', s', r', p', d'⟩ ⟨a, b, e1, e2, q1, q2, q3, q4⟩
    rw [h1] at e1; rw [h2] at e2; cases e1; cases e2
    rw [ho] at q1; rw [hr] at q3
    simp at q1 q2 q3 q4
    obtain ⟨q3, q5⟩ := q3
    subst q1 q2 q3 q4 q5; rfl
  · rintro h ⟨a, b, _, h2, _⟩
    exact (List.getElem?_eq_some_iff.mp h2).1

/-- **C35** Processing a configuration, in full or only taking it apart, aborts exactly if some connection set is an invalid string or is malformed: a
single component, something without an input that is not first, or something without an output that is not last. -/
theorem C35_aborts (c : Config) (hn : c.connection.keys.Nodup) {perm perm' spyOrder}
    (hp : ∀ l, (perm l : List OutRef).Perm l) (hp' : ∀ l, (perm' l : List InRef).Perm l) :
    let malformed := ∃ b d, (b, d) ∈ c.connection ∧ (d.Invalid ∨ ∃ cs, d.Means cs ∧ ¬ WellFormed cs)
    (manipulateLight c = none ↔ malformed) ∧ (manipulate perm perm' spyOrder c = none ↔ malformed) := by
  intro malformed
  by_cases hm : malformed
  · have hbad : ∃ b d, (b, d) ∈ c.connection.map (fun x => (x.1, converted x.2)) ∧ ∀ cs, d = .conns cs → ¬ WellFormed cs := by
      obtain ⟨b, d, hmem, h⟩ := hm
      refine ⟨b, converted d, List.mem_map.mpr ⟨_, hmem, rfl⟩, ?_⟩
      intro cs e hw
      have hmeans := means_of_converted e
      rcases h with h | ⟨cs', h, hw'⟩
      · cases d with
        | conns l => exact h
        | join s => simp only [DConn.Means] at hmeans; simp only [DConn.Invalid, hmeans] at h; simp at h
      · have := converted_means h
        rw [e] at this; cases this
        exact hw' hw
    obtain ⟨ws, h1, _⟩ := convert_eq c.connection
    have h2 := pairUp_bad _ [] hbad
    simp only [hm, iff_true]
    exact ⟨by simp only [manipulateLight, h1, h2], by simp only [manipulate, h1, h2]⟩
  · have hg : ∀ b d, (b, d) ∈ c.connection → d.Good := by
      intro b d hmem
      rcases C30_either d with ⟨cs, h⟩ | h
      · exact ⟨cs, h, Decidable.byContradiction fun hw => hm ⟨b, d, hmem, Or.inr ⟨cs, h, hw⟩⟩⟩
      · exact absurd ⟨b, d, hmem, Or.inl h⟩ hm
    obtain ⟨ws, hm', h1, h2, h3, h4⟩ := paired c.connection hn hg
    obtain ⟨S, E, R, h5, _⟩ := addJunctions_inserted h3 hp hp'
    simp only [hm, iff_false]
    exact ⟨by simp [manipulateLight, h1, h2], by simp [manipulate, h1, h2, h5]⟩

/-- **C36, refuted** An invalid connection string makes processing abort although `lint` would report it: for every configuration with an invalid
string there is a report, and for every one processing aborts, so that it is never given. -/
theorem C36_refuted (c : Config) (hn : c.connection.keys.Nodup) {perm perm' spyOrder}
    (hp : ∀ l, (perm l : List OutRef).Perm l) (hp' : ∀ l, (perm' l : List InRef).Perm l)
    (hbad : ∃ b s, (b, .join s) ∈ c.connection ∧ (DConn.join s).Invalid) :
    (∃ c' ws, lint c = some (c', ws) ∧ ws ≠ []) ∧ manipulate perm perm' spyOrder c = none := by
  obtain ⟨b, s, hb, hi⟩ := hbad
  constructor
  · obtain ⟨c', ws, h1, h2, _⟩ := C31_invalid c ⟨b, _, hb, hi⟩
    exact ⟨c', ws, h1, h2⟩
  · exact (C35_aborts c hn hp hp').2.mpr ⟨b, _, hb, Or.inl hi⟩

/-- **C36** What holds: the drawing, which begins with `lint`, reports every invalid string and nothing aborts. -/
theorem C36_partial (c : Config) (hbad : ∃ b s, (b, .join s) ∈ c.connection ∧ (DConn.join s).Invalid) :
    ∃ c' ws, lint c = some (c', ws) ∧ ∀ b s, (b, .join s) ∈ c.connection → (DConn.join s).Invalid → .invalidConnection b s ∈ ws := by
  obtain ⟨b, s, hb, hi⟩ := hbad
  obtain ⟨c', ws, h1, _, h2⟩ := C31_invalid c ⟨b, _, hb, hi⟩
  exact ⟨c', ws, h1, fun b s hb hi => (h2 _).mpr ⟨b, s, hb, hi, rfl⟩⟩

/-! ## Cases -/

/-- Two connection strings, one with five hops, and keys that invite confusion. -/
def hopsCase : Config where
  faucet := [("in".toList, "-".toList)]
  regulator := []
  drain := [("out".toList, "-".toList)]
  launch := []
  connection := [("a".toList, .join "faucet:in | buffer:b |C|[3]junction:j | buffer:c | buffer:d | drain:out".toList),
    ("a_1".toList, .join "junction:j | [2]junction:j".toList)]

example : (manipulateLight hopsCase).map (fun c => c.connection.map fun x => (String.ofList x.1)) =
    some ["a_1", "a_1_1", "a_2", "a_3", "a_4", "a_5"] := by decide +kernel

example : ∃ cs, (DConn.join "faucet:in | buffer:b |C|[3]junction:j | buffer:c | buffer:d | drain:out".toList).Means cs ∧ WellFormed cs :=
  ⟨(match loadConnection "faucet:in | buffer:b |C|[3]junction:j | buffer:c | buffer:d | drain:out".toList with | .ok l => l | _ => []),
    by unfold DConn.Means; decide +kernel, by decide +kernel⟩

example : (DConn.join "faucet in".toList).Invalid := by unfold DConn.Invalid; decide +kernel

end Verif
