import Verif.Lemmas.Delivered
import Verif.Props.Legal
import Verif.Props.RuntimeEnds
/-!
# Property C71: what the user wrote works, from the configuration to the end of the run
-/
namespace Verif

/-! ## The specification -/

/-- The exit status of a program, after asking in vain for some time, as the text it becomes. -/
def ExitNote (tr : List Ev) (ms : List Bytes) : Prop := ∃ k s m, ms = [m] ∧ statuses tr = List.replicate k .err ++ [s] ∧ ExitText s m

/-- All the hops of a configuration to a component. -/
def Config.Into (c : Config) (d : InRef) (L : List (Str × Nat)) : Prop := L.Nodup ∧ ∀ b i, (b, i) ∈ L ↔ ∃ h, c.HopOf b i h ∧ h.dst = d

/-- At all times: what the component a hop leads to has taken in is the beginning of some mixture of what came over the hops leading there, each message once and those of
a hop in order; and what came over a hop is the beginning of what the component it comes from took in, or, from an exit port, nothing or the exit status. -/
def Config.Conveys (c : Config) (τ : List (Who × Ev)) : Prop := ∃ over : Str → Nat → List Bytes,
  (∀ b i h, c.HopOf b i h → ¬ h.isExit → over b i <+: received (proj h.writer τ)) ∧
  (∀ b i h, c.HopOf b i h → h.isExit → over b i = [] ∨ ExitNote (proj h.writer τ) (over b i)) ∧
  ∀ b i h L, c.HopOf b i h → c.Into h.dst L → ∃ l, received (proj h.reader τ) <+: l ∧ Mix (L.map fun x => over x.1 x.2) l

/-- In the end: the same with nothing missing. -/
def Config.Delivers (c : Config) (τ : List (Who × Ev)) : Prop := ∃ over : Str → Nat → List Bytes,
  (∀ b i h, c.HopOf b i h → ¬ h.isExit → over b i = received (proj h.writer τ)) ∧
  (∀ b i h, c.HopOf b i h → h.isExit → ExitNote (proj h.writer τ) (over b i)) ∧
  ∀ b i h L, c.HopOf b i h → c.Into h.dst L → Mix (L.map fun x => over x.1 x.2) (received (proj h.reader τ))

/-! ## How the result is laid out -/

/-- What `processed` says. -/
structure Laid (c : Config) (M R R' : Map Hop) (S : List SIns) (E : List EIns) (T : List Spy) : Prop where
  sorted : M.Sorted
  hops : ∀ k h, M.get k = some h ↔ ∃ b i, c.HopOf b i h ∧ Counted b (i + 1) k
  sorted' : R'.Sorted
  ins : Inserted M S E R
  kept : ∀ k h, R.get k = some h → R'.get k = some h
  spies : ∀ t ∈ T, t.drain ∉ c.drain.keys ∧ R'.get t.key = some t.hop
  split : ∀ k h, R'.get k = some h → (∃ t ∈ T, t.key = k ∧ h = t.hop) ∨ R.get k = some h
  one : ∀ k k' h h', R.get k = some h → R.get k' = some h' → (h.src = h'.src → h.src.Old M → k = k') ∧ (h.dst = h'.dst → h.dst.Old M → k = k')
  drains : ∀ k h, M.get k = some h → h.dst.ty = .drain → h.dst.name ∈ c.drain.keys
  spied : ∀ t ∈ T, ∃ k h, R.get k = some h ∧ h.src.ty = .launch ∧ h.src.name = t.launch

theorem reader_inj {h h' : Hop} (e : h.reader = h'.reader) : h.dst = h'.dst := by
  simp only [Hop.reader, Who.part.injEq, Hop.to, Prod.mk.injEq] at e
  obtain ⟨⟨e1, e2⟩, _⟩ := e
  cases h2 : h.dst; cases h3 : h'.dst
  rw [h2, h3] at e1 e2
  simp only at e1 e2
  rw [e1, e2]

/-- Where a hop is in the list. -/
def slot (R' : Map Hop) (k : Str) : Nat := R'.keys.idxOf k

theorem slot_get {R' : Map Hop} {k : Str} {h : Hop} (hk : R'.get k = some h) : (R'.map (·.2))[slot R' k]? = some h := by
  unfold slot Map.keys
  induction R' with
  | nil => simp [Map.get] at hk
  | cons x R' ih =>
    obtain ⟨k', h'⟩ := x
    simp only [Map.get] at hk
    by_cases e : k' = k
    · simp only [e, if_true, Option.some.injEq] at hk
      simp [e, hk]
    · simp only [e, if_false] at hk
      have := ih hk
      rw [List.map_cons, List.map_cons, List.idxOf_cons, show (k' == k) = false by simp [e], cond_false, List.getElem?_cons_succ]
      exact this

theorem slot_of {R' : Map Hop} (hs : R'.Sorted) {i : Nat} {h : Hop} (hi : (R'.map (·.2))[i]? = some h) : ∃ k, R'.get k = some h ∧ slot R' k = i := by
  rw [List.getElem?_map] at hi
  obtain ⟨⟨k, h'⟩, h1, rfl⟩ := Option.map_eq_some_iff.mp hi
  refine ⟨k, get_of_mem hs.nodup (List.mem_of_getElem? h1), ?_⟩
  have hk : R'.keys[i]? = some k := by simp [Map.keys, h1]
  obtain ⟨hlt, hk⟩ := List.getElem?_eq_some_iff.mp hk
  rw [slot, ← hk, hs.nodup.idxOf_getElem]

theorem slot_inj {R' : Map Hop} {k k' : Str} {h : Hop} (hk : R'.get k = some h) (e : slot R' k = slot R' k') : k = k' := by
  have hm := mem_keys_of_get hk
  have h1 : slot R' k < R'.keys.length := List.idxOf_lt_length_of_mem hm
  have h2 : k' ∈ R'.keys := List.idxOf_lt_length_iff.mp (by rw [← show slot R' k' = R'.keys.idxOf k' from rfl, ← e]; exact h1)
  have e1 : R'.keys[slot R' k]'h1 = k := List.getElem_idxOf h1
  have e2 : R'.keys[slot R' k']'(by rw [← e]; exact h1) = k' := List.getElem_idxOf _
  rw [← e1, ← e2]
  simp only [e]

section
variable {c : Config} {M R R' : Map Hop} {S : List SIns} {E : List EIns} {T : List Spy} (P : Laid c M R R' S E T)
include P

theorem Laid.complete {hs : List Hop} (hhs : ∀ h, h ∈ hs ↔ ∃ b i, c.HopOf b i h) (hC : Complete hs) : Complete (R'.map (·.2)) := by
  have lM : Lists M hs := fun h => by
    rw [hhs]
    constructor
    · rintro ⟨b, i, h1⟩
      obtain ⟨k, hk⟩ := counted_exists b i
      exact ⟨k, (P.hops k h).mpr ⟨b, i, h1, hk⟩⟩
    · rintro ⟨k, hk⟩
      obtain ⟨b, i, h1, _⟩ := (P.hops k h).mp hk
      exact ⟨b, i, h1⟩
  refine spied_complete (T := T) (fun h => ?_) (P.ins.complete lM (lists_map P.ins.sorted) hC)
  rw [lists_map P.sorted', lists_map P.ins.sorted]
  constructor
  · rintro ⟨k, hk⟩
    rcases P.split k h hk with ⟨t, ht, _, e⟩ | h1
    · exact Or.inr ⟨t, ht, e⟩
    · exact Or.inl ⟨k, h1⟩
  · rintro (⟨k, hk⟩ | ⟨t, ht, rfl⟩)
    · exact ⟨k, P.kept k h hk⟩
    · exact ⟨t.key, (P.spies t ht).2⟩

theorem Laid.circleFree {hs : List Hop} (hhs : ∀ h, h ∈ hs ↔ ∃ b i, c.HopOf b i h) (hd : ∀ b i h, c.HopOf b i h → h.src.ty ≠ .drain) (hC : CircleFree hs) :
    CircleFree (R'.map (·.2)) := by
  have lM : Lists M hs := fun h => by
    rw [hhs]
    constructor
    · rintro ⟨b, i, h1⟩
      obtain ⟨k, hk⟩ := counted_exists b i
      exact ⟨k, (P.hops k h).mpr ⟨b, i, h1, hk⟩⟩
    · rintro ⟨k, hk⟩
      obtain ⟨b, i, h1, _⟩ := (P.hops k h).mp hk
      exact ⟨b, i, h1⟩
  refine spied_circleFree (T := T) (fun h => ?_) (fun h hh => ?_) (P.ins.circleFree lM (lists_map P.ins.sorted) hC)
  · rw [lists_map P.sorted', lists_map P.ins.sorted]
    constructor
    · rintro ⟨k, hk⟩
      rcases P.split k h hk with ⟨t, ht, _, e⟩ | h1
      · exact Or.inr ⟨t, ht, e⟩
      · exact Or.inl ⟨k, h1⟩
    · rintro (⟨k, hk⟩ | ⟨t, ht, rfl⟩)
      · exact ⟨k, P.kept k h hk⟩
      · exact ⟨t.key, (P.spies t ht).2⟩
  · obtain ⟨k, hk⟩ := (lists_map P.ins.sorted h).mp hh
    intro hty
    obtain ⟨k', h', h1, h2⟩ := (P.ins.srcs (p := h.src) (by simp [hty])).mp ⟨k, h, hk, rfl⟩
    obtain ⟨b, i, h3, _⟩ := (P.hops k' h').mp h1
    exact hd b i h' h3 (by rw [h2]; exact hty)

/-- A hop that leads where a hop of the user's leads is not to one of the new drains. -/
theorem Laid.notSpy {k₀ k : Str} {h₀ h : Hop} (hk₀ : M.get k₀ = some h₀) (hk : R'.get k = some h) (e : h.dst = h₀.dst ∨ h.dst.ty = .junction) : R.get k = some h := by
  rcases P.split k h hk with ⟨t, ht, _, rfl⟩ | h1
  · exfalso
    rcases e with e | e
    · have e : ⟨.drain, t.drain⟩ = h₀.dst := e
      have := P.drains k₀ h₀ hk₀ (by rw [← e])
      rw [← e] at this
      exact (P.spies t ht).1 this
    · simp [Spy.hop] at e
  · exact h1

/-- One hop enters a junction that was put after an output. -/
theorem Laid.intoStart {x : SIns} (hx : x ∈ S) {k : Str} {h : Hop} (hk : R.get k = some h) (e : h.dst = ⟨.junction, x.junction⟩) : k = x.key := by
  rcases P.ins.kinds hk with ⟨h₀, h0, _, q, _⟩ | ⟨y, hy, rfl, _, _, q, _⟩ | ⟨y, hy, _, _, _, q, _⟩
  · exfalso
    rcases newDst_cases E h₀.dst with ⟨y, hy, _, e2⟩ | ⟨_, e2⟩
    · rw [q, e2] at e
      simp only [InRef.mk.injEq, true_and] at e
      exact P.ins.startEndNames hx hy e.symm
    · rw [q, e2] at e
      exact P.ins.newNames.1 x hx ⟨k, h₀, h0, Or.inr (by rw [e]; exact ⟨rfl, rfl⟩)⟩
  · rw [q] at e
    simp only [InRef.mk.injEq, true_and] at e
    rw [P.ins.uniqueStart hx hy (Or.inl e.symm)]
  · exfalso
    rw [q] at e
    have := P.ins.endRef hy
    rw [e] at this
    exact P.ins.newNames.1 x hx (this rfl)

/-- The hops that enter a junction that was put before a component are those that entered the component. -/
theorem Laid.intoEnd {y : EIns} (hy : y ∈ E) {k : Str} {h : Hop} (hk : R.get k = some h) (e : h.dst = ⟨.junction, y.junction⟩) : ∃ h₀, M.get k = some h₀ ∧ h₀.dst = y.ref := by
  rcases P.ins.kinds hk with ⟨h₀, h0, _, q, _⟩ | ⟨x, hx, rfl, _, _, q, _⟩ | ⟨z, hz, _, _, _, q, _⟩
  · refine ⟨h₀, h0, ?_⟩
    rcases newDst_cases E h₀.dst with ⟨z, hz, e1, e2⟩ | ⟨_, e2⟩
    · rw [q, e2] at e
      simp only [InRef.mk.injEq, true_and] at e
      rw [← e1, P.ins.uniqueEnd hz hy (Or.inl e)]
    · exfalso
      rw [q, e2] at e
      exact P.ins.newNames.2 y hy ⟨k, h₀, h0, Or.inr (by rw [e]; exact ⟨rfl, rfl⟩)⟩
  · exfalso
    rw [q] at e
    simp only [InRef.mk.injEq, true_and] at e
    exact P.ins.startEndNames hx hy e
  · exfalso
    rw [q] at e
    have := P.ins.endRef hz
    rw [e] at this
    exact P.ins.newNames.2 y hy (this rfl)

variable {c' : Config} {w : Waiter} {cs : List Capture} {cap : Caps} {τ : List (Who × Ev)} (A : Assembled c' (R'.map (·.2)) w) (hC : Complete (R'.map (·.2))) (hr : w.Run cs cap τ)
  {rel : List Bytes → List Bytes → Prop}
include A hC hr

/-- What is known of a hop of the user's. -/
theorem Laid.carries {X : List Bytes → Who → Prop} (rtrans : ∀ {a b d}, rel a b → rel b d → rel a d)
    (D : ∀ i h, (R'.map (·.2))[i]? = some h → ¬ h.isExit → rel (receivedFrom (.chan i) (proj h.reader τ)) (received (proj h.writer τ)))
    (hX : ∀ {a b i}, rel a b → X b i → X a i) (DX : ∀ i h, (R'.map (·.2))[i]? = some h → h.isExit → X (receivedFrom (.chan i) (proj h.reader τ)) h.writer)
    {k : Str} {h₀ h : Hop} (hk : M.get k = some h₀) (hk' : R.get k = some h) (hs : h.src = newSrc S h₀.src) :
    (¬ h₀.isExit → rel (receivedFrom (.chan (slot R' k)) (proj h.reader τ)) (received (proj h₀.writer τ))) ∧
    (h₀.isExit → X (receivedFrom (.chan (slot R' k)) (proj h.reader τ)) h₀.writer) := by
  have hi := slot_get (P.kept k h hk')
  rcases newSrc_cases S h₀.src with ⟨x, hx, e1, e2⟩ | ⟨_, e2⟩
  · rw [e2] at hs
    obtain ⟨_, _, q⟩ := P.ins.starts x hx
    have hix := slot_get (P.kept _ _ q)
    have hnx : ¬ h.isExit := by rintro ⟨a, _⟩; rw [hs] at a; cases a
    have h1 := D _ _ hi hnx
    rw [writer_junction hs] at h1
    have h2 := A.fedBy hC hr hix (by
      intro j g' hj e
      obtain ⟨k', hk'', rfl⟩ := slot_of P.sorted' hj
      have e := reader_inj e
      have := P.notSpy hk hk'' (Or.inr (by rw [e]))
      rw [P.intoStart hx this e])
    constructor
    · intro hne
      have h3 := D _ _ hix (by rw [isExit_src (h' := h₀) e1]; exact hne)
      rw [writer_src (h' := h₀) e1, h2] at h3
      exact rtrans h1 h3
    · intro he
      have h3 := DX _ _ hix (by rw [isExit_src (h' := h₀) e1]; exact he)
      rw [writer_src (h' := h₀) e1, h2] at h3
      exact hX h1 h3
  · have es := hs.trans e2
    constructor
    · intro hne
      have h1 := D _ _ hi (by rw [isExit_src es]; exact hne)
      rwa [writer_src es] at h1
    · intro he
      have h1 := DX _ _ hi (by rw [isExit_src es]; exact he)
      rwa [writer_src es] at h1

/-- What comes to where a hop of the user's leads. -/
theorem Laid.arrives (rrefl : ∀ a, rel a a)
    (D : ∀ i h, (R'.map (·.2))[i]? = some h → ¬ h.isExit → rel (receivedFrom (.chan i) (proj h.reader τ)) (received (proj h.writer τ)))
    {k : Str} {h₀ h : Hop} (hk : M.get k = some h₀) (hd : h.dst = newDst E h₀.dst) :
    rel (received (proj h₀.reader τ)) (received (proj h.reader τ)) := by
  rcases newDst_cases E h₀.dst with ⟨y, hy, e1, e2⟩ | ⟨_, e2⟩
  · rw [e2] at hd
    obtain ⟨_, _, q⟩ := P.ins.ends y hy
    have hiy := slot_get (P.kept _ _ q)
    have h1 := D _ _ hiy (by rintro ⟨a, _⟩; cases a)
    have h2 := A.fedBy hC hr hiy (by
      intro j g' hj e
      obtain ⟨k', hk'', rfl⟩ := slot_of P.sorted' hj
      have e := reader_inj e
      have h3 := P.notSpy hk hk'' (Or.inl (e.trans e1))
      rw [(P.one _ _ _ _ h3 q).2 e (by rw [e]; exact P.ins.endRef hy)])
    rw [h2, reader_dst (h' := h₀) e1] at h1
    rw [reader_junction hd]
    exact h1
  · rw [reader_dst (hd.trans e2)]; exact rrefl _

/-- Whatever comes where a hop of the user's leads now comes over hops of the user's to the same component. -/
theorem Laid.mixes {b : Str} {i : Nat} {h₀ h : Hop} (hh : c.HopOf b i h₀) (hk' : R.get (indexedKey b (i + 1)) = some h) (hd : h.dst = newDst E h₀.dst) {L : List (Str × Nat)}
    (hL : c.Into h₀.dst L) : Mix (L.map fun x => receivedFrom (.chan (slot R' (indexedKey x.1 (x.2 + 1)))) (proj h.reader τ)) (received (proj h.reader τ)) := by
  have hkM : ∀ {b i g}, c.HopOf b i g → M.get (indexedKey b (i + 1)) = some g := fun {b i g} hg => (P.hops _ _).mpr ⟨b, i, hg, (counted_iff (by omega) _).mpr rfl⟩
  have hnd : (L.map fun x => slot R' (indexedKey x.1 (x.2 + 1))).Nodup := by
    rw [List.nodup_iff_pairwise_ne, List.pairwise_map]
    have hn := hL.1
    rw [List.nodup_iff_pairwise_ne] at hn
    refine hn.imp_of_mem fun {x y} hx hy hne e => hne ?_
    obtain ⟨g, hg, _⟩ := (hL.2 x.1 x.2).mp hx
    obtain ⟨g', q, _⟩ := P.ins.old _ _ (hkM hg)
    have := indexedKey_inj (slot_inj (P.kept _ _ q) e)
    exact Prod.ext this.1 (by omega)
  have := received_mix hnd (tr := proj h.reader τ) (by
    intro s d hgot
    have hmem : h ∈ R'.map (·.2) := (lists_map P.sorted' h).mpr ⟨_, P.kept _ _ hk'⟩
    obtain ⟨ch, g, rfl, h1, h2⟩ := A.fed hC hr hmem hgot
    obtain ⟨kk, hkk, rfl⟩ := slot_of P.sorted' h1
    have e := reader_inj h2
    have key : ∃ g₀, M.get kk = some g₀ ∧ g₀.dst = h₀.dst := by
      rcases newDst_cases E h₀.dst with ⟨y, hy, e1, e2⟩ | ⟨_, e2⟩
      · rw [e2] at hd
        obtain ⟨g₀, q1, q2⟩ := P.intoEnd hy (P.notSpy (hkM hh) hkk (Or.inr (by rw [e, hd]))) (e.trans hd)
        exact ⟨g₀, q1, q2.trans e1⟩
      · have h3 := P.notSpy (hkM hh) hkk (Or.inl (e.trans (hd.trans e2)))
        have := (P.one _ _ _ _ h3 hk').2 e (by rw [e, hd, e2]; exact JunctionIn.dst (hkM hh))
        rw [this]
        exact ⟨h₀, hkM hh, rfl⟩
    obtain ⟨g₀, q1, q2⟩ := key
    obtain ⟨b', i', q3, q4⟩ := (P.hops _ _).mp q1
    rw [(counted_iff (by omega) _).mp q4]
    exact ⟨_, List.mem_map.mpr ⟨(b', i'), (hL.2 b' i').mpr ⟨g₀, q3, q2⟩, rfl⟩, rfl⟩)
  rwa [List.map_map] at this

/-- All of it. -/
theorem Laid.all {X : List Bytes → Who → Prop} (rrefl : ∀ a, rel a a) (rtrans : ∀ {a b d}, rel a b → rel b d → rel a d)
    (D : ∀ i h, (R'.map (·.2))[i]? = some h → ¬ h.isExit → rel (receivedFrom (.chan i) (proj h.reader τ)) (received (proj h.writer τ)))
    (hX : ∀ {a b i}, rel a b → X b i → X a i) (DX : ∀ i h, (R'.map (·.2))[i]? = some h → h.isExit → X (receivedFrom (.chan i) (proj h.reader τ)) h.writer) :
    ∃ over : Str → Nat → List Bytes, (∀ b i h, c.HopOf b i h → ¬ h.isExit → rel (over b i) (received (proj h.writer τ))) ∧ (∀ b i h, c.HopOf b i h → h.isExit → X (over b i) h.writer) ∧
      ∀ b i h L, c.HopOf b i h → c.Into h.dst L → ∃ l, rel (received (proj h.reader τ)) l ∧ Mix (L.map fun x => over x.1 x.2) l := by
  have hkM : ∀ {b i g}, c.HopOf b i g → M.get (indexedKey b (i + 1)) = some g := fun {b i g} hg => (P.hops _ _).mpr ⟨b, i, hg, (counted_iff (by omega) _).mpr rfl⟩
  let over : Str → Nat → List Bytes := fun b i => match R.get (indexedKey b (i + 1)) with
    | some h => receivedFrom (.chan (slot R' (indexedKey b (i + 1)))) (proj h.reader τ)
    | none => []
  have ov : ∀ {b i g}, R.get (indexedKey b (i + 1)) = some g → over b i = receivedFrom (.chan (slot R' (indexedKey b (i + 1)))) (proj g.reader τ) := by
    intro b i g hg
    simp only [over, hg]
  refine ⟨over, ?_, ?_, ?_⟩
  · intro b i h hh hx
    obtain ⟨h', q1, q2, _⟩ := P.ins.old _ _ (hkM hh)
    rw [ov q1]
    exact (P.carries A hC hr (rel := rel) (X := X) rtrans D hX DX (hkM hh) q1 q2).1 hx
  · intro b i h hh hx
    obtain ⟨h', q1, q2, _⟩ := P.ins.old _ _ (hkM hh)
    rw [ov q1]
    exact (P.carries A hC hr (rel := rel) (X := X) rtrans D hX DX (hkM hh) q1 q2).2 hx
  · intro b i h L hh hL
    obtain ⟨h', q1, _, q3, _⟩ := P.ins.old _ _ (hkM hh)
    have same : ∀ x ∈ L, receivedFrom (.chan (slot R' (indexedKey x.1 (x.2 + 1)))) (proj h'.reader τ) = over x.1 x.2 := by
      intro x hx
      obtain ⟨g, hg, e⟩ := (hL.2 x.1 x.2).mp hx
      obtain ⟨g', w1, _, w3, _⟩ := P.ins.old _ _ (hkM hg)
      rw [ov w1, reader_dst (h := h') (h' := g') (by rw [q3, w3, e])]
    refine ⟨received (proj h'.reader τ), P.arrives A hC hr (rel := rel) rrefl D (hkM hh) q3, ?_⟩
    have := P.mixes A hC hr hh q1 q3 hL
    rwa [List.map_congr_left same] at this

end

/-! ## The property -/

/-- A configuration that is written as it should be: set names do not repeat, sets are well formed, drains used are configured, it can be wired up, and its components have the
sides connected that they need. `hs` are its hops. -/
structure Config.Sound (c : Config) (hs : List Hop) : Prop where
  names : c.connection.keys.Nodup
  good : ∀ b d, (b, d) ∈ c.connection → d.Good
  drains : ∀ b i h, c.HopOf b i h → h.dst.ty = .drain → h.dst.name ∈ c.drain.keys
  legal : c.Legal
  hops : ∀ h, h ∈ hs ↔ ∃ b i, c.HopOf b i h
  complete : Complete hs

section
variable {c c' : Config} {hs : List Hop} {perm : List OutRef → List OutRef} {perm' : List InRef → List InRef} {spyOrder : List Str → List Str} {printed : List Str}

theorem Config.Sound.laid (hS : c.Sound hs) (hp : ∀ l, (perm l).Perm l) (hp' : ∀ l, (perm' l).Perm l) (ho : ∀ l, (spyOrder l).Perm l) :
    ∃ (M R R' : Map Hop) (S : List SIns) (E : List EIns) (T : List Spy) (drain' : Map Str) (printed : List Str),
      manipulate perm perm' spyOrder c = some ({ c with drain := drain', connection := hopSets R' }, printed) ∧ Laid c M R R' S E T ∧
      AllMakeable { c with drain := drain', connection := hopSets R' } (R'.map (·.2)) := by
  obtain ⟨M, R, R', S, E, T, drain', printed, h1, h2, h3, h4, h5, h6, h7, h8, h9, h10, h11⟩ := processed c hS.names hS.good hp hp' ho hS.drains
  refine ⟨M, R, R', S, E, T, drain', printed, h1, ⟨h2, h3, h4, h6, h7, h8, h9, h10, ?_, h11⟩, h5.mpr ((legal_iff h3).mpr hS.legal)⟩
  intro k h hk
  obtain ⟨b, i, hh, _⟩ := (h3 k h).mp hk
  exact hS.drains b i h hh

/-- **C71** What is written as it should be can be processed, and then wired up; what is wired up has all sides connected that are needed, and no circle unless there was one. -/
theorem C71_starts (hS : c.Sound hs) (hp : ∀ l, (perm l).Perm l) (hp' : ∀ l, (perm' l).Perm l) (ho : ∀ l, (spyOrder l).Perm l) :
    ∃ c' R' printed w, manipulate perm perm' spyOrder c = some (c', printed) ∧ c'.connection = hopSets R' ∧ getWaiter c' = .ok w ∧ Complete (R'.map (·.2)) ∧
      (CircleFree hs → CircleFree (R'.map (·.2))) := by
  obtain ⟨M, R, R', S, E, T, drain', printed, h1, P, h3⟩ := hS.laid hp hp' ho
  obtain ⟨w, hw⟩ := (C42_wired _ R' rfl).mpr h3
  exact ⟨_, R', printed, w, h1, rfl, hw, P.complete hS.hops hS.complete, P.circleFree hS.hops hS.legal.notDrain⟩

variable {w w' : Waiter} {order : List (Str × Watch)} {cs : List Capture} {cap : Caps} {τ : List (Who × Ev)}

/-- **C71** At all times while what was made of a configuration runs, whatever the order of its activities, each hop of the configuration has conveyed what it should, in order
and once. -/
theorem C71_conveys (hS : c.Sound hs) (hp : ∀ l, (perm l).Perm l) (hp' : ∀ l, (perm' l).Perm l) (ho : ∀ l, (spyOrder l).Perm l)
    (hm : manipulate perm perm' spyOrder c = some (c', printed)) (hw : getWaiter c' = .ok w) (hq : w.regulatorSettings order = .ok (cs, w')) (hr : w'.Run cs cap τ) : c.Conveys τ := by
  obtain ⟨M, R, R', S, E, T, drain', printed', h1, P, h3⟩ := hS.laid hp hp' ho
  rw [hm] at h1
  cases h1
  have hC := P.complete hS.hops hS.complete
  refine P.all (assembled rfl hw hq) hC hr (rel := (· <+: ·)) (X := fun ms i => ms = [] ∨ ExitNote (proj i τ) ms) (fun _ => List.prefix_refl _) (fun h h' => h.trans h')
    (fun i h hi hx => C65_hop rfl hw hq hC hr hi hx) ?_ ?_
  · rintro a b i hab (rfl | ⟨k, s, m, rfl, h1, h2⟩)
    · exact Or.inl (List.prefix_nil.mp hab)
    · cases a with
      | nil => exact Or.inl rfl
      | cons x a =>
        obtain ⟨t, ht⟩ := hab
        simp only [List.cons_append, List.cons.injEq, List.append_eq_nil_iff] at ht
        obtain ⟨rfl, rfl, rfl⟩ := ht
        exact Or.inr ⟨k, s, _, rfl, h1, h2⟩
  · intro i h hi hx
    rcases C65_exit rfl hw hq hC hr hi hx with e | ⟨_, _, k, s, m, _, _, _, e1, e2, e3⟩
    · exact Or.inl e
    · exact Or.inr ⟨k, s, m, e1, e2, e3⟩

/-- **C71** When it has come to its end and no file, stream or notification has failed, each hop of the configuration has delivered everything. -/
theorem C71_delivers (hS : c.Sound hs) (hp : ∀ l, (perm l).Perm l) (hp' : ∀ l, (perm' l).Perm l) (ho : ∀ l, (spyOrder l).Perm l)
    (hm : manipulate perm perm' spyOrder c = some (c', printed)) (hw : getWaiter c' = .ok w) (hq : w.regulatorSettings order = .ok (cs, w')) (hr : w'.Run cs cap τ)
    (hov : w'.Over cs τ) (hf : ∀ i, ∀ f ∈ acts (proj i τ), f.trouble = false) : c.Delivers τ := by
  obtain ⟨M, R, R', S, E, T, drain', printed', h1, P, h3⟩ := hS.laid hp hp' ho
  rw [hm] at h1
  cases h1
  have hC := P.complete hS.hops hS.complete
  obtain ⟨over, q1, q2, q3⟩ := P.all (assembled rfl hw hq) hC hr (rel := (· = ·)) (X := fun ms i => ExitNote (proj i τ) ms) (fun _ => rfl) (fun h h' => h.trans h')
    (C65_complete rfl hw hq hC hr hov hf).1 (by rintro a b i rfl h; exact h)
    (fun i h hi hx => by
      obtain ⟨k, s, m, e⟩ := C65_exit_complete rfl hw hq hC hr hov hf hi hx
      exact ⟨k, s, m, e⟩)
  refine ⟨over, q1, q2, fun b i h L hh hL => ?_⟩
  obtain ⟨l, rfl, h4⟩ := q3 b i h L hh hL
  exact h4

/-- **C71** Without circles and managers: whatever the order in which the activities run, as long as none that could go on is left out for ever, if no file, stream or notification
fails, files and streams are limited and programs end, then everything ends, and each hop of the configuration has delivered everything. -/
theorem C71_works (hS : c.Sound hs) (hcf : CircleFree hs) (hp : ∀ l, (perm l).Perm l) (hp' : ∀ l, (perm' l).Perm l) (ho : ∀ l, (spyOrder l).Perm l)
    (hm : manipulate perm perm' spyOrder c = some (c', printed)) (hw : getWaiter c' = .ok w) (hq : w.regulatorSettings order = .ok ([], w')) (hcap : ∀ k ch, cap k ch ≠ some 0)
    {σ : Nat → Option (Who × Ev)} (hσ : w'.Fair [] cap σ) (B : Nat) (hB : ∀ n, Limited B (upTo σ n)) (hf : ∀ n i, ∀ f ∈ acts (proj i (upTo σ n)), f.trouble = false) :
    ∃ n, w'.Over [] (upTo σ n) ∧ c.Delivers (upTo σ n) := by
  obtain ⟨M, R, R', S, E, T, drain', printed', h1, P, h3⟩ := hS.laid hp hp' ho
  rw [hm] at h1
  have h1' := Option.some.inj h1
  simp only [Prod.mk.injEq] at h1'
  obtain ⟨e1, e2⟩ := h1'
  have hC := P.complete hS.hops hS.complete
  obtain ⟨n, hn, _⟩ := C67_delivers (c := c') (R := R') (by rw [e1]) hw hq hC (P.circleFree hS.hops hS.legal.notDrain hcf) hcap hσ B hB hf
  exact ⟨n, hn, C71_delivers hS hp hp' ho hm hw hq (hσ.runs n) hn (hf n)⟩

end

/-! ## An example -/

def twoHops : List Hop :=
  [⟨⟨.faucet, "tap".toList, .out⟩, none, ⟨.launch, "x".toList⟩, ⟨.terminate, 0⟩, none⟩,
   ⟨⟨.launch, "x".toList, .out⟩, none, ⟨.drain, "tub".toList⟩, ⟨.terminate, 0⟩, none⟩,
   ⟨⟨.faucet, "tap".toList, .out⟩, none, ⟨.launch, "x".toList⟩, ⟨.finish, 5⟩, none⟩]

theorem twoHops_all (b : Str) (i : Nat) : (∃ h, (twoPipes 0 5).HopOf b i h ∧ h.dst = ⟨.launch, "x".toList⟩) ↔ (b, i) = ("a".toList, 0) ∨ (b, i) = ("b".toList, 0) := by
  constructor
  · rintro ⟨h, hh, e⟩
    rcases twoPipes_hops hh with ⟨rfl, rfl, rfl⟩ | ⟨rfl, rfl, rfl⟩ | ⟨rfl, rfl, rfl⟩ <;> simp at e ⊢
  · rintro (e | e) <;> cases e
    · exact ⟨_, twoPipes_hop 0 5, rfl⟩
    · exact ⟨twoHops[2], ⟨_, _, List.mem_cons_of_mem _ List.mem_cons_self, rfl, _, _, rfl, rfl, rfl, rfl, rfl, rfl⟩, rfl⟩

theorem twoPipes_sound : (twoPipes 0 5).Sound twoHops := by
  refine ⟨by decide +kernel, twoPipes_good 0 5, twoPipes_drain 0 5, twoPipes_legal 5, fun h => ?_, complete_of (by decide +kernel) (by decide +kernel)⟩
  constructor
  · intro hh
    simp only [twoHops, List.mem_cons, List.not_mem_nil, or_false] at hh
    rcases hh with rfl | rfl | rfl
    · exact ⟨_, _, twoPipes_hop 0 5⟩
    · exact ⟨"a".toList, 1, _, _, List.mem_cons_self, rfl, _, _, rfl, rfl, rfl, rfl, rfl, rfl⟩
    · exact ⟨"b".toList, 0, _, _, List.mem_cons_of_mem _ List.mem_cons_self, rfl, _, _, rfl, rfl, rfl, rfl, rfl, rfl⟩
  · rintro ⟨b, i, hh⟩
    rcases twoPipes_hops hh with ⟨_, _, rfl⟩ | ⟨_, _, rfl⟩ | ⟨_, _, rfl⟩ <;> simp [twoHops]

def twoRank : Who → Nat
  | .part (.launch, _) .input => 1
  | .part (.drain, _) _ => 2
  | .part (.buffer, _) .output => 1
  | _ => 0
theorem twoHops_free : CircleFree twoHops := circleFree_of twoRank (by decide +kernel) (by decide +kernel) (fun _ => Nat.lt_succ_self 0)

/-- The faucet gives three lines, the program's output two. -/
def twoFeed : Feed := fun h => if h = 12 then [[1, 10], [2, 10], [3, 10]] else if h = 7 then [[4, 10], [5, 10]] else []

def twoMade : Option (Config × List Str) := manipulate id id id (twoPipes 0 5)
def twoWaiter : Waiter := match twoMade with
  | some (c', _) => ((getWaiter c').ok?).getD Waiter.new
  | none => Waiter.new
def twoAll := twoWaiter.drive [] brookCaps twoFeed (.code 3) (List.replicate 60 (twoWaiter.everyone [])).flatten
theorem two_made : ∃ c' printed, manipulate id id id (twoPipes 0 5) = some (c', printed) ∧ getWaiter c' = .ok twoWaiter := by
  cases h : manipulate id id id (twoPipes 0 5) with
  | none => exact absurd (show (manipulate id id id (twoPipes 0 5)).isSome = true by decide +kernel) (by simp [h])
  | some x =>
    refine ⟨x.1, x.2, rfl, ?_⟩
    have h1 : twoWaiter = ((getWaiter x.1).ok?).getD Waiter.new := by simp only [twoWaiter, twoMade, h]
    have h2 : ((manipulate id id id (twoPipes 0 5)).bind fun x => (getWaiter x.1).ok?).isSome = true := by decide +kernel
    rw [h] at h2
    simp only [Option.bind_some] at h2
    rw [h1]
    cases h3 : getWaiter x.1 with
    | ok w => rfl
    | err e => rw [h3] at h2; cases h2
    | panic => rw [h3] at h2; cases h2
theorem twoAll_runs : twoWaiter.Run [] brookCaps twoAll := Waiter.runs_sound (by decide +kernel)
theorem twoAll_over : twoWaiter.Over [] twoAll := Waiter.overNow_sound (by decide +kernel)
theorem twoAll_calm : ∀ i, ∀ f ∈ acts (proj i twoAll), f.trouble = false := twoAll_runs.calm (by decide +kernel)

/-- Everything from the faucet arrives at the program twice, whatever else. -/
example : ∃ n, twoWaiter.Over [] (upTo (fun m => twoAll[m]?) n) ∧
    let got := received (proj (.part (.faucet, "tap".toList) .main) (upTo (fun m => twoAll[m]?) n))
    (received (proj (.part (.launch, "x".toList) .input) (upTo (fun m => twoAll[m]?) n))).Perm (got ++ got) := by
  obtain ⟨c', printed, h1, h2⟩ := two_made
  obtain ⟨n, h3, over, h4, _, h5⟩ := C71_works twoPipes_sound twoHops_free (perm := id) (perm' := id) (spyOrder := id) (fun _ => .refl _) (fun _ => .refl _) (fun _ => .refl _) h1 h2
    (order := []) rfl (cap := brookCaps) (fun k ch => by unfold brookCaps; split <;> simp) (fair_of_over twoAll_runs twoAll_over) twoAll.length
    (by
      intro n
      rw [upTo_list]
      have h := limited_length (twoAll.take n)
      have hl : (twoAll.take n).length ≤ twoAll.length := by rw [List.length_take]; omega
      exact ⟨fun i k => Nat.le_trans (h.lines i k) hl, fun i => Nat.le_trans (h.statuses i) hl⟩)
    (by
      intro n i f hm
      rw [upTo_list] at hm
      refine twoAll_calm i f ?_
      obtain ⟨e, he, rfl⟩ := List.mem_map.mp hm
      exact List.mem_map.mpr ⟨e, mem_proj.mpr (List.mem_of_mem_take (mem_proj.mp he)), rfl⟩)
  refine ⟨n, h3, ?_⟩
  have h6 := (h5 _ _ _ [("a".toList, 0), ("b".toList, 0)] (twoPipes_hop 0 5) ⟨by decide, fun b i => by rw [twoHops_all]; simp⟩).perm
  have b0 : (twoPipes 0 5).HopOf "b".toList 0 twoHops[2] := ⟨_, _, List.mem_cons_of_mem _ List.mem_cons_self, rfl, _, _, rfl, rfl, rfl, rfl, rfl, rfl⟩
  have e1 := h4 _ _ _ (twoPipes_hop 0 5) (by decide)
  have e2 := h4 _ _ _ b0 (by decide)
  simp only [List.map_cons, List.map_nil, List.flatten_cons, List.flatten_nil, List.append_nil, e1, e2] at h6
  exact h6

-- what it came to
example : received (proj (.part (.launch, "x".toList) .input) twoAll) = [[1, 10], [1, 10], [2, 10], [3, 10], [2, 10], [3, 10]] := by decide +kernel
example : received (proj (.part (.drain, "tub".toList) .main) twoAll) = [[4, 10], [5, 10]] := by decide +kernel

end Verif
