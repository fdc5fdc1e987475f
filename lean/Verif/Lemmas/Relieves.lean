import Verif.Lemmas.Braids
import Verif.Lemmas.Relief
/-!
# Processing a configuration does not get in the way of requests
-/
namespace Verif

section
variable {M R : Map Hop} {S : List SIns} {E : List EIns} {hM hR : List Hop} {cs : List Capture} (hI : Inserted M S E R) (lM : Lists M hM) (lR : Lists R hR)
include hI lM lR

/-- Where an old hop led, one still gets. -/
theorem Inserted.still {h : Hop} (hh : h ∈ hM) (hx : ¬ h.isExit) : Below hR h.writer h.reader := by
  obtain ⟨k, hk⟩ := (lM h).mp hh
  obtain ⟨h', q1, q2, q3, _⟩ := hI.old k h hk
  have m' : h' ∈ hR := (lR _).mpr ⟨_, q1⟩
  have first : (h'.writer = h.writer ∧ ¬ h'.isExit) ∨ (Below hR h.writer h'.writer ∧ ¬ h'.isExit) := by
    rcases newSrc_cases S h.src with ⟨x, hxS, e1, e2⟩ | ⟨_, e2⟩
    · right
      obtain ⟨h0, _, q⟩ := hI.starts x hxS
      have m0 := (lR _).mpr ⟨_, q⟩
      have := LeadsOn.inside (via := fun _ => True) (Leads.hop m0 (fun g => hx ((isExit_src (by exact e1.symm)).mpr g)))
      have ew : (⟨x.ref, none, ⟨.junction, x.junction⟩, ⟨.finish, h0.input.priority⟩, none⟩ : Hop).writer = h.writer := writer_src e1
      rw [reader_junction (J := x.junction) rfl, ← writer_junction (h := h') (q2.trans e2), ew] at this
      exact ⟨.single this, fun g => by have := g.1; rw [q2, e2] at this; cases this⟩
    · left
      have es := q2.trans e2
      exact ⟨writer_src es, fun g => hx ((isExit_src es).mp g)⟩
  have last : h'.reader = h.reader ∨ Below hR h'.reader h.reader := by
    rcases newDst_cases E h.dst with ⟨x, hxE, e1, e2⟩ | ⟨_, e2⟩
    · right
      obtain ⟨h0, _, q⟩ := hI.ends x hxE
      have m0 := (lR _).mpr ⟨_, q⟩
      have := LeadsOn.inside (via := fun _ => True) (Leads.hop m0 (fun g => by have := g.1; cases this))
      have er : (⟨⟨.junction, x.junction, .out⟩, none, x.ref, ⟨.finish, h0.input.priority⟩, none⟩ : Hop).reader = h.reader := reader_dst e1
      rw [writer_junction (J := x.junction) rfl, ← reader_junction (h := h') (q3.trans e2), er] at this
      exact .single this
    · left; exact reader_dst (q3.trans e2)
  have mid : ¬ h'.isExit → Below hR h'.writer h'.reader := fun g => .single (.inside (.hop m' g))
  have front : Below hR h.writer h'.reader := by
    rcases first with ⟨e, g⟩ | ⟨b, g⟩
    · rw [← e]; exact mid g
    · exact .trans b (mid g)
  rcases last with e | b
  · rw [← e]; exact front
  · exact .trans front b

theorem Inserted.stillBelow (hx : ∀ h ∈ hM, ¬ h.isExit) {a b : Who} (h : Below hM a b) : Below hR a b := by
  have one : ∀ {a b}, LeadsOn hM (fun _ => True) a b → Below hR a b := by
    intro a b hl
    cases hl with
    | inside hl =>
      cases hl with
      | hop hh g => exact hI.still lM lR hh g
      | exit hh g _ => exact absurd g (hx _ hh)
      | buffer hm =>
        obtain ⟨h, hh, e⟩ := hm
        refine .single (.inside (.buffer ?_))
        rcases e with e | e
        · obtain ⟨h', m, e'⟩ := hI.leaves lM lR hh
          exact ⟨h', m, Or.inl (e'.trans e)⟩
        · obtain ⟨h', m, e'⟩ := hI.enters lM lR hh
          exact ⟨h', m, Or.inr (e'.trans e)⟩
    | @program h hh hty g _ =>
      obtain ⟨k, hk⟩ := (lM h).mp hh
      have : ∃ h' ∈ hR, h'.src = h.src := by
        rcases newSrc_cases S h.src with ⟨x, hxS, e, _⟩ | ⟨_, e⟩
        · obtain ⟨h0, _, q⟩ := hI.starts x hxS
          exact ⟨_, (lR _).mpr ⟨_, q⟩, e⟩
        · obtain ⟨h', q1, q2, _⟩ := hI.old k h hk
          exact ⟨h', (lR _).mpr ⟨_, q1⟩, q2.trans e⟩
      obtain ⟨h', m', e⟩ := this
      rw [← from_src e, ← writer_src e]
      exact .single (.program m' (by rw [e]; exact hty) (fun g' => g ((isExit_src e).mp g')) trivial)
  induction h with
  | single h => exact one h
  | tail _ h ih => exact .trans ih (one h)

/-- What the old can be held up by now it could before. -/
theorem Inserted.stillHangs {a b : Who} (hl : Relation.TransGen (HoldsUp hR) a b) : ∀ g, Behind hM S E b g →
    (NewAt S E a → ∃ g', Behind hM S E a g' ∧ Hangs hM g' g) ∧ (¬ NewAt S E a → Relation.TransGen (HoldsUp hM) a g) := by
  induction hl with
  | single h1 =>
    intro g hg
    obtain ⟨k1, k2⟩ := hI.holdsUp lM lR h1
    exact ⟨fun hn => ⟨g, k1 hn g hg, Or.inl rfl⟩, fun hn => .single (k2 hn g hg)⟩
  | @tail b d h1 h2 ih =>
    intro g hg
    obtain ⟨k1, k2⟩ := hI.holdsUp lM lR h2
    by_cases hb : NewAt S E b
    · exact ih g (k1 hb g hg)
    · have h3 := k2 hb g hg
      obtain ⟨i1, i2⟩ := ih b (Or.inr (Or.inr ⟨hb, rfl⟩))
      refine ⟨fun hn => ?_, fun hn => .tail (i2 hn) h3⟩
      obtain ⟨g', h4, h5⟩ := i1 hn
      refine ⟨g', h4, Or.inr ?_⟩
      rcases h5 with rfl | h5
      · exact .single h3
      · exact .tail h5 h3

/-- Somebody old can be held up by a junction that was put in. -/
theorem Inserted.held (hx : ∀ h ∈ hM, ¬ h.isExit) {i : Who} (hn : NewAt S E i) : ∃ a, ¬ NewAt S E a ∧ Relation.TransGen (HoldsUp hR) a i := by
  have start : ∀ {x}, x ∈ S → ∃ a, ¬ NewAt S E a ∧ HoldsUp hR a (atJunction x.junction) := by
    intro x hxS
    obtain ⟨h0, ⟨k, hk, e, _⟩, q⟩ := hI.starts x hxS
    have e : h0.src = x.ref := e
    have m0 : h0 ∈ hM := (lM _).mpr ⟨k, hk⟩
    refine ⟨h0.writer, hI.oldWriter lM m0, ?_⟩
    have := HoldsUp.hop ((lR _).mpr ⟨_, q⟩) (fun g => hx _ m0 ((isExit_src (by exact e)).mpr g))
    rwa [reader_junction (J := x.junction) rfl, ← writer_src (h := h0) (by exact e)] at this
  rcases hn with ⟨x, hxS, rfl⟩ | ⟨x, hxE, rfl⟩
  · obtain ⟨a, h1, h2⟩ := start hxS
    exact ⟨a, h1, .single h2⟩
  · obtain ⟨h0, ⟨k, hk, e, _⟩, _⟩ := hI.ends x hxE
    have e : h0.dst = x.ref := e
    have m0 : h0 ∈ hM := (lM _).mpr ⟨k, hk⟩
    obtain ⟨h', q1, q2, q3, _⟩ := hI.old k h0 hk
    have m' : h' ∈ hR := (lR _).mpr ⟨_, q1⟩
    have hr : h'.reader = atJunction x.junction := reader_junction (q3.trans (by rw [e]; exact newDst_of_mem hI.refsNodup.2 hxE))
    rcases newSrc_cases S h0.src with ⟨y, hyS, e1, e2⟩ | ⟨_, e2⟩
    · obtain ⟨a, h1, h2⟩ := start hyS
      refine ⟨a, h1, .tail (.single h2) ?_⟩
      rw [← hr, ← writer_junction (q2.trans e2)]
      exact .hop m' (fun g => by have := g.1; rw [q2, e2] at this; cases this)
    · have es := q2.trans e2
      refine ⟨h0.writer, hI.oldWriter lM m0, .single ?_⟩
      rw [← hr, ← writer_src es]
      exact .hop m' (fun g => hx _ m0 ((isExit_src es).mp g))

theorem Inserted.relieved (hx : ∀ h ∈ hM, ¬ h.isExit) (h : Relieved hM cs) : Relieved hR cs := by
  have old : ∀ y p, ¬ NewAt S E (.part (.buffer, y) p) := by
    rintro y p (⟨x, _, e⟩ | ⟨x, _, e⟩) <;> simp [atJunction] at e
  have hangs : ∀ {i y p}, ¬ NewAt S E i → Hangs hR i (.part (.buffer, y) p) → Hangs hM i (.part (.buffer, y) p) := by
    intro i y p hi hg
    rcases hg with rfl | hg
    · exact Or.inl rfl
    · exact Or.inr ((hI.stillHangs lM lR hg _ (Or.inr (Or.inr ⟨old y p, rfl⟩))).2 hi)
  refine ⟨fun a ha x hxa i hg => ?_, fun a ha x hxa b hb y hy hg => h.apart a ha x hxa b hb y hy (hangs (old _ _) hg)⟩
  by_cases hi : NewAt S E i
  · obtain ⟨j, hj, hji⟩ := hI.held lM lR hx hi
    have hjg : Hangs hR j (.part (.buffer, x) .input) := by
      rcases hg with rfl | hg
      · exact absurd hi (old _ _)
      · exact Or.inr (.trans hji hg)
    have h1 := hI.stillBelow lM lR hx (h.below a ha x hxa j (hangs hj hjg))
    have : Below hR j i := by
      clear hjg h1 hj hi hg
      induction hji with
      | single h1 => exact .single h1.leads
      | tail _ h2 ih => exact .tail ih h2.leads
    exact .trans h1 this
  · exact hI.stillBelow lM lR hx (h.below a ha x hxa i (hangs hi hg))

end

theorem spied_relieved {hR hR' : List Hop} {T : List Spy} {cs : List Capture} (keep : ∀ h, h ∈ hR' ↔ h ∈ hR ∨ ∃ t ∈ T, h = t.hop) (h : Relieved hR cs) : Relieved hR' cs := by
  have one : ∀ {a b}, HoldsUp hR' a b → HoldsUp hR a b := by
    intro a b hl
    cases hl with
    | hop hh hx =>
      rcases (keep _).mp hh with hh | ⟨t, ht, rfl⟩
      · exact .hop hh hx
      · exact absurd ⟨rfl, rfl⟩ hx
    | program hh hty hx =>
      rcases (keep _).mp hh with hh | ⟨t, ht, rfl⟩
      · exact .program hh hty hx
      · exact absurd ⟨rfl, rfl⟩ hx
  have many : ∀ {a b}, Hangs hR' a b → Hangs hR a b := by
    rintro a b (rfl | hl)
    · exact Or.inl rfl
    · right
      induction hl with
      | single h1 => exact .single (one h1)
      | tail _ h2 ih => exact .tail ih (one h2)
  have lift : ∀ {a b}, LeadsOn hR (fun _ => True) a b → LeadsOn hR' (fun _ => True) a b := by
    intro a b hl
    cases hl with
    | inside hl =>
      cases hl with
      | hop hh g => exact .inside (.hop ((keep _).mpr (Or.inl hh)) g)
      | exit hh g p => exact .inside (.exit ((keep _).mpr (Or.inl hh)) g p)
      | buffer hm =>
        obtain ⟨h, hh, e⟩ := hm
        exact .inside (.buffer ⟨h, (keep _).mpr (Or.inl hh), e⟩)
    | program hh hty g t => exact .program ((keep _).mpr (Or.inl hh)) hty g t
  have below : ∀ {a b}, Below hR a b → Below hR' a b := by
    intro a b hl
    induction hl with
    | single h1 => exact .single (lift h1)
    | tail _ h2 ih => exact .tail ih (lift h2)
  exact ⟨fun a ha x hx i hg => below (h.below a ha x hx i (many hg)), fun a ha x hx b hb y hy hg => h.apart a ha x hx b hb y hy (many hg)⟩

theorem Laid.relieved {c : Config} {M R R' : Map Hop} {S : List SIns} {E : List EIns} {T : List Spy} {cs : List Capture} (P : Laid c M R R' S E T) {hs : List Hop}
    (hhs : ∀ h, h ∈ hs ↔ ∃ b i, c.HopOf b i h) (hx : ∀ h ∈ hs, ¬ h.isExit) (h : Relieved hs cs) : Relieved (R'.map (·.2)) cs := by
  have lM : Lists M hs := fun h => by
    rw [hhs]
    constructor
    · rintro ⟨b, i, h1⟩
      obtain ⟨k, hk⟩ := counted_exists b i
      exact ⟨k, (P.hops k h).mpr ⟨b, i, h1, hk⟩⟩
    · rintro ⟨k, hk⟩
      obtain ⟨b, i, h1, _⟩ := (P.hops k h).mp hk
      exact ⟨b, i, h1⟩
  refine spied_relieved (T := T) (fun h => ?_) (P.ins.relieved lM (lists_map P.ins.sorted) hx h)
  rw [lists_map P.sorted', lists_map P.ins.sorted]
  constructor
  · rintro ⟨k, hk⟩
    rcases P.split k h hk with ⟨t, ht, _, e⟩ | h1
    · exact Or.inr ⟨t, ht, e⟩
    · exact Or.inl ⟨k, h1⟩
  · rintro (⟨k, hk⟩ | ⟨t, ht, rfl⟩)
    · exact ⟨k, P.kept k h hk⟩
    · exact ⟨t.key, (P.spies t ht).2⟩

end Verif
