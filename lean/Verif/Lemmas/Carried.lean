import Verif.Lemmas.Wirable
import Verif.Spec.Runtime
/-!
# What processing leaves as it is: sides connected and no circles
-/
namespace Verif

/-- Circles are not made by putting something new between, if from the new one comes to nothing that could not be reached before. `goal b` is what of the old there is behind
`b`. -/
theorem circles_old {α : Type} {r s : α → α → Prop} (new : α → Prop) (goal : α → α → Prop) (hgoal : ∀ b, ¬ new b → goal b b)
    (step : ∀ a b, s a b → (new a → ∀ g, goal b g → goal a g) ∧ (¬ new a → ∀ g, goal b g → r a g))
    (esc : ∀ a b d, new a → s a b → new b → s b d → ¬ new d) (h : ∀ a, ¬ Relation.TransGen r a a) (a : α) : ¬ Relation.TransGen s a a := by
  have many : ∀ {a b}, Relation.TransGen s a b → ¬ new a → ∀ g, goal b g → Relation.TransGen r a g := by
    intro a b hab ha
    induction hab with
    | single h1 => exact fun g hg => .single ((step _ _ h1).2 ha g hg)
    | tail h1 h2 ih =>
      rename_i b' b''
      intro g hg
      by_cases hb : new b'
      · exact ih g ((step _ _ h2).1 hb g hg)
      · exact .tail (ih b' (hgoal b' hb)) ((step _ _ h2).2 hb g hg)
  have old : ∀ a, ¬ new a → ¬ Relation.TransGen s a a := fun a ha hc => h a (many hc ha a (hgoal a ha))
  have last : ∀ {a b}, Relation.TransGen s a b → ∃ d, s d b ∧ (Relation.TransGen s a d ∨ d = a) := by
    intro a b hab
    cases hab with
    | single h1 => exact ⟨a, h1, Or.inr rfl⟩
    | tail h1 h2 => exact ⟨_, h2, Or.inl h1⟩
  have turn : ∀ {a}, Relation.TransGen s a a → ∃ d, s d a ∧ Relation.TransGen s d d := by
    intro a hc
    obtain ⟨d, h1, h2 | rfl⟩ := last hc
    · exact ⟨d, h1, .trans (.single h1) h2⟩
    · exact ⟨d, h1, hc⟩
  intro hc
  obtain ⟨b, hb, hcb⟩ := turn hc
  obtain ⟨d, hd, hcd⟩ := turn hcb
  have ha : new a := Classical.byContradiction fun hn => old a hn hc
  have hb' : new b := Classical.byContradiction fun hn => old b hn hcb
  have hd' : new d := Classical.byContradiction fun hn => old d hn hcd
  exact esc d b a hd' hd hb' hb ha

theorem writer_src {h h' : Hop} (e : h.src = h'.src) : h.writer = h'.writer := by simp only [Hop.writer, Hop.from, e]
theorem reader_dst {h h' : Hop} (e : h.dst = h'.dst) : h.reader = h'.reader := by simp only [Hop.reader, Hop.to, e]
theorem isExit_src {h h' : Hop} (e : h.src = h'.src) : h.isExit ↔ h'.isExit := by simp only [Hop.isExit, e]
theorem from_src {h h' : Hop} (e : h.src = h'.src) : h.from = h'.from := by simp only [Hop.from, e]
theorem to_dst {h h' : Hop} (e : h.dst = h'.dst) : h.to = h'.to := by simp only [Hop.to, e]

/-- The activity of a junction. -/
def atJunction (J : Str) : Who := .part (.junction, J) .main

theorem writer_junction {h : Hop} {J : Str} {p : OutputPort} (e : h.src = ⟨.junction, J, p⟩) : h.writer = atJunction J := by simp only [Hop.writer, Hop.from, e, atJunction]
theorem reader_junction {h : Hop} {J : Str} (e : h.dst = ⟨.junction, J⟩) : h.reader = atJunction J := by simp only [Hop.reader, Hop.to, e, atJunction]

theorem writer_atJunction {h : Hop} {J : Str} (e : h.writer = atJunction J) : h.from = (.junction, J) := by
  simp only [Hop.writer, atJunction, Who.part.injEq] at e; exact e.1
theorem reader_atJunction {h : Hop} {J : Str} (e : h.reader = atJunction J) : h.to = (.junction, J) := by
  simp only [Hop.reader, atJunction, Who.part.injEq] at e; exact e.1

/-- The same hops, as a map and as a list. -/
def Lists (M : Map Hop) (hs : List Hop) : Prop := ∀ h, h ∈ hs ↔ ∃ k, M.get k = some h

theorem lists_map {M : Map Hop} (hs : M.Sorted) : Lists M (M.map (·.2)) := by
  intro h
  rw [List.mem_map]
  constructor
  · rintro ⟨⟨k, h'⟩, hm, rfl⟩; exact ⟨k, get_of_mem hs.nodup hm⟩
  · rintro ⟨k, hk⟩; exact ⟨(k, h), mem_of_get hk, rfl⟩

section
variable {M R : Map Hop} {S : List SIns} {E : List EIns} {hM hR : List Hop} (hI : Inserted M S E R) (lM : Lists M hM) (lR : Lists R hR)

/-- The activity of a junction that was put in. -/
def NewAt (S : List SIns) (E : List EIns) (i : Who) : Prop := (∃ x ∈ S, i = atJunction x.junction) ∨ ∃ x ∈ E, i = atJunction x.junction

/-- What of the old there is behind an activity. -/
def Behind (hM : List Hop) (S : List SIns) (E : List EIns) (i g : Who) : Prop :=
  (∃ x ∈ S, i = atJunction x.junction ∧ ∃ h ∈ hM, h.src = x.ref ∧ g = h.reader) ∨
  (∃ x ∈ E, i = atJunction x.junction ∧ ∃ h ∈ hM, h.dst = x.ref ∧ g = h.reader) ∨ (¬ NewAt S E i ∧ g = i)

include hI lM

theorem Inserted.oldJunction {i : Who} {J : Str} (e : i = atJunction J) (h : JunctionIn M J) : ¬ NewAt S E i := by
  rintro (⟨x, hx, e'⟩ | ⟨x, hx, e'⟩)
  · rw [e] at e'; simp only [atJunction, Who.part.injEq, Prod.mk.injEq, true_and, and_true] at e'
    exact hI.newNames.1 x hx (e' ▸ h)
  · rw [e] at e'; simp only [atJunction, Who.part.injEq, Prod.mk.injEq, true_and, and_true] at e'
    exact hI.newNames.2 x hx (e' ▸ h)

theorem Inserted.oldWriter {h : Hop} (hh : h ∈ hM) : ¬ NewAt S E h.writer := by
  obtain ⟨k, hk⟩ := (lM h).mp hh
  rintro (⟨x, hx, e⟩ | ⟨x, hx, e⟩) <;> have q := writer_atJunction e <;> simp only [Hop.from, Prod.mk.injEq] at q
  · exact hI.newNames.1 x hx ⟨k, h, hk, Or.inl q⟩
  · exact hI.newNames.2 x hx ⟨k, h, hk, Or.inl q⟩

theorem Inserted.oldReader {h : Hop} (hh : h ∈ hM) : ¬ NewAt S E h.reader := by
  obtain ⟨k, hk⟩ := (lM h).mp hh
  rintro (⟨x, hx, e⟩ | ⟨x, hx, e⟩) <;> have q := reader_atJunction e <;> simp only [Hop.to, Prod.mk.injEq] at q
  · exact hI.newNames.1 x hx ⟨k, h, hk, Or.inr q⟩
  · exact hI.newNames.2 x hx ⟨k, h, hk, Or.inr q⟩

omit lM in
theorem Inserted.behindStart {x : SIns} (hx : x ∈ S) {g : Who} (hb : Behind hM S E (atJunction x.junction) g) : ∃ h ∈ hM, h.src = x.ref ∧ g = h.reader := by
  rcases hb with ⟨y, hy, e, h⟩ | ⟨y, hy, e, h⟩ | ⟨hn, _⟩
  · simp only [atJunction, Who.part.injEq, Prod.mk.injEq, true_and, and_true] at e
    rwa [hI.uniqueStart hx hy (Or.inl e)]
  · simp only [atJunction, Who.part.injEq, Prod.mk.injEq, true_and, and_true] at e
    exact absurd e (hI.startEndNames hx hy)
  · exact absurd (Or.inl ⟨x, hx, rfl⟩) hn

omit lM in
theorem Inserted.behindEnd {x : EIns} (hx : x ∈ E) {g : Who} (hb : Behind hM S E (atJunction x.junction) g) : ∃ h ∈ hM, h.dst = x.ref ∧ g = h.reader := by
  rcases hb with ⟨y, hy, e, h⟩ | ⟨y, hy, e, h⟩ | ⟨hn, _⟩
  · simp only [atJunction, Who.part.injEq, Prod.mk.injEq, true_and, and_true] at e
    exact absurd e.symm (hI.startEndNames hy hx)
  · simp only [atJunction, Who.part.injEq, Prod.mk.injEq, true_and, and_true] at e
    rwa [hI.uniqueEnd hx hy (Or.inl e)]
  · exact absurd (Or.inr ⟨x, hx, rfl⟩) hn

omit hI lM in
theorem behind_old {i g : Who} (hb : Behind hM S E i g) (hn : ¬ NewAt S E i) : g = i := by
  rcases hb with ⟨x, hx, e, _⟩ | ⟨x, hx, e, _⟩ | ⟨_, e⟩
  · exact absurd (Or.inl ⟨x, hx, e⟩) hn
  · exact absurd (Or.inr ⟨x, hx, e⟩) hn
  · exact e

/-- Behind what an old hop leads to now is what it led to. -/
theorem Inserted.behindHop {h h₀ : Hop} (hh : h₀ ∈ hM) (e : h.dst = newDst E h₀.dst) {g : Who} (hb : Behind hM S E h.reader g) : g = h₀.reader := by
  rcases newDst_cases E h₀.dst with ⟨y, hy, e1, e2⟩ | ⟨_, e2⟩
  · rw [e2] at e
    rw [reader_junction e] at hb
    obtain ⟨h', hh', e3, rfl⟩ := hI.behindEnd hy hb
    exact reader_dst (e3.trans e1)
  · rw [e2] at e
    rw [reader_dst e] at hb
    exact behind_old hb (hI.oldReader lM hh)

include lR

/-- Components other than junctions are those there were. -/
theorem Inserted.mentioned {r : CompRef} (hr : r.1 ≠ .junction) (h : Mentioned hR r) : Mentioned hM r := by
  obtain ⟨h', hh', e⟩ := h
  obtain ⟨k, hk⟩ := (lR h').mp hh'
  rcases hI.kinds hk with ⟨h₀, h0, q1, q2, _⟩ | ⟨x, hx, _, _, q1, q2, _⟩ | ⟨x, hx, _, _, q1, q2, _⟩
  · refine ⟨h₀, (lM _).mpr ⟨k, h0⟩, ?_⟩
    rcases e with e | e
    · left
      rcases newSrc_cases S h₀.src with ⟨x, _, _, e1⟩ | ⟨_, e1⟩
      · rw [← e] at hr; simp only [Hop.from, q1, e1] at hr; exact absurd rfl hr
      · rw [← e]; exact (from_src (q1.trans e1)).symm
    · right
      rcases newDst_cases E h₀.dst with ⟨x, _, _, e1⟩ | ⟨_, e1⟩
      · rw [← e] at hr; simp only [Hop.to, q2, e1] at hr; exact absurd rfl hr
      · rw [← e]; exact (to_dst (q2.trans e1)).symm
  · obtain ⟨h₀, ⟨k', hk', e', _⟩, _⟩ := hI.starts x hx
    have e' : h₀.src = x.ref := e'
    refine ⟨h₀, (lM _).mpr ⟨k', hk'⟩, ?_⟩
    rcases e with e | e
    · left; rw [← e]; exact from_src (e'.trans q1.symm)
    · rw [← e] at hr; simp only [Hop.to, q2] at hr; exact absurd rfl hr
  · obtain ⟨h₀, ⟨k', hk', e', _⟩, _⟩ := hI.ends x hx
    have e' : h₀.dst = x.ref := e'
    refine ⟨h₀, (lM _).mpr ⟨k', hk'⟩, ?_⟩
    rcases e with e | e
    · rw [← e] at hr; simp only [Hop.from, q1] at hr; exact absurd rfl hr
    · right; rw [← e]; exact to_dst (e'.trans q2.symm)

theorem Inserted.leads {a b : Who} (hl : Leads hR a b) :
    (NewAt S E a → ∀ g, Behind hM S E b g → Behind hM S E a g) ∧ (¬ NewAt S E a → ∀ g, Behind hM S E b g → Leads hM a g) := by
  cases hl with
  | hop hh hx =>
    rename_i h
    obtain ⟨k, hk⟩ := (lR h).mp hh
    rcases hI.kinds hk with ⟨h₀, h0, q1, q2, _⟩ | ⟨x, hxS, _, _, q1, q2, _⟩ | ⟨x, hxE, _, _, q1, q2, _⟩
    · have m0 : h₀ ∈ hM := (lM _).mpr ⟨k, h0⟩
      rcases newSrc_cases S h₀.src with ⟨x, hxS, e1, e2⟩ | ⟨_, e2⟩
      · have ew := writer_junction (q1.trans e2)
        refine ⟨fun _ g hg => Or.inl ⟨x, hxS, ew, h₀, m0, e1.symm, hI.behindHop lM m0 q2 hg⟩, fun hn => absurd (Or.inl ⟨x, hxS, ew⟩) hn⟩
      · have es := q1.trans e2
        rw [writer_src es]
        refine ⟨fun hn => absurd hn (hI.oldWriter lM m0), fun _ g hg => ?_⟩
        rw [hI.behindHop lM m0 q2 hg]
        exact .hop m0 (by rwa [← isExit_src es])
    · rw [reader_junction q2]
      obtain ⟨h₀, ⟨k', hk', e', _⟩, _⟩ := hI.starts x hxS
      have e' : h₀.src = x.ref := e'
      refine ⟨fun hn => ?_, fun _ g hg => ?_⟩
      · rw [writer_src (q1.trans e'.symm)] at hn
        exact absurd hn (hI.oldWriter lM ((lM _).mpr ⟨k', hk'⟩))
      · obtain ⟨h', m', e2, rfl⟩ := hI.behindStart hxS hg
        rw [writer_src (q1.trans e2.symm)]
        exact .hop m' (by rwa [← isExit_src (q1.trans e2.symm)])
    · have ew := writer_junction q1
      obtain ⟨h₀, ⟨k', hk', e', _⟩, _⟩ := hI.ends x hxE
      have e' : h₀.dst = x.ref := e'
      have m0 : h₀ ∈ hM := (lM _).mpr ⟨k', hk'⟩
      refine ⟨fun _ g hg => ?_, fun hn => absurd (Or.inr ⟨x, hxE, ew⟩) hn⟩
      rw [reader_dst (q2.trans e'.symm)] at hg
      exact Or.inr (Or.inl ⟨x, hxE, ew, h₀, m0, e', behind_old hg (hI.oldReader lM m0)⟩)
  | exit hh hx hp =>
    rename_i h p
    obtain ⟨k, hk⟩ := (lR h).mp hh
    have hnew : ¬ NewAt S E (.part h.from p) := by
      rintro (⟨x, _, e⟩ | ⟨x, _, e⟩) <;> simp only [atJunction, Who.part.injEq, Hop.from, hx.1, Prod.mk.injEq] at e <;> exact nomatch e.1.1
    refine ⟨fun hn => absurd hn hnew, fun _ g hg => ?_⟩
    rcases hI.kinds hk with ⟨h₀, h0, q1, q2, _⟩ | ⟨x, hxS, _, _, q1, q2, _⟩ | ⟨x, hxE, _, _, q1, q2, _⟩
    · have m0 : h₀ ∈ hM := (lM _).mpr ⟨k, h0⟩
      rcases newSrc_cases S h₀.src with ⟨x, hxS, e1, e2⟩ | ⟨_, e2⟩
      · have := hx.1; rw [q1, e2] at this; cases this
      · have es := q1.trans e2
        rw [hI.behindHop lM m0 q2 hg, from_src es]
        exact .exit m0 ((isExit_src es).mp hx) hp
    · rw [reader_junction q2] at hg
      obtain ⟨h', m', e2, rfl⟩ := hI.behindStart hxS hg
      have es := q1.trans e2.symm
      rw [from_src es]
      exact .exit m' ((isExit_src es).mp hx) hp
    · have := hx.1; rw [q1] at this; cases this
  | buffer hm =>
    rename_i x
    have hn : ∀ p, ¬ NewAt S E (.part (.buffer, x) p) := by
      rintro p (⟨x, _, e⟩ | ⟨x, _, e⟩) <;> simp [atJunction] at e
    refine ⟨fun h => absurd h (hn _), fun _ g hg => ?_⟩
    rw [behind_old hg (hn _)]
    exact .buffer (hI.mentioned lM lR (by simp) hm)

/-- After two junctions that were put in comes something old. -/
theorem Inserted.escape {a b d : Who} (ha : NewAt S E a) (hab : Leads hR a b) (hb : NewAt S E b) (hbd : Leads hR b d) : ¬ NewAt S E d := by
  have fromNew : ∀ {a b}, NewAt S E a → Leads hR a b → NewAt S E b → (∃ x ∈ S, a = atJunction x.junction) ∧ ∃ y ∈ E, b = atJunction y.junction := by
    intro a b ha hab hb
    cases hab with
    | hop hh hx =>
      rename_i h
      obtain ⟨k, hk⟩ := (lR h).mp hh
      rcases hI.kinds hk with ⟨h₀, h0, q1, q2, _⟩ | ⟨x, hxS, _, _, q1, q2, _⟩ | ⟨x, hxE, _, _, q1, q2, _⟩
      · have m0 : h₀ ∈ hM := (lM _).mpr ⟨k, h0⟩
        constructor
        · rcases newSrc_cases S h₀.src with ⟨x, hxS, e1, e2⟩ | ⟨_, e2⟩
          · exact ⟨x, hxS, writer_junction (q1.trans e2)⟩
          · rw [writer_src (q1.trans e2)] at ha; exact absurd ha (hI.oldWriter lM m0)
        · rcases newDst_cases E h₀.dst with ⟨x, hxS, e1, e2⟩ | ⟨_, e2⟩
          · exact ⟨x, hxS, reader_junction (q2.trans e2)⟩
          · rw [reader_dst (q2.trans e2)] at hb; exact absurd hb (hI.oldReader lM m0)
      · obtain ⟨h₀, ⟨k', hk', e', _⟩, _⟩ := hI.starts x hxS
        have e' : h₀.src = x.ref := e'
        rw [writer_src (q1.trans e'.symm)] at ha
        exact absurd ha (hI.oldWriter lM ((lM _).mpr ⟨k', hk'⟩))
      · obtain ⟨h₀, ⟨k', hk', e', _⟩, _⟩ := hI.ends x hxE
        have e' : h₀.dst = x.ref := e'
        rw [reader_dst (q2.trans e'.symm)] at hb
        exact absurd hb (hI.oldReader lM ((lM _).mpr ⟨k', hk'⟩))
    | exit hh hx hp =>
      rename_i h p
      rcases ha with ⟨x, _, e⟩ | ⟨x, _, e⟩ <;> simp only [atJunction, Who.part.injEq, Hop.from, hx.1, Prod.mk.injEq] at e <;> exact nomatch e.1.1
    | buffer hm => rcases ha with ⟨x, _, e⟩ | ⟨x, _, e⟩ <;> simp [atJunction] at e
  intro hd
  obtain ⟨_, y, hy, e1⟩ := fromNew ha hab hb
  obtain ⟨⟨x, hx, e2⟩, _⟩ := fromNew hb hbd hd
  rw [e1] at e2
  simp only [atJunction, Who.part.injEq, Prod.mk.injEq, true_and, and_true] at e2
  exact hI.startEndNames hx hy e2.symm

theorem Inserted.circleFree (h : CircleFree hM) : CircleFree hR :=
  circles_old (NewAt S E) (Behind hM S E) (fun _ hb => Or.inr (Or.inr ⟨hb, rfl⟩)) (fun _ _ => hI.leads lM lR) (fun _ _ _ => hI.escape lM lR) h

/-- Whatever an old hop left is still left. -/
theorem Inserted.leaves {h : Hop} (hh : h ∈ hM) : ∃ h' ∈ hR, h'.from = h.from := by
  obtain ⟨k, hk⟩ := (lM h).mp hh
  rcases newSrc_cases S h.src with ⟨x, hx, e, _⟩ | ⟨_, e⟩
  · obtain ⟨h0, _, q⟩ := hI.starts x hx
    exact ⟨_, (lR _).mpr ⟨_, q⟩, from_src e⟩
  · obtain ⟨h', q1, q2, _⟩ := hI.old k h hk
    exact ⟨h', (lR _).mpr ⟨_, q1⟩, from_src (q2.trans e)⟩

theorem Inserted.enters {h : Hop} (hh : h ∈ hM) : ∃ h' ∈ hR, h'.to = h.to := by
  obtain ⟨k, hk⟩ := (lM h).mp hh
  rcases newDst_cases E h.dst with ⟨x, hx, e, _⟩ | ⟨_, e⟩
  · obtain ⟨h0, _, q⟩ := hI.ends x hx
    exact ⟨_, (lR _).mpr ⟨_, q⟩, to_dst e⟩
  · obtain ⟨h', q1, _, q2, _⟩ := hI.old k h hk
    exact ⟨h', (lR _).mpr ⟨_, q1⟩, to_dst (q2.trans e)⟩

theorem Inserted.complete (hC : Complete hM) : Complete hR where
  entered r hm hr := by
    obtain ⟨h, hh, e⟩ := hC.entered r (hI.mentioned lM lR (by rcases hr with h | h <;> simp [h]) hm) hr
    obtain ⟨h', hh', e'⟩ := hI.enters lM lR hh
    exact ⟨h', hh', e'.trans e⟩
  left r hm hr := by
    have old : Mentioned hM r → ∃ h ∈ hR, h.from = r := by
      intro hm
      obtain ⟨h, hh, e⟩ := hC.left r hm hr
      obtain ⟨h', hh', e'⟩ := hI.leaves lM lR hh
      exact ⟨h', hh', e'.trans e⟩
    by_cases hj : r.1 = .junction
    · obtain ⟨h', hh', e⟩ := hm
      obtain ⟨k, hk⟩ := (lR h').mp hh'
      rcases e with e | e
      · exact ⟨h', hh', e⟩
      rcases hI.kinds hk with ⟨h₀, h0, q1, q2, _⟩ | ⟨x, hx, _, _, q1, q2, _⟩ | ⟨x, hx, _, _, q1, q2, _⟩
      · rcases newDst_cases E h₀.dst with ⟨x, hx, _, e1⟩ | ⟨_, e1⟩
        · obtain ⟨_, _, q⟩ := hI.ends x hx
          refine ⟨_, (lR _).mpr ⟨_, q⟩, ?_⟩
          rw [← e]; simp only [Hop.from, Hop.to, q2, e1]
        · exact old ⟨h₀, (lM _).mpr ⟨k, h0⟩, Or.inr (by rw [← e]; exact (to_dst (q2.trans e1)).symm)⟩
      · obtain ⟨h₀, ⟨k', hk', e', _⟩, _⟩ := hI.starts x hx
        have e' : h₀.src = x.ref := e'
        obtain ⟨h'', w1, w2, _⟩ := hI.old k' h₀ hk'
        rw [e', newSrc_of_mem hI.refsNodup.1 hx] at w2
        refine ⟨h'', (lR _).mpr ⟨_, w1⟩, ?_⟩
        rw [← e]; simp only [Hop.from, Hop.to, q2, w2]
      · obtain ⟨h₀, ⟨k', hk', e', _⟩, _⟩ := hI.ends x hx
        have e' : h₀.dst = x.ref := e'
        exact old ⟨h₀, (lM _).mpr ⟨k', hk'⟩, Or.inr (by rw [← e]; exact to_dst (e'.trans q2.symm))⟩
    · exact old (hI.mentioned lM lR hj hm)
  proper h hh e := by
    obtain ⟨k, hk⟩ := (lR h).mp hh
    have names : ∀ {J : Str} {d : InRef}, d.Old M → (∃ x ∈ S, x.junction = J) ∨ (∃ x ∈ E, x.junction = J) → ((.junction, J) : CompRef) ≠ (d.ty, d.name) := by
      intro J d hd hJ e
      simp only [Prod.mk.injEq] at e
      have := hd e.1.symm
      rcases hJ with ⟨x, hx, rfl⟩ | ⟨x, hx, rfl⟩
      · exact hI.newNames.1 x hx (by rw [e.2]; exact this)
      · exact hI.newNames.2 x hx (by rw [e.2]; exact this)
    rcases hI.kinds hk with ⟨h₀, h0, q1, q2, _⟩ | ⟨x, hx, _, _, q1, q2, _⟩ | ⟨x, hx, _, _, q1, q2, _⟩
    · rcases newSrc_cases S h₀.src with ⟨x, hx, _, e1⟩ | ⟨_, e1⟩ <;> rcases newDst_cases E h₀.dst with ⟨y, hy, _, e2⟩ | ⟨_, e2⟩
      · simp only [Hop.from, Hop.to, q1, q2, e1, e2, Prod.mk.injEq, true_and] at e
        exact absurd e (hI.startEndNames hx hy)
      · simp only [Hop.from, Hop.to, q1, q2, e1, e2] at e
        exact absurd e (names (JunctionIn.dst h0) (Or.inl ⟨x, hx, rfl⟩))
      · simp only [Hop.from, Hop.to, q1, q2, e1, e2] at e
        have : (⟨h₀.src.ty, h₀.src.name⟩ : InRef).Old M := fun hj => JunctionIn.src h0 hj
        exact absurd e.symm (names this (Or.inr ⟨y, hy, rfl⟩))
      · have := hC.proper h₀ ((lM _).mpr ⟨k, h0⟩) (by rw [← from_src (q1.trans e1), ← to_dst (q2.trans e2)]; exact e)
        rw [q1, e1]; exact this
    · simp only [Hop.from, Hop.to, q1, q2] at e
      have : (⟨x.ref.ty, x.ref.name⟩ : InRef).Old M := fun hj => hI.startRef hx hj
      exact absurd e.symm (names this (Or.inl ⟨x, hx, rfl⟩))
    · simp only [Hop.from, Hop.to, q1, q2] at e
      exact absurd e (names (hI.endRef hx) (Or.inr ⟨x, hx, rfl⟩))

end

/-! ## Exit drains -/

section
variable {hR hR' : List Hop} {T : List Spy} (keep : ∀ h, h ∈ hR' ↔ h ∈ hR ∨ ∃ t ∈ T, h = t.hop)
include keep

theorem spied_complete (hC : Complete hR) : Complete hR' where
  entered r hm hr := by
    have : Mentioned hR r := by
      obtain ⟨h, hh, e⟩ := hm
      rcases (keep h).mp hh with hh | ⟨t, ht, rfl⟩
      · exact ⟨h, hh, e⟩
      · rcases e with rfl | rfl <;> rcases hr with hr | hr <;> simp [Spy.hop, Hop.from, Hop.to] at hr
    obtain ⟨h, hh, e⟩ := hC.entered r this hr
    exact ⟨h, (keep h).mpr (Or.inl hh), e⟩
  left r hm hr := by
    have : Mentioned hR r := by
      obtain ⟨h, hh, e⟩ := hm
      rcases (keep h).mp hh with hh | ⟨t, ht, rfl⟩
      · exact ⟨h, hh, e⟩
      · rcases e with rfl | rfl <;> rcases hr with hr | hr | hr <;> simp [Spy.hop, Hop.from, Hop.to] at hr
    obtain ⟨h, hh, e⟩ := hC.left r this hr
    exact ⟨h, (keep h).mpr (Or.inl hh), e⟩
  proper h hh e := by
    rcases (keep h).mp hh with hh | ⟨t, ht, rfl⟩
    · exact hC.proper h hh e
    · simp [Spy.hop]

/-- Nothing leaves a drain. -/
theorem spied_circleFree (hd : ∀ h ∈ hR, h.src.ty ≠ .drain) (h : CircleFree hR) : CircleFree hR' := by
  have one : ∀ {a b}, Leads hR' a b → (∀ d p, a ≠ .part (.drain, d) p) ∧ (Leads hR a b ∨ ∃ d p, b = .part (.drain, d) p) := by
    intro a b hl
    cases hl with
    | hop hh hx =>
      rcases (keep _).mp hh with hh | ⟨t, ht, rfl⟩
      · refine ⟨fun d p e => ?_, Or.inl (.hop hh hx)⟩
        simp only [Hop.writer, Hop.from, Who.part.injEq, Prod.mk.injEq] at e
        exact hd _ hh e.1.1
      · exact absurd ⟨rfl, rfl⟩ hx
    | exit hh hx hp =>
      refine ⟨fun d p e => ?_, ?_⟩
      · simp only [Hop.from, Who.part.injEq, Prod.mk.injEq, hx.1] at e
        exact nomatch e.1.1
      · rcases (keep _).mp hh with hh | ⟨t, ht, rfl⟩
        · exact Or.inl (.exit hh hx hp)
        · exact Or.inr ⟨_, _, rfl⟩
    | buffer hm =>
      refine ⟨by simp, Or.inl (.buffer ?_)⟩
      obtain ⟨h, hh, e⟩ := hm
      rcases (keep h).mp hh with hh | ⟨t, ht, rfl⟩
      · exact ⟨h, hh, e⟩
      · rcases e with e | e <;> simp [Spy.hop, Hop.from, Hop.to] at e
  have many : ∀ {a b}, Relation.TransGen (Leads hR') a b → Relation.TransGen (Leads hR) a b ∨ ∃ d p, b = .part (.drain, d) p := by
    intro a b hl
    induction hl with
    | single h1 => exact (one h1).2.imp .single id
    | tail h1 h2 ih =>
      rcases ih with ih | ⟨d, p, rfl⟩
      · exact (one h2).2.imp (.tail ih) id
      · exact absurd rfl ((one h2).1 d p)
  have start : ∀ {a b}, Relation.TransGen (Leads hR') a b → ∀ d p, a ≠ .part (.drain, d) p := by
    intro a b hl
    induction hl with
    | single h1 => exact (one h1).1
    | tail _ _ ih => exact ih
  intro i hl
  rcases many hl with h1 | ⟨d, p, e⟩
  · exact h i h1
  · exact start hl d p e

end

end Verif
