import Verif.Lemmas.JamCircles
/-!
# Loops of what runs are loops of what is written
-/
namespace Verif

/-- If what is new does not go on for long, whatever is behind a circle is so without what is new. -/
theorem circle_old {α : Type} {r s : α → α → Prop} (new : α → Prop) (goal : α → α → Prop) (hgoal : ∀ b, ¬ new b → goal b b)
    (step : ∀ a b, s a b → (new a → ∀ g, goal b g → goal a g) ∧ (¬ new a → ∀ g, goal b g → r a g))
    (esc : ∀ a b d, new a → s a b → new b → s b d → ¬ new d) {j p : α} (hj : Relation.TransGen s j j) (hp : j = p ∨ Relation.TransGen s j p) (hn : ¬ new p) :
    ∃ j, Relation.TransGen r j j ∧ (j = p ∨ Relation.TransGen r j p) := by
  have many : ∀ {a b}, Relation.TransGen s a b → ¬ new a → ∀ g, goal b g → Relation.TransGen r a g := by
    intro a b hab ha
    induction hab with
    | single h1 => exact fun g hg => .single ((step _ _ h1).2 ha g hg)
    | tail h1 h2 ih =>
      rename_i b' b''
      intro g hg
      by_cases hb : new b'
      · exact ih g ((step _ _ h2).1 hb g hg)
      · exact .tail (ih b' (hgoal b' hb)) ((step _ _ h2).2 hb g hg)
  have join : ∀ {a b d}, Relation.TransGen s a b → Relation.TransGen s b d → Relation.TransGen s a d := by
    intro a b d h1 h2
    induction h2 with
    | single h => exact .tail h1 h
    | tail _ h ih => exact .tail ih h
  have first : ∀ {a b}, Relation.TransGen s a b → ∃ d, s a d ∧ (d = b ∨ Relation.TransGen s d b) := by
    intro a b h
    induction h with
    | single h => exact ⟨_, h, Or.inl rfl⟩
    | tail _ h ih =>
      obtain ⟨d, h1, rfl | h2⟩ := ih
      · exact ⟨_, h1, Or.inr (.single h)⟩
      · exact ⟨d, h1, Or.inr (.tail h2 h)⟩
  have old : ∃ k, ¬ new k ∧ Relation.TransGen s k k ∧ (k = j ∨ Relation.TransGen s k j) := by
    by_cases h0 : new j
    · obtain ⟨b, h1, h2⟩ := first hj
      by_cases h3 : new b
      · rcases h2 with rfl | h2
        · exact absurd h0 (esc _ _ _ h0 h1 h0 h1)
        · obtain ⟨d, h4, h5⟩ := first h2
          refine ⟨d, esc _ _ _ h0 h1 h3 h4, ?_, h5⟩
          rcases h5 with rfl | h5
          · exact hj
          · exact join h5 (.tail (.single h1) h4)
      · refine ⟨b, h3, ?_, h2⟩
        rcases h2 with rfl | h2
        · exact hj
        · exact .tail h2 h1
    · exact ⟨j, h0, hj, Or.inl rfl⟩
  obtain ⟨k, hk, hkk, h1⟩ := old
  refine ⟨k, many hkk hk k (hgoal k hk), ?_⟩
  rcases h1 with rfl | h1
  · exact hp.imp id fun hp => many hp hk p (hgoal p hn)
  · refine Or.inr (many ?_ hk p (hgoal p hn))
    rcases hp with rfl | hp
    · exact h1
    · exact join h1 hp

section
variable {M R : Map Hop} {S : List SIns} {E : List EIns} {hM hR : List Hop} (hI : Inserted M S E R) (lM : Lists M hM) (lR : Lists R hR)
include hI lM lR

theorem Inserted.loop {j p : Who} (hj : Relation.TransGen (LeadsOn hR fun _ => True) j j) (hp : j = p ∨ Relation.TransGen (LeadsOn hR fun _ => True) j p) (hn : ¬ NewAt S E p) :
    ∃ j, Relation.TransGen (LeadsOn hM fun _ => True) j j ∧ (j = p ∨ Relation.TransGen (LeadsOn hM fun _ => True) j p) := by
  have new : ∀ {a b}, LeadsOn hR (fun _ => True) a b → NewAt S E b → Leads hR a b := by
    intro a b hl hb
    cases hl with
    | inside h => exact h
    | @program h hh hty hx _ =>
      exfalso
      rcases hb with ⟨x, _, e⟩ | ⟨x, _, e⟩ <;> simp only [atJunction, Hop.writer, Who.part.injEq, Hop.from, hty, Prod.mk.injEq] at e <;> exact nomatch e.1.1
  exact circle_old (NewAt S E) (Behind hM S E) (fun _ hb => Or.inr (Or.inr ⟨hb, rfl⟩)) (fun _ _ => hI.leadsOn lM lR)
    (fun _ _ _ ha hab hb hbd hd => hI.escape lM lR ha (new hab hb) hb (new hbd hd) hd) hj hp hn

end

section
variable {hR hR' : List Hop} {T : List Spy} (keep : ∀ h, h ∈ hR' ↔ h ∈ hR ∨ ∃ t ∈ T, h = t.hop)
include keep

theorem spied_step (hd : ∀ h ∈ hR, h.src.ty ≠ .drain) {a b : Who} (hl : LeadsOn hR' (fun _ => True) a b) :
    (∀ d p, a ≠ .part (.drain, d) p) ∧ (LeadsOn hR (fun _ => True) a b ∨ ∃ d p, b = .part (.drain, d) p) := by
  cases hl with
  | inside hl =>
    cases hl with
    | hop hh hx =>
      rcases (keep _).mp hh with hh | ⟨t, ht, rfl⟩
      · refine ⟨fun d p e => ?_, Or.inl (.inside (.hop hh hx))⟩
        simp only [Hop.writer, Hop.from, Who.part.injEq, Prod.mk.injEq] at e
        exact hd _ hh e.1.1
      · exact absurd ⟨rfl, rfl⟩ hx
    | exit hh hx hp =>
      refine ⟨fun d p e => ?_, ?_⟩
      · simp only [Hop.from, Who.part.injEq, Prod.mk.injEq, hx.1] at e
        exact nomatch e.1.1
      · rcases (keep _).mp hh with hh | ⟨t, ht, rfl⟩
        · exact Or.inl (.inside (.exit hh hx hp))
        · exact Or.inr ⟨_, _, rfl⟩
    | buffer hm =>
      refine ⟨by simp, Or.inl (.inside (.buffer ?_))⟩
      obtain ⟨h, hh, e⟩ := hm
      rcases (keep h).mp hh with hh | ⟨t, ht, rfl⟩
      · exact ⟨h, hh, e⟩
      · rcases e with e | e <;> simp [Spy.hop, Hop.from, Hop.to] at e
  | @program h hh hty hx _ =>
    refine ⟨fun d p e => ?_, ?_⟩
    · simp only [Hop.from, Who.part.injEq, Prod.mk.injEq, hty] at e
      exact nomatch e.1.1
    · rcases (keep _).mp hh with hh | ⟨t, ht, rfl⟩
      · exact Or.inl (.program hh hty hx trivial)
      · exact absurd ⟨rfl, rfl⟩ hx

theorem spied_way (hd : ∀ h ∈ hR, h.src.ty ≠ .drain) {a b : Who} (hl : Relation.TransGen (LeadsOn hR' fun _ => True) a b) :
    (∀ d p, a ≠ .part (.drain, d) p) ∧ (Relation.TransGen (LeadsOn hR fun _ => True) a b ∨ ∃ d p, b = .part (.drain, d) p) := by
  induction hl with
  | single h1 => exact ⟨(spied_step keep hd h1).1, (spied_step keep hd h1).2.imp .single id⟩
  | tail h1 h2 ih =>
    refine ⟨ih.1, ?_⟩
    rcases ih.2 with ih | ⟨d, p, rfl⟩
    · exact (spied_step keep hd h2).2.imp (.tail ih) id
    · exact absurd rfl ((spied_step keep hd h2).1 d p)

end

/-- Whatever of the configuration is behind a loop of what runs, other than a drain, is behind a loop of what is written. -/
theorem Laid.loop {c : Config} {M R R' : Map Hop} {S : List SIns} {E : List EIns} {T : List Spy} (P : Laid c M R R' S E T) {hs : List Hop} (hhs : ∀ h, h ∈ hs ↔ ∃ b i, c.HopOf b i h)
    (hd : ∀ b i h, c.HopOf b i h → h.src.ty ≠ .drain) {j p : Who} (hj : Relation.TransGen (LeadsOn (R'.map (·.2)) fun _ => True) j j)
    (hp : j = p ∨ Relation.TransGen (LeadsOn (R'.map (·.2)) fun _ => True) j p) (hn : ¬ NewAt S E p) (hnd : ∀ d q, p ≠ .part (.drain, d) q) :
    ∃ j, Relation.TransGen (LeadsOn hs fun _ => True) j j ∧ (j = p ∨ Relation.TransGen (LeadsOn hs fun _ => True) j p) := by
  have lM : Lists M hs := fun h => by
    rw [hhs]
    constructor
    · rintro ⟨b, i, h1⟩
      obtain ⟨k, hk⟩ := counted_exists b i
      exact ⟨k, (P.hops k h).mpr ⟨b, i, h1, hk⟩⟩
    · rintro ⟨k, hk⟩
      obtain ⟨b, i, h1, _⟩ := (P.hops k h).mp hk
      exact ⟨b, i, h1⟩
  have keep : ∀ h, h ∈ R'.map (·.2) ↔ h ∈ R.map (·.2) ∨ ∃ t ∈ T, h = t.hop := fun h => by
    rw [lists_map P.sorted', lists_map P.ins.sorted]
    constructor
    · rintro ⟨k, hk⟩
      rcases P.split k h hk with ⟨t, ht, _, e⟩ | h1
      · exact Or.inr ⟨t, ht, e⟩
      · exact Or.inl ⟨k, h1⟩
    · rintro (⟨k, hk⟩ | ⟨t, ht, rfl⟩)
      · exact ⟨k, P.kept k h hk⟩
      · exact ⟨t.key, (P.spies t ht).2⟩
  have hd' : ∀ h ∈ R.map (·.2), h.src.ty ≠ .drain := fun h hh hty => by
    obtain ⟨k, hk⟩ := (lists_map P.ins.sorted h).mp hh
    obtain ⟨k', h', h1, h2⟩ := (P.ins.srcs (p := h.src) (by simp [hty])).mp ⟨k, h, hk, rfl⟩
    obtain ⟨b, i, h3, _⟩ := (P.hops k' h').mp h1
    exact hd b i h' h3 (by rw [h2]; exact hty)
  refine P.ins.loop lM (lists_map P.ins.sorted) (j := j) ?_ (hp.imp id fun hp => ?_) hn
  · obtain ⟨h1, h2 | ⟨d, q, h2⟩⟩ := spied_way keep hd' hj
    · exact h2
    · exact absurd h2 (h1 d q)
  · obtain ⟨h1, h2 | ⟨d, q, h2⟩⟩ := spied_way keep hd' hp
    · exact h2
    · exact absurd h2 (hnd d q)

end Verif
