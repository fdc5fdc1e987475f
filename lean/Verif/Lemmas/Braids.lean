import Verif.Lemmas.JamCircles
import Verif.Spec.Backs
/-!
# Processing a configuration does not make anybody hold up themselves
-/
namespace Verif

/-- Then every loop has a buffer. -/
theorem Unbraided.buffered {hs : List Hop} {cs : List Capture} (h : Unbraided hs cs) : LoopsBuffered hs := by
  intro i hl
  have : ∀ {a b}, Relation.TransGen (HoldsUp hs) a b → Relation.TransGen (Backs hs cs) a b := by
    intro a b hl
    induction hl with
    | single h1 => exact .single (.holds h1)
    | tail _ h2 ih => exact .tail ih (.holds h2)
  exact h i (this hl)

/-- Without managers this is all there is to it. -/
theorem unbraided_nil {hs : List Hop} : Unbraided hs [] ↔ LoopsBuffered hs := by
  refine ⟨Unbraided.buffered, fun h i hl => ?_⟩
  have : ∀ {a b}, Relation.TransGen (Backs hs []) a b → Relation.TransGen (HoldsUp hs) a b := by
    intro a b hl
    induction hl with
    | single h1 => cases h1 with
      | holds h1 => exact .single h1
      | steer ha _ => cases ha
    | tail _ h2 ih => cases h2 with
      | holds h2 => exact .tail ih h2
      | steer ha _ => cases ha
  exact h i (this hl)

section
variable {M R : Map Hop} {S : List SIns} {E : List EIns} {hM hR : List Hop} {cs : List Capture} (hI : Inserted M S E R) (lM : Lists M hM) (lR : Lists R hR)
include hI lM lR

theorem Inserted.backs {a b : Who} (hl : Backs hR cs a b) :
    (NewAt S E a → ∀ g, Behind hM S E b g → Behind hM S E a g) ∧ (¬ NewAt S E a → ∀ g, Behind hM S E b g → Backs hM cs a g) := by
  cases hl with
  | holds hl => exact ⟨(hI.holdsUp lM lR hl).1, fun hn g hg => .holds ((hI.holdsUp lM lR hl).2 hn g hg)⟩
  | @steer a x ha hx =>
    have hn : ∀ p, ¬ NewAt S E (.part (.regulator, a.regulator) p) := by
      rintro p (⟨x, _, e⟩ | ⟨x, _, e⟩) <;> simp [atJunction] at e
    have hn' : ∀ p, ¬ NewAt S E (.part (.buffer, x) p) := by
      rintro p (⟨x, _, e⟩ | ⟨x, _, e⟩) <;> simp [atJunction] at e
    refine ⟨fun h => absurd h (hn _), fun _ g hg => ?_⟩
    rw [behind_old hg (hn' _)]
    exact .steer ha hx

theorem Inserted.unbraided (h : Unbraided hM cs) : Unbraided hR cs := by
  have new : ∀ {a b}, Backs hR cs a b → NewAt S E b → Leads hR a b := by
    intro a b hl hb
    cases hl with
    | holds hl =>
      cases hl with
      | hop h hx => exact .hop h hx
      | @program h hh hty hx =>
        exfalso
        rcases hb with ⟨x, _, e⟩ | ⟨x, _, e⟩ <;> simp only [atJunction, Hop.writer, Who.part.injEq, Hop.from, hty, Prod.mk.injEq] at e <;> exact nomatch e.1.1
    | steer ha hx =>
      exfalso
      rcases hb with ⟨x, _, e⟩ | ⟨x, _, e⟩ <;> simp [atJunction] at e
  exact circles_old (NewAt S E) (Behind hM S E) (fun _ hb => Or.inr (Or.inr ⟨hb, rfl⟩)) (fun _ _ => hI.backs lM lR)
    (fun _ _ _ ha hab hb hbd hd => hI.escape lM lR ha (new hab hb) hb (new hbd hd) hd) h

end

theorem spied_unbraided {hR hR' : List Hop} {T : List Spy} {cs : List Capture} (keep : ∀ h, h ∈ hR' ↔ h ∈ hR ∨ ∃ t ∈ T, h = t.hop) (h : Unbraided hR cs) : Unbraided hR' cs := by
  have one : ∀ {a b}, Backs hR' cs a b → Backs hR cs a b := by
    intro a b hl
    cases hl with
    | holds hl =>
      cases hl with
      | hop hh hx =>
        rcases (keep _).mp hh with hh | ⟨t, ht, rfl⟩
        · exact .holds (.hop hh hx)
        · exact absurd ⟨rfl, rfl⟩ hx
      | program hh hty hx =>
        rcases (keep _).mp hh with hh | ⟨t, ht, rfl⟩
        · exact .holds (.program hh hty hx)
        · exact absurd ⟨rfl, rfl⟩ hx
    | steer ha hx => exact .steer ha hx
  intro i hl
  refine h i ?_
  have : ∀ {a b}, Relation.TransGen (Backs hR' cs) a b → Relation.TransGen (Backs hR cs) a b := by
    intro a b hl
    induction hl with
    | single h1 => exact .single (one h1)
    | tail _ h2 ih => exact .tail ih (one h2)
  exact this hl

theorem Laid.unbraided {c : Config} {M R R' : Map Hop} {S : List SIns} {E : List EIns} {T : List Spy} {cs : List Capture} (P : Laid c M R R' S E T) {hs : List Hop}
    (hhs : ∀ h, h ∈ hs ↔ ∃ b i, c.HopOf b i h) (h : Unbraided hs cs) : Unbraided (R'.map (·.2)) cs := by
  have lM : Lists M hs := fun h => by
    rw [hhs]
    constructor
    · rintro ⟨b, i, h1⟩
      obtain ⟨k, hk⟩ := counted_exists b i
      exact ⟨k, (P.hops k h).mpr ⟨b, i, h1, hk⟩⟩
    · rintro ⟨k, hk⟩
      obtain ⟨b, i, h1, _⟩ := (P.hops k h).mp hk
      exact ⟨b, i, h1⟩
  refine spied_unbraided (T := T) (fun h => ?_) (P.ins.unbraided lM (lists_map P.ins.sorted) h)
  rw [lists_map P.sorted', lists_map P.ins.sorted]
  constructor
  · rintro ⟨k, hk⟩
    rcases P.split k h hk with ⟨t, ht, _, e⟩ | h1
    · exact Or.inr ⟨t, ht, e⟩
    · exact Or.inl ⟨k, h1⟩
  · rintro (⟨k, hk⟩ | ⟨t, ht, rfl⟩)
    · exact ⟨k, P.kept k h hk⟩
    · exact ⟨t.key, (P.spies t ht).2⟩

end Verif
