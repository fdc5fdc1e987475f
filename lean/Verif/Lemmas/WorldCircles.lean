import Verif.Props.Processed
import Verif.Spec.World
/-!
# Processing a configuration makes no way back
-/
namespace Verif

section
variable {M R : Map Hop} {S : List SIns} {E : List EIns} {hM hR : List Hop} (hI : Inserted M S E R) (lM : Lists M hM) (lR : Lists R hR)
include hI lM lR

theorem Inserted.leadsOn {a b : Who} (hl : LeadsOn hR (fun _ => True) a b) :
    (NewAt S E a → ∀ g, Behind hM S E b g → Behind hM S E a g) ∧ (¬ NewAt S E a → ∀ g, Behind hM S E b g → LeadsOn hM (fun _ => True) a g) := by
  cases hl with
  | inside hl => exact ⟨(hI.leads lM lR hl).1, fun hn g hg => .inside ((hI.leads lM lR hl).2 hn g hg)⟩
  | @program h hh hty hx _ =>
    have hnew : ∀ p, ¬ NewAt S E (.part h.from p) := by
      rintro p (⟨x, _, e⟩ | ⟨x, _, e⟩) <;> simp only [atJunction, Who.part.injEq, Hop.from, hty, Prod.mk.injEq] at e <;> exact nomatch e.1.1
    refine ⟨fun hn => absurd hn (hnew _), fun _ g hg => ?_⟩
    have hw : ∃ p, h.writer = .part h.from p := ⟨_, rfl⟩
    obtain ⟨p, hp⟩ := hw
    rw [behind_old hg (by rw [hp]; exact hnew p)]
    obtain ⟨k, hk⟩ := (lR h).mp hh
    have : ∃ h₀ ∈ hM, h.src = h₀.src := by
      rcases hI.kinds hk with ⟨h₀, h0, q1, q2, _⟩ | ⟨x, hxS, _, _, q1, q2, _⟩ | ⟨x, hxE, _, _, q1, q2, _⟩
      · rcases newSrc_cases S h₀.src with ⟨x, hxS, e1, e2⟩ | ⟨_, e2⟩
        · rw [q1, e2] at hty; cases hty
        · exact ⟨h₀, (lM _).mpr ⟨k, h0⟩, q1.trans e2⟩
      · obtain ⟨h₀, ⟨k', hk', e', _⟩, _⟩ := hI.starts x hxS
        have e' : h₀.src = x.ref := e'
        exact ⟨h₀, (lM _).mpr ⟨k', hk'⟩, q1.trans e'.symm⟩
      · rw [q1] at hty; cases hty
    obtain ⟨h₀, m0, es⟩ := this
    rw [from_src es, writer_src es]
    exact .program m0 (by rw [← es]; exact hty) (fun g => hx ((isExit_src es).mpr g)) trivial

theorem Inserted.noWayBack (h : NoWayBack hM) : NoWayBack hR := by
  have new : ∀ {a b}, LeadsOn hR (fun _ => True) a b → NewAt S E b → Leads hR a b := by
    intro a b hl hb
    cases hl with
    | inside h => exact h
    | @program h hh hty hx _ =>
      exfalso
      rcases hb with ⟨x, _, e⟩ | ⟨x, _, e⟩ <;> simp only [atJunction, Hop.writer, Who.part.injEq, Hop.from, hty, Prod.mk.injEq] at e <;> exact nomatch e.1.1
  exact circles_old (NewAt S E) (Behind hM S E) (fun _ hb => Or.inr (Or.inr ⟨hb, rfl⟩)) (fun _ _ => hI.leadsOn lM lR)
    (fun _ _ _ ha hab hb hbd hd => hI.escape lM lR ha (new hab hb) hb (new hbd hd) hd) h

end

section
variable {hR hR' : List Hop} {T : List Spy} (keep : ∀ h, h ∈ hR' ↔ h ∈ hR ∨ ∃ t ∈ T, h = t.hop)
include keep

theorem spied_noWayBack (hd : ∀ h ∈ hR, h.src.ty ≠ .drain) (h : NoWayBack hR) : NoWayBack hR' := by
  have one : ∀ {a b}, LeadsOn hR' (fun _ => True) a b → (∀ d p, a ≠ .part (.drain, d) p) ∧ (LeadsOn hR (fun _ => True) a b ∨ ∃ d p, b = .part (.drain, d) p) := by
    intro a b hl
    cases hl with
    | inside hl =>
      cases hl with
      | hop hh hx =>
        rcases (keep _).mp hh with hh | ⟨t, ht, rfl⟩
        · refine ⟨fun d p e => ?_, Or.inl (.inside (.hop hh hx))⟩
          simp only [Hop.writer, Hop.from, Who.part.injEq, Prod.mk.injEq] at e
          exact hd _ hh e.1.1
        · exact absurd ⟨rfl, rfl⟩ hx
      | exit hh hx hp =>
        refine ⟨fun d p e => ?_, ?_⟩
        · simp only [Hop.from, Who.part.injEq, Prod.mk.injEq, hx.1] at e
          exact nomatch e.1.1
        · rcases (keep _).mp hh with hh | ⟨t, ht, rfl⟩
          · exact Or.inl (.inside (.exit hh hx hp))
          · exact Or.inr ⟨_, _, rfl⟩
      | buffer hm =>
        refine ⟨by simp, Or.inl (.inside (.buffer ?_))⟩
        obtain ⟨h, hh, e⟩ := hm
        rcases (keep h).mp hh with hh | ⟨t, ht, rfl⟩
        · exact ⟨h, hh, e⟩
        · rcases e with e | e <;> simp [Spy.hop, Hop.from, Hop.to] at e
    | @program h hh hty hx _ =>
      refine ⟨fun d p e => ?_, ?_⟩
      · simp only [Hop.from, Who.part.injEq, Prod.mk.injEq, hty] at e
        exact nomatch e.1.1
      · rcases (keep _).mp hh with hh | ⟨t, ht, rfl⟩
        · exact Or.inl (.program hh hty hx trivial)
        · exact absurd ⟨rfl, rfl⟩ hx
  have many : ∀ {a b}, Relation.TransGen (LeadsOn hR' fun _ => True) a b → Relation.TransGen (LeadsOn hR fun _ => True) a b ∨ ∃ d p, b = .part (.drain, d) p := by
    intro a b hl
    induction hl with
    | single h1 => exact (one h1).2.imp .single id
    | tail h1 h2 ih =>
      rcases ih with ih | ⟨d, p, rfl⟩
      · exact (one h2).2.imp (.tail ih) id
      · exact absurd rfl ((one h2).1 d p)
  have start : ∀ {a b}, Relation.TransGen (LeadsOn hR' fun _ => True) a b → ∀ d p, a ≠ .part (.drain, d) p := by
    intro a b hl
    induction hl with
    | single h1 => exact (one h1).1
    | tail _ _ ih => exact ih
  intro i hl
  rcases many hl with h1 | ⟨d, p, e⟩
  · exact h i h1
  · exact start hl d p e

end

theorem Laid.noWayBack {c : Config} {M R R' : Map Hop} {S : List SIns} {E : List EIns} {T : List Spy} (P : Laid c M R R' S E T) {hs : List Hop} (hhs : ∀ h, h ∈ hs ↔ ∃ b i, c.HopOf b i h)
    (hd : ∀ b i h, c.HopOf b i h → h.src.ty ≠ .drain) (hC : NoWayBack hs) : NoWayBack (R'.map (·.2)) := by
  have lM : Lists M hs := fun h => by
    rw [hhs]
    constructor
    · rintro ⟨b, i, h1⟩
      obtain ⟨k, hk⟩ := counted_exists b i
      exact ⟨k, (P.hops k h).mpr ⟨b, i, h1, hk⟩⟩
    · rintro ⟨k, hk⟩
      obtain ⟨b, i, h1, _⟩ := (P.hops k h).mp hk
      exact ⟨b, i, h1⟩
  refine spied_noWayBack (T := T) (fun h => ?_) (fun h hh => ?_) (P.ins.noWayBack lM (lists_map P.ins.sorted) hC)
  · rw [lists_map P.sorted', lists_map P.ins.sorted]
    constructor
    · rintro ⟨k, hk⟩
      rcases P.split k h hk with ⟨t, ht, _, e⟩ | h1
      · exact Or.inr ⟨t, ht, e⟩
      · exact Or.inl ⟨k, h1⟩
    · rintro (⟨k, hk⟩ | ⟨t, ht, rfl⟩)
      · exact ⟨k, P.kept k h hk⟩
      · exact ⟨t.key, (P.spies t ht).2⟩
  · obtain ⟨k, hk⟩ := (lists_map P.ins.sorted h).mp hh
    intro hty
    obtain ⟨k', h', h1, h2⟩ := (P.ins.srcs (p := h.src) (by simp [hty])).mp ⟨k, h, hk, rfl⟩
    obtain ⟨b, i, h3, _⟩ := (P.hops k' h').mp h1
    exact hd b i h' h3 (by rw [h2]; exact hty)

end Verif
