import Verif.Lemmas.WorldCircles
import Verif.Spec.Jam
/-!
# Processing a configuration makes no loop without a buffer
-/
namespace Verif

section
variable {M R : Map Hop} {S : List SIns} {E : List EIns} {hM hR : List Hop} (hI : Inserted M S E R) (lM : Lists M hM) (lR : Lists R hR)
include hI lM lR

theorem Inserted.holdsUp {a b : Who} (hl : HoldsUp hR a b) :
    (NewAt S E a → ∀ g, Behind hM S E b g → Behind hM S E a g) ∧ (¬ NewAt S E a → ∀ g, Behind hM S E b g → HoldsUp hM a g) := by
  cases hl with
  | @hop h hh hx =>
    obtain ⟨k, hk⟩ := (lR h).mp hh
    rcases hI.kinds hk with ⟨h₀, h0, q1, q2, _⟩ | ⟨x, hxS, _, _, q1, q2, _⟩ | ⟨x, hxE, _, _, q1, q2, _⟩
    · have m0 : h₀ ∈ hM := (lM _).mpr ⟨k, h0⟩
      rcases newSrc_cases S h₀.src with ⟨x, hxS, e1, e2⟩ | ⟨_, e2⟩
      · have ew := writer_junction (q1.trans e2)
        refine ⟨fun _ g hg => Or.inl ⟨x, hxS, ew, h₀, m0, e1.symm, hI.behindHop lM m0 q2 hg⟩, fun hn => absurd (Or.inl ⟨x, hxS, ew⟩) hn⟩
      · have es := q1.trans e2
        rw [writer_src es]
        refine ⟨fun hn => absurd hn (hI.oldWriter lM m0), fun _ g hg => ?_⟩
        rw [hI.behindHop lM m0 q2 hg]
        exact .hop m0 (by rwa [← isExit_src es])
    · rw [reader_junction q2]
      obtain ⟨h₀, ⟨k', hk', e', _⟩, _⟩ := hI.starts x hxS
      have e' : h₀.src = x.ref := e'
      refine ⟨fun hn => ?_, fun _ g hg => ?_⟩
      · rw [writer_src (q1.trans e'.symm)] at hn
        exact absurd hn (hI.oldWriter lM ((lM _).mpr ⟨k', hk'⟩))
      · obtain ⟨h', m', e2, rfl⟩ := hI.behindStart hxS hg
        rw [writer_src (q1.trans e2.symm)]
        exact .hop m' (by rwa [← isExit_src (q1.trans e2.symm)])
    · have ew := writer_junction q1
      obtain ⟨h₀, ⟨k', hk', e', _⟩, _⟩ := hI.ends x hxE
      have e' : h₀.dst = x.ref := e'
      have m0 : h₀ ∈ hM := (lM _).mpr ⟨k', hk'⟩
      refine ⟨fun _ g hg => ?_, fun hn => absurd (Or.inr ⟨x, hxE, ew⟩) hn⟩
      rw [reader_dst (q2.trans e'.symm)] at hg
      exact Or.inr (Or.inl ⟨x, hxE, ew, h₀, m0, e', behind_old hg (hI.oldReader lM m0)⟩)
  | @program h hh hty hx =>
    have hnew : ∀ p, ¬ NewAt S E (.part h.from p) := by
      rintro p (⟨x, _, e⟩ | ⟨x, _, e⟩) <;> simp only [atJunction, Who.part.injEq, Hop.from, hty, Prod.mk.injEq] at e <;> exact nomatch e.1.1
    refine ⟨fun hn => absurd hn (hnew _), fun _ g hg => ?_⟩
    have hw : ∃ p, h.writer = .part h.from p := ⟨_, rfl⟩
    obtain ⟨p, hp⟩ := hw
    rw [behind_old hg (by rw [hp]; exact hnew p)]
    obtain ⟨k, hk⟩ := (lR h).mp hh
    have : ∃ h₀ ∈ hM, h.src = h₀.src := by
      rcases hI.kinds hk with ⟨h₀, h0, q1, q2, _⟩ | ⟨x, hxS, _, _, q1, q2, _⟩ | ⟨x, hxE, _, _, q1, q2, _⟩
      · rcases newSrc_cases S h₀.src with ⟨x, hxS, e1, e2⟩ | ⟨_, e2⟩
        · rw [q1, e2] at hty; cases hty
        · exact ⟨h₀, (lM _).mpr ⟨k, h0⟩, q1.trans e2⟩
      · obtain ⟨h₀, ⟨k', hk', e', _⟩, _⟩ := hI.starts x hxS
        have e' : h₀.src = x.ref := e'
        exact ⟨h₀, (lM _).mpr ⟨k', hk'⟩, q1.trans e'.symm⟩
      · rw [q1] at hty; cases hty
    obtain ⟨h₀, m0, es⟩ := this
    rw [from_src es, writer_src es]
    exact .program m0 (by rw [← es]; exact hty) (fun g => hx ((isExit_src es).mpr g))

theorem Inserted.loopsBuffered (h : LoopsBuffered hM) : LoopsBuffered hR := by
  have new : ∀ {a b}, HoldsUp hR a b → NewAt S E b → Leads hR a b := by
    intro a b hl hb
    cases hl with
    | hop hh hx => exact .hop hh hx
    | @program h hh hty hx =>
      exfalso
      rcases hb with ⟨x, _, e⟩ | ⟨x, _, e⟩ <;> simp only [atJunction, Hop.writer, Who.part.injEq, Hop.from, hty, Prod.mk.injEq] at e <;> exact nomatch e.1.1
  exact circles_old (NewAt S E) (Behind hM S E) (fun _ hb => Or.inr (Or.inr ⟨hb, rfl⟩)) (fun _ _ => hI.holdsUp lM lR)
    (fun _ _ _ ha hab hb hbd hd => hI.escape lM lR ha (new hab hb) hb (new hbd hd) hd) h

end

theorem spied_loopsBuffered {hR hR' : List Hop} {T : List Spy} (keep : ∀ h, h ∈ hR' ↔ h ∈ hR ∨ ∃ t ∈ T, h = t.hop) (h : LoopsBuffered hR) : LoopsBuffered hR' := by
  have one : ∀ {a b}, HoldsUp hR' a b → HoldsUp hR a b := by
    intro a b hl
    cases hl with
    | hop hh hx =>
      rcases (keep _).mp hh with hh | ⟨t, ht, rfl⟩
      · exact .hop hh hx
      · exact absurd ⟨rfl, rfl⟩ hx
    | program hh hty hx =>
      rcases (keep _).mp hh with hh | ⟨t, ht, rfl⟩
      · exact .program hh hty hx
      · exact absurd ⟨rfl, rfl⟩ hx
  have many : ∀ {a b}, Relation.TransGen (HoldsUp hR') a b → Relation.TransGen (HoldsUp hR) a b := by
    intro a b hl
    induction hl with
    | single h1 => exact .single (one h1)
    | tail _ h2 ih => exact .tail ih (one h2)
  exact fun i hl => h i (many hl)

theorem Laid.loopsBuffered {c : Config} {M R R' : Map Hop} {S : List SIns} {E : List EIns} {T : List Spy} (P : Laid c M R R' S E T) {hs : List Hop} (hhs : ∀ h, h ∈ hs ↔ ∃ b i, c.HopOf b i h)
    (hC : LoopsBuffered hs) : LoopsBuffered (R'.map (·.2)) := by
  have lM : Lists M hs := fun h => by
    rw [hhs]
    constructor
    · rintro ⟨b, i, h1⟩
      obtain ⟨k, hk⟩ := counted_exists b i
      exact ⟨k, (P.hops k h).mpr ⟨b, i, h1, hk⟩⟩
    · rintro ⟨k, hk⟩
      obtain ⟨b, i, h1, _⟩ := (P.hops k h).mp hk
      exact ⟨b, i, h1⟩
  refine spied_loopsBuffered (T := T) (fun h => ?_) (P.ins.loopsBuffered lM (lists_map P.ins.sorted) hC)
  rw [lists_map P.sorted', lists_map P.ins.sorted]
  constructor
  · rintro ⟨k, hk⟩
    rcases P.split k h hk with ⟨t, ht, _, e⟩ | h1
    · exact Or.inr ⟨t, ht, e⟩
    · exact Or.inl ⟨k, h1⟩
  · rintro (⟨k, hk⟩ | ⟨t, ht, rfl⟩)
    · exact ⟨k, P.kept k h hk⟩
    · exact ⟨t.key, (P.spies t ht).2⟩

end Verif
