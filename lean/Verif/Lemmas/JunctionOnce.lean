import Verif.Props.JunctionEnd
import Verif.Lemmas.Consume
/-!
# A junction all of whose outputs have variation F

Between two messages it takes from the same input, somebody must have accepted the first.
-/
namespace Verif

/-- The round an event belongs to. -/
theorem LoopRounds.at {σ ρ : Type} {body : σ → Prog (σ ⊕ ρ)} {s s' : σ} {t1 t2 a b : List Ev} {e : Ev} (h1 : LoopRounds body s t1 s') (h2 : (body s').Partial t2) (h : a ++ e :: b = t1 ++ t2) :
    ∃ s1 u1 u2 u3, LoopRounds body s u1 s1 ∧ (body s1).Partial (u2 ++ e :: u3) ∧ a = u1 ++ u2 := by
  induction h1 generalizing a with
  | nil => exact ⟨_, [], a, b, .nil, by rw [h]; exact h2, rfl⟩
  | @next s s1 s2 t t' hb hrest ih =>
    rw [List.append_assoc] at h
    rcases split_at h with ⟨b', rfl, _⟩ | ⟨a', rfl, h'⟩
    · exact ⟨_, [], a, b', .nil, Prog.runs_partial hb, rfl⟩
    · obtain ⟨s3, u1, u2, u3, g1, g2, rfl⟩ := ih h2 h'.symm
      exact ⟨s3, t ++ u1, u2, u3, .next hb g1, g2, by simp⟩

theorem junction_between {inputs pushs spy} {a b c : List Ev} {e1 e2 : Ev} {s : End} {d1 d2 : Bytes} (hd : DistinctInputs inputs) (hs : AllSenders pushs)
    (hF : ∀ p ∈ pushs, p.breakable = .finish) (h : LoopPartial (junctionBody pushs spy) (junctionInit inputs) (a ++ e1 :: (b ++ e2 :: c)))
    (h1 : act e1 = .got s d1) (h2 : act e2 = .got s d2) : ∃ t, Act.offer t d1 .ok ∈ acts b := by
  obtain ⟨s', t1, t2, g1, g2, g3⟩ := h
  obtain ⟨s1, u1, u2, u3, k1, k2, k3⟩ := g1.at (a := a ++ e1 :: b) (e := e2) (b := c) g2 (by rw [← g3]; simp)
  have once := C10_once_per_pass hd hs k1 k2
  rcases split_at k3 with ⟨b', hu1, rfl⟩ | ⟨a', _, rfl⟩
  · obtain ⟨w, y', w1, w2, w3, w4, w5, _⟩ := got_poll hd hs JInv.init k1 (t1 := a) (ev := e1) (y := b') hu1 h1
    obtain ⟨D, hJ, _⟩ := JInv.init.rounds hd hs k1
    obtain ⟨q, hq, hqs⟩ := (junction_uses hd hs hJ ⟨_, [], _, .nil, k2, rfl⟩).1 s d2 (by
      rw [← h2]; exact List.mem_map.mpr ⟨e2, by simp, rfl⟩)
    apply Classical.byContradiction
    intro hno
    refine allGone_dropped hd hs k1 (e := s) ?_ q hqs hq
    rcases poll_shape w1 with ⟨s', p1, ha, _⟩ | ⟨s', d', rest, p1, ha, hqt, _⟩ | ⟨s', rest, p1, ha, hqt, _⟩ | ⟨_, h0⟩
    · exfalso
      cases hw : w.tr with
      | nil => rw [hw] at ha; cases ha
      | cons x xs =>
        rw [hw] at ha w3
        simp only [List.cons_append, List.cons.injEq] at w3
        rw [← w3.1] at ha
        simp [h1] at ha
    · cases hw : w.tr with
      | nil => rw [hw] at ha; cases ha
      | cons x xs =>
        have hx : e1 = x ∧ b' = xs ++ y' := by
          rw [hw] at w3
          simpa using w3
        obtain ⟨rfl, rfl⟩ := hx
        have hd' : s = s' ∧ d1 = d' := by
          rw [hw] at ha
          simp [h1] at ha
          exact ha.1
        obtain ⟨rfl, rfl⟩ := hd'
        have hrec : received w.tr = [d1] := by
          have hmem : d1 ∈ received w.tr := by
            unfold received
            rw [List.mem_filterMap]
            exact ⟨.got s d1, by simp [ha], rfl⟩
          have := (C05_fan_out w1).1
          match hr : received w.tr with
          | [] => rw [hr] at hmem; simp at hmem
          | [d'] => rw [hr] at hmem; simp at hmem; simp [hmem]
          | _ :: _ :: _ => rw [hr] at this; simp at this
        have hoff := poll_ok w1 w2
        rw [hrec] at hoff
        simp only [List.flatMap_cons, List.flatMap_nil, List.append_nil] at hoff
        refine ⟨hF, a, w.tr, y', d1, rest, by rw [hu1, hw]; simp, ha, hoff, ?_⟩
        intro o ho
        have hres : ∃ x, w.res = .ok x := by
          unfold Poll.isOk at w2; split at w2
          · exact ⟨_, by assumption⟩
          · simp at w2
        obtain ⟨x, hx⟩ := hres
        unfold PollRun at w1
        obtain ⟨_, c6, _⟩ := C06_pipe_variations w1 d1 hrec _ rfl
        have hlen : ((offers w.tr).map Offer.w).length ≤ pushs.length := by
          have := congrArg List.length hoff
          simp [toEach] at this
          have h2 := List.length_filterMap_le Push.target pushs
          simp; omega
        have hin : o.w ∈ (outcomes pushs ((offers w.tr).map Offer.w)).map Prod.snd := by
          rw [outcomes_map_snd hs hlen, List.mem_map]; exact ⟨o, ho, rfl⟩
        rw [List.mem_map] at hin
        obtain ⟨⟨p, z⟩, hy, hyo⟩ := hin
        have hod : o.d = d1 := by
          have : (o.to, o.d) ∈ toEach pushs d1 := by rw [← hoff]; exact List.mem_map.mpr ⟨o, ho, rfl⟩
          simp only [toEach, List.mem_map, Prod.mk.injEq] at this
          obtain ⟨_, _, _, h⟩ := this
          exact h.symm
        cases hz : o.w with
        | ok =>
          exfalso
          refine hno ⟨o.to, ?_⟩
          have := mem_offers.mp ho
          rw [hz, hod, hw] at this
          simp only [acts, List.map_cons, List.mem_cons] at this
          rcases this with h | h
          · rw [h1] at h; cases h
          · rw [List.append_assoc, acts_append]; exact List.mem_append_left _ h
        | closed why => exact ⟨why, rfl⟩
        | other err =>
          exfalso
          obtain ⟨j, e, he⟩ := c6.mpr ⟨p, err, by rw [← hz, ← hyo]; exact hy⟩
          rw [hx] at he; cases he
    · exfalso
      cases hw : w.tr with
      | nil => rw [hw] at ha; cases ha
      | cons x xs =>
        rw [hw] at ha w3
        simp only [List.cons_append, List.cons.injEq] at w3
        rw [← w3.1] at ha
        simp [h1] at ha
    · rw [w2] at h0; simp at h0
  · exfalso
    have hg1 : asked (act e1) = some s := by rw [h1]; rfl
    have hg2 : asked (act e2) = some s := by rw [h2]; rfl
    simp only [acts, List.append_assoc, List.cons_append, List.map_append, List.map_cons, List.filterMap_append, List.filterMap_cons, hg1, hg2] at once
    rw [List.nodup_append] at once
    have := once.2.1
    simp at this

end Verif
