import Verif.Lemmas.JunctionOrder
import Verif.Props.JunctionEnd
/-!
# Inputs of the same number

Those of the smallest number take turns, of others the one connected first goes first.
-/
namespace Verif

/-- As `junction_before`, for two inputs of the same number that is not the smallest. -/
theorem junction_before_same {inputs pushs spy} {t1 t2 : List Ev} {ev : Ev} {e e' : End} {d : Bytes} (hd : DistinctInputs inputs) (hs : AllSenders pushs)
    (h : LoopPartial (junctionBody pushs spy) (junctionInit inputs) (t1 ++ ev :: t2)) (he : act ev = .got e d) {p q r : Pull} {n m : Int}
    (hqp : [(q, n), (p, n)].Sublist inputs) (hpe : p.source = some e) (hqe : q.source = some e') (hr : (r, m) ∈ inputs) (hmn : m < n) :
    (∃ u ev' v, t1 = u ++ ev' :: v ∧ act ev' = .empty e' ∧ ∀ x ∈ v, ∃ e'', act x = .empty e'') ∨ Act.ended e' ∈ acts t1 ∨ AllGone pushs e' t1 := by
  obtain ⟨s', r1, r2, g1, g2, g3⟩ := h
  obtain ⟨s1, u1, u2, u3, k1, k2, rfl⟩ := g1.at g2 g3
  have hgot : acts (u2 ++ ev :: u3) = acts u2 ++ Act.got e d :: acts u3 := by simp [acts, he]
  have hlook := only_looked hd hs k1 k2 hgot (hqp.subset (by simp)) hpe hr hmn
  rcases C12_refuted_earlier_starves_later hd hs hqp hr hmn hpe hqe k1 k2 hgot with h5 | h5 | h5
  · left
    obtain ⟨ev', h6, h7⟩ := List.mem_map.mp h5
    obtain ⟨a, b, rfl⟩ := List.append_of_mem h6
    refine ⟨u1 ++ a, ev', b, by simp, h7, fun x hx => ?_⟩
    exact hlook (act x) (List.mem_map.mpr ⟨x, by simp [hx], rfl⟩)
  · exact Or.inr (Or.inl (by simp [h5]))
  · exact Or.inr (Or.inr (by simpa using h5.mono [] u2))

/-- Whole rounds and what is left of one. -/
theorem LoopRounds.cut {σ ρ : Type} {body : σ → Prog (σ ⊕ ρ)} {s s' : σ} {t P1 P2 : List Ev} (h : LoopRounds body s t s') (e : t = P1 ++ P2) :
    ∃ s0 sm r u x y, LoopRounds body s r s0 ∧ LoopRounds body sm y s' ∧ P1 = r ++ u ∧ P2 = x ++ y ∧
      ((u = [] ∧ x = [] ∧ sm = s0) ∨ (body s0).Runs (u ++ x) (.inl sm)) := by
  induction h generalizing P1 with
  | nil =>
    obtain ⟨rfl, rfl⟩ := List.append_eq_nil_iff.mp e.symm
    exact ⟨_, _, [], [], [], [], .nil, .nil, rfl, rfl, Or.inl ⟨rfl, rfl, rfl⟩⟩
  | @next s s1 s2 ta tb hb hrest ih =>
    rw [List.append_eq_append_iff] at e
    rcases e with ⟨a', rfl, e2⟩ | ⟨c', rfl, rfl⟩
    · obtain ⟨s0, sm, r, u, x, y, k1, k2, rfl, rfl, k5⟩ := ih e2
      exact ⟨s0, sm, ta ++ r, u, x, y, .next hb k1, k2, by simp, rfl, k5⟩
    · exact ⟨_, _, [], P1, c', tb, .nil, hrest, rfl, rfl, Or.inr hb⟩

theorem receivedFrom_asked (e : End) (tr : List Ev) : (receivedFrom e tr).length ≤ ((acts tr).filterMap asked).count e := by
  induction tr with
  | nil => simp [receivedFrom]
  | cons x tr ih =>
    unfold receivedFrom at ih ⊢
    simp only [acts, List.map_cons, List.filterMap_cons] at ih ⊢
    cases ha : act x with
    | got s d =>
      by_cases hc : s = e
      · subst hc
        simpa [asked] using ih
      · simp only [asked, hc, if_false, List.count_cons]
        omega
    | ended s => simp only [asked, List.count_cons]; omega
    | empty s => simp only [asked, List.count_cons]; omega
    | _ => simpa [asked] using ih

/-- In one round at most one message is taken from an input. -/
theorem once_in_round {inputs pushs spy tr1 tr2 s} (hd : DistinctInputs inputs) (hs : AllSenders pushs)
    (h1 : LoopRounds (junctionBody pushs spy) (junctionInit inputs) tr1 s) (h2 : (junctionBody pushs spy s).Partial tr2) (e : End) : (receivedFrom e tr2).length ≤ 1 :=
  Nat.le_trans (receivedFrom_asked e tr2) (List.nodup_iff_count.mp (C10_once_per_pass hd hs h1 h2) e)

/-- In whole rounds, an input of the smallest number that always has something is served at least as often as any other. -/
theorem rounds_share {inputs pushs spy t0 s y s'} (hd : DistinctInputs inputs) (hs : AllSenders pushs)
    (h0 : LoopRounds (junctionBody pushs spy) (junctionInit inputs) t0 s) (h : LoopRounds (junctionBody pushs spy) s y s')
    {q : Pull} {n : Int} {e' : End} (hq : (q, n) ∈ inputs) (hqe : q.source = some e') (hmin : ∀ x ∈ inputs, n ≤ x.2)
    (hb : Act.empty e' ∉ acts y) (he : Act.ended e' ∉ acts (t0 ++ y)) (hg : ¬ AllGone pushs e' (t0 ++ y)) (e : End) :
    (receivedFrom e y).length ≤ (receivedFrom e' y).length := by
  induction h generalizing t0 with
  | nil => simp [receivedFrom]
  | @next s s1 s2 ta tb hr hrest ih =>
    have k1 := ih (t0 := t0 ++ ta) (h0.snoc hr) (by simp at hb; exact hb.2) (by simpa using he) (by simpa using hg)
    have k2 := once_in_round hd hs h0 (Prog.runs_partial hr) e
    have k3 : 1 ≤ (receivedFrom e' ta).length := by
      obtain ⟨e1, h3, h4⟩ := C12_smallest_priority_together_partial hd hs h0 hr (by simp) q n hq hmin
      rw [hqe] at h3
      cases h3
      simp only [acts_append, List.mem_append, not_or] at he hb
      rcases h4 with h4 | h4 | h4 | h4 | ⟨d, h4⟩
      · exact absurd h4 he.1
      · exact absurd (by simpa using h4.mono [] (ta ++ tb)) hg
      · exact absurd h4 hb.1
      · exact absurd h4 he.2.1
      · refine List.length_pos_iff.mpr (List.ne_nil_of_mem (a := d) ?_)
        unfold receivedFrom
        exact List.mem_filterMap.mpr ⟨_, h4, by simp⟩
    rw [receivedFrom_append, receivedFrom_append, List.length_append, List.length_append]
    omega

/-- At any times: from no input more than two messages more are taken than from one of the smallest number that always has something. -/
theorem junction_shares {inputs pushs spy} {P1 P2 : List Ev} (hd : DistinctInputs inputs) (hs : AllSenders pushs)
    (h : LoopPartial (junctionBody pushs spy) (junctionInit inputs) (P1 ++ P2))
    {q : Pull} {n : Int} {e' : End} (hq : (q, n) ∈ inputs) (hqe : q.source = some e') (hmin : ∀ x ∈ inputs, n ≤ x.2)
    (hb : Act.empty e' ∉ acts P2) (he : Act.ended e' ∉ acts (P1 ++ P2)) (hg : ¬ AllGone pushs e' (P1 ++ P2)) (e : End) :
    (receivedFrom e P2).length ≤ (receivedFrom e' P2).length + 2 := by
  obtain ⟨s', t1, t2, g1, g2, g3⟩ := h
  rw [List.append_eq_append_iff] at g3
  rcases g3 with ⟨a', rfl, rfl⟩ | ⟨c', rfl, rfl⟩
  · obtain ⟨s0, sm, r, u, x, y, k1, k2, rfl, rfl, k5⟩ := g1.cut rfl
    have l3 := once_in_round hd hs g1 g2 e
    have hrsm : LoopRounds (junctionBody pushs spy) (junctionInit inputs) ((r ++ u) ++ x) sm := by
      rcases k5 with ⟨rfl, rfl, rfl⟩ | k5
      · simpa using k1
      · rw [List.append_assoc]; exact k1.snoc k5
    have l2 := rounds_share hd hs hrsm k2 hq hqe hmin (by simp at hb; exact hb.2.1) (by simp at he ⊢; exact ⟨he.1, he.2.1, he.2.2.1, he.2.2.2.1⟩)
      (fun h => hg (by simpa using h.mono [] t2)) e
    have l1 : (receivedFrom e x).length ≤ 1 := by
      rcases k5 with ⟨rfl, rfl, rfl⟩ | k5
      · simp [receivedFrom]
      · have := once_in_round hd hs k1 (Prog.runs_partial k5) e
        rw [receivedFrom_append, List.length_append] at this
        omega
    simp only [receivedFrom_append, List.length_append]
    omega
  · have := once_in_round hd hs g1 g2 e
    rw [receivedFrom_append, List.length_append] at this
    omega

end Verif
