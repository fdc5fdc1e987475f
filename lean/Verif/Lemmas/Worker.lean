import Verif.Lemmas.Motion
namespace Verif

/-- Targets of a list of outputs, with the message. -/
def targets (ps : List Push) (d : Bytes) : List (End × Bytes) :=
  (ps.filterMap Push.target).map fun t => (t, d)

/-- Fatal outcomes: closed under variation T, or any other error. -/
def fatal (x : Push × WOut) : Prop :=
  (∃ why, x.2 = .closed why ∧ x.1.breakable = .terminate) ∨ ∃ e, x.2 = .other e

theorem offers_of_acts {tr : List Ev} {t d w} (h : acts tr = [.offer t d w]) : offers tr = [⟨t, d, w⟩] := by
  simp [offers, h]

theorem offers_of_spy {tr : List Ev} {c m b} (h : acts tr = [.spy c m b]) : offers tr = [] := by
  simp [offers, h]

theorem offers_spyOne {spy x p t r} (h : MRuns (spyOne spy x p) t r) : offers t = [] := by
  rcases spyOne_runs h with ⟨_, rfl, _⟩ | ⟨_, w, _, _, _, h, _⟩
  · rfl
  · exact offers_of_spy h

theorem target_none {p : Push} : p.target = none ↔ p = .none := by cases p <;> simp [Push.target]

theorem outcomes_cons_of_target {p : Push} {t : End} (h : p.target = some t) (ps : List Push) (w : WOut) (ws : List WOut) :
    outcomes (p :: ps) (w :: ws) = (p, w) :: outcomes ps ws := by
  cases p <;> simp [Push.target] at h <;> rfl

theorem outcomes_nil_mem {ps : List Push} {x : Push × WOut} (h : x ∈ outcomes ps []) : x = (.none, .ok) := by
  induction ps with
  | nil => simp [outcomes] at h
  | cons p ps ih =>
    cases p with
    | none => simp [outcomes] at h; rcases h with h | h
              · exact h
              · exact ih h
    | sender => simp [outcomes] at h
    | io => simp [outcomes] at h

def isFC (x : Push × WOut) : Bool :=
  match x.2 with
  | .closed _ => x.1.breakable == .finish
  | _ => false

theorem afterOutcome_ok {p : Push} {d : Bytes} {w : WOut} {n m : Nat} (hp : p.possible w)
    (h : afterOutcome p d w n = .ok m) :
    ¬ fatal (p, w) ∧ m = (if isFC (p, w) then n - 1 else n) := by
  by_cases hw : w = .ok
  · subst hw; simp [afterOutcome] at h; simp [fatal, isFC, h]
  · obtain ⟨j, hj, h5⟩ := possible_writeErr (d := d) hp hw
    rcases h5 with ⟨why, rfl, h5⟩ | ⟨e, rfl, h5⟩
    · cases hb : p.breakable <;> simp [afterOutcome, hb, h5] at h <;> simp [fatal, isFC, hb, h]
    · simp [afterOutcome, h5] at h

theorem afterOutcome_error {p : Push} {d : Bytes} {w : WOut} {n : Nat} {e : MErr} (hp : p.possible w)
    (h : afterOutcome p d w n = .error e) :
    ∃ j, p.journey = some j ∧
      ((∃ why, w = .closed why ∧ p.breakable = .terminate ∧ e = .outputClosed j why d) ∨
       (∃ c, w = .other c ∧ e = .writeIO j c d)) := by
  by_cases hw : w = .ok
  · subst hw; simp [afterOutcome] at h
  · obtain ⟨j, hj, h5⟩ := possible_writeErr (d := d) hp hw
    refine ⟨j, hj, ?_⟩
    rcases h5 with ⟨why, rfl, h5⟩ | ⟨c, rfl, h5⟩
    · cases hb : p.breakable <;> simp [afterOutcome, hb, h5] at h
      left; exact ⟨why, rfl, rfl, h.symm⟩
    · simp [afterOutcome, h5] at h
      right; exact ⟨c, rfl, h.symm⟩

/-- Why a pass over the outputs failed. -/
inductive PassFailed (d : Bytes) (L : List (Push × WOut)) (O : List Offer) (x : IOW) : MErr → Prop
  | closed {p j why t O'} : (p, .closed why) ∈ L → p.breakable = .terminate → p.journey = some j →
      p.target = some t → O = O' ++ [⟨t, d, .closed why⟩] → (∀ y ∈ L, fatal y → y = (p, .closed why)) → PassFailed d L O x (.outputClosed j why d)
  | other {p j e t O'} : (p, .other e) ∈ L → p.journey = some j →
      p.target = some t → O = O' ++ [⟨t, d, .other e⟩] → (∀ y ∈ L, fatal y → y = (p, .other e)) → PassFailed d L O x (.writeIO j e d)
  | spy {p m} : spyRecord x p = some m → (∀ y ∈ L, ¬ fatal y) → PassFailed d L O x (.spyWrite m)

theorem pushAll_data {d : Bytes} {spy : Option Nat} {ps : List Push} {n : Nat} {tr : List Ev}
    {r : Except MErr Nat} (hn : ps.length ≤ n) (h : MRuns (pushAll (.data d) spy ps n) tr r) :
    match (generalizing := false) r with
    | .ok m => (offers tr).map (fun o => (o.to, o.d)) = targets ps d ∧
        (outcomes ps ((offers tr).map Offer.w)).length = ps.length ∧
        (∀ y ∈ outcomes ps ((offers tr).map Offer.w), ¬ fatal y) ∧
        m + (outcomes ps ((offers tr).map Offer.w)).countP isFC = n ∧
        spied tr = if spy.isSome then ps.filterMap (spyRecord (.data d)) else []
    | .error e => (offers tr).map (fun o => (o.to, o.d)) <+: targets ps d ∧
        PassFailed d (outcomes ps ((offers tr).map Offer.w)) (offers tr) (.data d) e ∧
        spied tr <+: if spy.isSome then ps.filterMap (spyRecord (.data d)) else [] := by
  induction ps generalizing n tr r with
  | nil =>
    simp [pushAll] at h
    obtain ⟨rfl, rfl⟩ := h
    simp [offers, targets, outcomes, spied]
  | cons p ps ih =>
    have hsp : ∀ {t r}, MRuns (writeOne (.data d) p n) t r → spied t = [] := by
      intro t r h
      rcases writeOne_runs h with ⟨_, rfl, _⟩ | ⟨_, w, _, _, h, _⟩
      · rfl
      · simp [spied, h]
    rcases pushAll_cons h with ⟨e, rfl, hw⟩ | ⟨n', t1, t2, rfl, h1, h2⟩
    · -- the write failed
      simp only [hsp hw, List.nil_prefix, and_true]
      rcases writeOne_runs hw with ⟨_, _, h0⟩ | ⟨t, w, ht, hp, ha, hr⟩
      · simp at h0
      · have ho := offers_of_acts ha
        rw [ho]
        refine ⟨by simp [targets, ht], ?_⟩
        simp only [List.map_cons, List.map_nil]
        rw [outcomes_cons_of_target ht]
        obtain ⟨j, hj, hc⟩ := afterOutcome_error hp hr.symm
        have huniq : ∀ y ∈ (p, w) :: outcomes ps [], fatal y → y = (p, w) := by
          intro y hy hf
          simp at hy
          rcases hy with rfl | hy
          · rfl
          · rw [outcomes_nil_mem hy] at hf; simp [fatal] at hf
        rcases hc with ⟨why, rfl, hb, rfl⟩ | ⟨c, rfl, rfl⟩
        · exact .closed (p := p) (O' := []) (by simp) hb hj ht rfl huniq
        · exact .other (p := p) (O' := []) (by simp) hj ht rfl huniq
    · -- the write went through
      have hfirst : ∀ ws, (offers t1).map (fun o => (o.to, o.d)) = (p.target.toList.map fun t => (t, d)) ∧
          ∃ w1, outcomes (p :: ps) ((offers t1).map Offer.w ++ ws) = (p, w1) :: outcomes ps ws ∧
            ¬ fatal (p, w1) ∧ n' + (if isFC (p, w1) then 1 else 0) = n := by
        intro ws
        rcases writeOne_runs h1 with ⟨rfl, rfl, h0⟩ | ⟨t, w, ht, hp, ha, hr⟩
        · simp at h0; subst h0
          refine ⟨by simp [offers, Push.target], .ok, by simp [offers, outcomes], by simp [fatal], by simp [isFC]⟩
        · have ho := offers_of_acts ha
          obtain ⟨hf, hm⟩ := afterOutcome_ok hp hr.symm
          refine ⟨by simp [ho, ht], w, ?_, hf, ?_⟩
          · rw [ho]; simp only [List.map_cons, List.map_nil, List.cons_append, List.nil_append]
            rw [outcomes_cons_of_target ht]
          · subst hm
            simp at hn
            cases w with
            | ok => simp [isFC]
            | other e => simp [fatal] at hf
            | closed why =>
              cases hb : p.breakable <;> simp [isFC, hb]
              omega
      have htg : targets (p :: ps) d = (p.target.toList.map fun t => (t, d)) ++ targets ps d := by
        cases hh : p.target <;> simp [targets, hh]
      rcases h2 with ⟨e, rfl, hq⟩ | ⟨t3, t4, rfl, h3, h4⟩
      · -- the spy failed
        obtain ⟨hf1, w1, hf2, hf3, hf4⟩ := hfirst []
        simp only [offers_append, offers_spyOne hq, List.append_nil, spied_append, hsp h1, List.nil_append] at hf2 ⊢
        rw [hf1, hf2, htg]
        rcases spyOne_runs hq with ⟨_, _, h0⟩ | ⟨c, m, b, hs, hm, ha, hr⟩
        · simp at h0
        · cases b <;> simp at hr
          subst hr
          refine ⟨by simp, .spy hm ?_, ?_⟩
          · intro y hy
            simp at hy
            rcases hy with rfl | hy
            · exact hf3
            · rw [outcomes_nil_mem hy]; simp [fatal]
          · simp [spied, ha, hs, hm]
      · obtain ⟨hf1, w1, hf2, hf3, hf4⟩ := hfirst ((offers t4).map Offer.w)
        have hn' : ps.length ≤ n' := by
          simp at hn; split at hf4 <;> omega
        have := ih hn' h4
        have hs3 : spied t3 = if spy.isSome then (spyRecord (.data d) p).toList else [] := by
          rcases spyOne_runs h3 with ⟨hh, rfl, _⟩ | ⟨c, m, b, hs, hm, ha, hr⟩
          · rcases hh with hh | hh <;> simp [hh, spied]
          · simp [spied, ha, hs, hm]
        have hsl : (if spy.isSome then (p :: ps).filterMap (spyRecord (.data d)) else []) =
            spied t3 ++ (if spy.isSome then ps.filterMap (spyRecord (.data d)) else []) := by
          rw [hs3]
          cases spy <;> cases hh : spyRecord (.data d) p <;> simp [hh]
        simp only [offers_append, offers_spyOne h3, List.nil_append, List.map_append, spied_append, hsp h1]
        rw [hf2, hf1, htg, hsl]
        cases r with
        | ok m =>
          simp only at this ⊢
          obtain ⟨i1, i2, i3, i4, i5⟩ := this
          refine ⟨by rw [i1], by simp [i2], ?_, ?_, by rw [i5]⟩
          · intro y hy
            simp at hy
            rcases hy with rfl | hy
            · exact hf3
            · exact i3 y hy
          · rw [List.countP_cons]; omega
        | error e =>
          simp only at this ⊢
          obtain ⟨i1, i2, i3⟩ := this
          refine ⟨?_, ?_, ?_⟩
          · exact (List.prefix_append_right_inj _).mpr i1
          · have huniq : ∀ {z}, (∀ y ∈ outcomes ps ((offers t4).map Offer.w), fatal y → y = z) →
                ∀ y ∈ (p, w1) :: outcomes ps ((offers t4).map Offer.w), fatal y → y = z := by
              intro z hz y hy hf
              simp at hy
              rcases hy with rfl | hy
              · exact absurd hf hf3
              · exact hz y (by simpa using hy) hf
            cases i2 with
            | closed a b c t o u => exact .closed (by simp [a]) b c t (by rw [o, ← List.append_assoc]) (huniq u)
            | other a b t o u => exact .other (by simp [a]) b t (by rw [o, ← List.append_assoc]) (huniq u)
            | spy a b =>
              refine .spy a ?_
              intro y hy
              simp at hy
              rcases hy with rfl | hy
              · exact hf3
              · exact b y hy
          · exact (List.prefix_append_right_inj _).mpr i3

theorem pushAll_nodata {x : IOW} (hx : ∀ d, x ≠ .data d) {spy : Option Nat} {ps : List Push} {n : Nat} {tr : List Ev}
    {r : Except MErr Nat} (h : MRuns (pushAll x spy ps n) tr r) :
    offers tr = [] ∧
    match (generalizing := false) r with
    | .ok m => m = n ∧ spied tr = if spy.isSome then ps.filterMap (spyRecord x) else []
    | .error e => ∃ m, e = .spyWrite m := by
  induction ps generalizing n tr r with
  | nil => simp [pushAll] at h; obtain ⟨rfl, rfl⟩ := h; simp [offers, spied]
  | cons p ps ih =>
    rcases pushAll_cons h with ⟨e, rfl, hw⟩ | ⟨n', t1, t2, rfl, h1, h2⟩
    · have := (writeOne_runs_nodata hx hw).2; simp at this
    · obtain ⟨rfl, hr⟩ := writeOne_runs_nodata hx h1
      simp at hr; subst hr
      rcases h2 with ⟨e, rfl, hq⟩ | ⟨t3, t4, rfl, h3, h4⟩
      · refine ⟨by simp [offers_spyOne hq], ?_⟩
        rcases spyOne_runs hq with ⟨_, _, h0⟩ | ⟨c, m, b, hs, hm, ha, hr⟩
        · simp at h0
        · cases b <;> simp at hr
          exact ⟨m, hr⟩
      · obtain ⟨i1, i2⟩ := ih h4
        refine ⟨by simp [offers_spyOne h3, i1], ?_⟩
        cases r with
        | error e => exact i2
        | ok m =>
          simp only at i2 ⊢
          obtain ⟨rfl, i2⟩ := i2
          refine ⟨rfl, ?_⟩
          simp only [List.nil_append, spied_append, i2]
          rcases spyOne_runs h3 with ⟨hh, rfl, _⟩ | ⟨c, m, b, hs, hm, ha, hr⟩
          · rcases hh with hh | hh <;> simp [hh, spied]
          · simp [spied, ha, hs, hm]

/-- Inversion of a run of `motionWorker`. -/
theorem motionWorker_inv {pull mon pushs spy doTry tr} {r : Except MErr WorkerResult}
    (h : MRuns (motionWorker pull mon pushs spy doTry) tr r) :
    (∃ e, r = .error e ∧ MRuns (motionRead pull doTry) tr (.error e)) ∨
    (MRuns (motionRead pull doTry) tr (.ok .skipped) ∧ r = .ok ⟨false, false⟩) ∨
    ∃ x t1 t2, tr = t1 ++ t2 ∧ x ≠ .skipped ∧ MRuns (motionRead pull doTry) t1 (.ok x) ∧
      ((∃ e, r = .error e ∧ MRuns (notifyRead mon pull) t2 (.error e)) ∨
       ∃ t3 t4, t2 = t3 ++ t4 ∧ MRuns (notifyRead mon pull) t3 (.ok ()) ∧
        ((∃ e, r = .error e ∧ MRuns (pushAll x spy pushs pushs.length) t4 (.error e)) ∨
         ∃ m t5 t6, t4 = t5 ++ t6 ∧ MRuns (pushAll x spy pushs pushs.length) t5 (.ok m) ∧
          ((∃ e, r = .error e ∧ MRuns (notifyWritten mon pull) t6 (.error e)) ∨
           (MRuns (notifyWritten mon pull) t6 (.ok ()) ∧
            r = .ok ⟨decide (m = 0) || decide (x = .finished), true⟩)))) := by
  unfold motionWorker at h
  rw [mruns_bind] at h
  rcases h with ⟨e, h1, h2⟩ | ⟨t1, x, t2, rfl, h1, h2⟩
  · exact Or.inl ⟨e, h1, h2⟩
  · right
    split at h2
    · rename_i hx
      subst hx
      simp at h2
      obtain ⟨rfl, rfl⟩ := h2
      left; exact ⟨by rw [List.append_nil]; exact h1, rfl⟩
    · rename_i hx
      right
      refine ⟨x, t1, t2, rfl, hx, h1, ?_⟩
      rw [mruns_bind] at h2
      rcases h2 with ⟨e, h3, h4⟩ | ⟨t3, _, t4, rfl, h3, h4⟩
      · exact Or.inl ⟨e, h3, h4⟩
      · right
        refine ⟨t3, t4, rfl, h3, ?_⟩
        simp only at h4
        rw [mruns_bind] at h4
        rcases h4 with ⟨e, h5, h6⟩ | ⟨t5, m, t6, rfl, h5, h6⟩
        · exact Or.inl ⟨e, h5, h6⟩
        · right
          refine ⟨m, t5, t6, rfl, h5, ?_⟩
          rw [mruns_bind] at h6
          rcases h6 with ⟨e, h7, h8⟩ | ⟨t7, _, t8, rfl, h7, h8⟩
          · exact Or.inl ⟨e, h7, h8⟩
          · right
            by_cases hm : m = 0
            · simp [hm] at h8; obtain ⟨rfl, rfl⟩ := h8
              exact ⟨by rw [List.append_nil]; exact h7, by simp [hm]⟩
            · simp [hm] at h8; obtain ⟨rfl, rfl⟩ := h8
              exact ⟨by rw [List.append_nil]; exact h7, by simp [hm]⟩

end Verif
