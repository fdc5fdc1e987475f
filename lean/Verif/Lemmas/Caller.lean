import Verif.Lemmas.Pause
import Verif.Spec.Control
namespace Verif

def lastCall (h : Control) : Call := if h.paused then .pause else .resume

theorem call_runs {h h' : Control} {x : Call} {tr : List Ev} {b : Bool} (hr : (h.call x).Runs tr (h', b)) :
    h' = ⟨decide (x = .pause), h.chan⟩ ∧
    ((x = lastCall h ∧ tr = [] ∧ b = false) ∨ (x ≠ lastCall h ∧ tr = [⟨.send .ctl h.chan (), b⟩])) := by
  obtain ⟨p, c⟩ := h
  cases x <;> cases p <;> simp [Control.call, Control.pause, Control.resume, lastCall] at hr ⊢
  · rw [Prog.runs_bind] at hr
    obtain ⟨t1, a, t2, rfl, h1, h2⟩ := hr
    rw [Prog.runs_req] at h1
    simp at h2
    obtain ⟨rfl, rfl, rfl⟩ := h2
    simp [h1]
  · exact ⟨hr.2.1, hr.1, hr.2.2⟩
  · exact ⟨hr.2.1, hr.1, hr.2.2⟩
  · rw [Prog.runs_bind] at hr
    obtain ⟨t1, a, t2, rfl, h1, h2⟩ := hr
    rw [Prog.runs_req] at h1
    simp at h2
    obtain ⟨rfl, rfl, rfl⟩ := h2
    simp [h1]

theorem calls_runs {h h' : Control} {xs : List Call} {tr : List Ev} {bs : List Bool} (hr : (h.calls xs).Runs tr (h', bs)) :
    h'.chan = h.chan ∧ lastCall h' = (lastCall h :: xs).getLast (by simp) ∧
    ∃ outs, tr = outs.map (fun b => (⟨.send .ctl h.chan (), b⟩ : Ev)) ∧
      outs.length = (effective (lastCall h) xs).length ∧ bs = returned (lastCall h) xs outs := by
  induction xs generalizing h tr bs with
  | nil =>
    simp [Control.calls] at hr
    obtain ⟨rfl, rfl, rfl⟩ := hr
    exact ⟨rfl, rfl, [], rfl, rfl, rfl⟩
  | cons x xs ih =>
    simp only [Control.calls] at hr
    rw [Prog.runs_bind] at hr
    obtain ⟨t1, ⟨h1, b⟩, t2, rfl, hc, h2⟩ := hr
    simp only [] at h2
    rw [Prog.runs_bind] at h2
    obtain ⟨t3, ⟨h2', bs'⟩, t4, rfl, hcs, h3⟩ := h2
    simp at h3
    obtain ⟨rfl, rfl, rfl⟩ := h3
    obtain ⟨i1, i2, outs, i3, i4, i5⟩ := ih hcs
    obtain ⟨rfl, hx⟩ := call_runs hc
    have hl : lastCall ⟨decide (x = .pause), h.chan⟩ = x := by cases x <;> simp [lastCall]
    rw [hl] at i2 i4 i5
    simp only [] at i1 i3
    refine ⟨i1, ?_, ?_⟩
    · rw [i2]; simp
    · rcases hx with ⟨hx, rfl, rfl⟩ | ⟨hx, rfl⟩
      · refine ⟨outs, by simp [i3], ?_, ?_⟩
        · rw [← hx]; simp [effective, i4]
        · rw [← hx]; simp [returned, i5]
      · refine ⟨b :: outs, by simp [i3], ?_, ?_⟩
        · simp only [effective, if_neg hx, List.length_cons, i4]
        · simp only [returned, if_neg hx, i5, List.headD_cons, List.tail_cons]

/-- Rounds of a holder of the handle. -/
theorem caller_rounds {c calls tr} {h h0 : Control} {rest : List Call}
    (hr : LoopRounds (callerTask c calls).body (h0, calls) tr (h, rest)) :
    h.chan = h0.chan ∧ ∃ outs : List Bool, tr = outs.map (fun b => (⟨.send .ctl h0.chan (), b⟩ : Ev)) ∧
      (outs.length + h0.paused.toNat) % 2 = h.paused.toNat := by
  generalize hs : (h0, calls) = s at hr
  generalize hs' : (h, rest) = s' at hr
  have key : ∀ {s : Control × List Call} {tr s'}, LoopRounds (callerTask c calls).body s tr s' →
      s'.1.chan = s.1.chan ∧ ∃ outs : List Bool, tr = outs.map (fun b => (⟨.send .ctl s.1.chan (), b⟩ : Ev)) ∧
      (outs.length + s.1.paused.toNat) % 2 = s'.1.paused.toNat := by
    intro s tr s' hr
    induction hr with
    | @nil s => refine ⟨rfl, [], rfl, ?_⟩; cases s.1.paused <;> rfl
    | @next s s1 s2 t1 t2 hb _ ih =>
      obtain ⟨h, xs⟩ := s
      cases xs with
      | nil => obtain ⟨_, h⟩ := hb; simp at h
      | cons x xs =>
        replace hb : (do let (h, _) ← h.call x; pure (.inl (h, xs)) : Prog ((Control × List Call) ⊕ Unit)).Runs t1 (.inl s1) := hb
        rw [Prog.runs_bind] at hb
        obtain ⟨t3, ⟨h1, b⟩, t4, rfl, hc, h2⟩ := hb
        simp at h2
        obtain ⟨rfl, rfl⟩ := h2
        obtain ⟨i1, outs, i2, i3⟩ := ih
        obtain ⟨rfl, hx⟩ := call_runs hc
        simp only [] at i1 i2 i3
        refine ⟨i1, ?_⟩
        rcases hx with ⟨hx, rfl, rfl⟩ | ⟨hx, rfl⟩
        · refine ⟨outs, by simp [i2], ?_⟩
          rw [← i3]
          obtain ⟨p, c⟩ := h
          cases x <;> cases p <;> simp [lastCall] at hx ⊢
        · refine ⟨b :: outs, by simp [i2], ?_⟩
          rw [← i3]
          obtain ⟨p, c⟩ := h
          cases x <;> cases p <;> simp [lastCall] at hx ⊢ <;> omega
  have := key hr
  subst hs; subst hs'
  exact this

end Verif
