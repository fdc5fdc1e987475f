import Verif.Lemmas.Climb
import Verif.Props.Flow
/-!
# How much a manager lets a buffer report
-/
namespace Verif

/-- The last one there is. -/
theorem last_split {α : Type} (p : α → Bool) {l : List α} (h : l.countP p ≠ 0) : ∃ u e v, l = u ++ e :: v ∧ p e = true ∧ v.countP p = 0 := by
  induction l with
  | nil => simp at h
  | cons x l ih =>
    by_cases hl : l.countP p = 0
    · refine ⟨[], x, l, rfl, ?_, hl⟩
      rw [List.countP_cons, hl] at h
      by_cases hx : p x = true
      · exact hx
      · simp [hx] at h
    · obtain ⟨u, e, v, rfl, h1, h2⟩ := ih hl
      exact ⟨x :: u, e, v, rfl, h1, h2⟩

section
variable {low high ctl : Nat} {chans : List Nat} {tr : List Ev} {x : Nat}

/-- In a round, each buffer is looked at once. -/
theorem look_once {i : Nat} {ms : List Monitor} {t : List Ev} {l : Look} (h : (look i ms).Runs t l) (hn : (ms.map Monitor.chan).Nodup) :
    (gotOn .size x t).length ≤ 1 ∧ (x ∉ ms.map Monitor.chan → gotOn .size x t = []) := by
  induction ms generalizing i t l with
  | nil =>
    simp [look] at h
    obtain ⟨rfl, rfl⟩ := h
    simp
  | cons m ms ih =>
    simp only [look] at h
    rw [Prog.runs_bind] at h
    obtain ⟨t1, r, t2, rfl, h1, h2⟩ := h
    rw [Prog.runs_req] at h1
    subst h1
    simp only [List.map_cons, List.nodup_cons] at hn
    obtain ⟨hm, hn⟩ := hn
    have rest : ∃ l', (look (i + 1) ms).Runs t2 l' := by
      cases r <;>
      · simp only [] at h2
        rw [Prog.runs_bind] at h2
        obtain ⟨t3, l', t4, rfl, hl, h3⟩ := h2
        simp at h3
        obtain ⟨rfl, rfl⟩ := h3
        rw [List.append_nil]
        exact ⟨_, hl⟩
    obtain ⟨l', hl⟩ := rest
    obtain ⟨i1, i2⟩ := ih hl hn
    rw [gotOn_append]
    by_cases hx : m.chan = x
    · subst hx
      rw [i2 hm]
      refine ⟨?_, fun h => absurd (by simp) h⟩
      rw [List.append_nil]
      exact List.length_filterMap_le _ _
    · have : gotOn .size x [(⟨.tryRecv .size m.chan, r⟩ : Ev)] = [] := by cases r <;> simp [gotOn, gotOf, hx]
      rw [this, List.nil_append]
      refine ⟨i1, fun h => i2 ?_⟩
      simp only [List.map_cons, List.mem_cons, not_or] at h
      exact h.2

/-- What a round consists of: a look at the buffers, and what touches them no more. -/
theorem round_shape {s : Manager} {u t : List Ev} {y : Manager ⊕ Nat} (h : (managerBody low high s).Runs t y) (hi : MInv ctl chans u s) (hn : chans.Nodup) :
    ∃ tl v, t = tl ++ v ∧ (∀ e ∈ tl, ∃ c' r, e = ⟨.tryRecv .size c', r⟩) ∧ (gotOn .size x tl).length ≤ 1 ∧ ∀ e ∈ v, ∀ c', e.q.on ≠ some (.size, c') := by
  obtain ⟨tl, tp, tr, ts, l, rfl, hp⟩ := managerBody_inv h hi.shut
  have hchans : s.monitors.map Monitor.chan = chans.filter fun c => !ended c u := by
    rw [hi.monitors, List.map_map]
    have : (Monitor.chan ∘ fun c => (⟨reported c u, c⟩ : Monitor)) = id := rfl
    rw [this, List.map_id]
  have hn' : (s.monitors.map Monitor.chan).Nodup := by rw [hchans]; exact hn.filter _
  have lk := looked (u := u) hp.look (by
    intro m hm
    rw [hi.monitors] at hm
    simp at hm
    obtain ⟨c', ⟨_, h2⟩, rfl⟩ := hm
    exact ⟨h2, rfl⟩) hn'
  refine ⟨tl, _, rfl, ?_, (look_once hp.look hn').1, ?_⟩
  · intro e he; obtain ⟨m, _, r, rfl⟩ := lk.looks e he; exact ⟨_, r, rfl⟩
  · intro e he c'
    simp only [List.mem_append] at he
    rcases he with he | he | he
    · have := hp.pause
      split at this
      · obtain ⟨b, rfl⟩ := this; simp at he; subst he; simp [Req.on]
      · subst this; simp at he
    · have := hp.resume
      split at this
      · obtain ⟨b, rfl⟩ := this; simp at he; subst he; simp [Req.on]
      · subst this; simp at he
    · rcases hp.rest with rfl | ⟨ms, rfl⟩
      · simp at he
      · simp at he; subst he; simp [Req.on]

theorem holds_le {chans : List Nat} {x : Nat} {u : List Ev} (hx : x ∈ chans) (he : ended x u = false) : reported x u ≤ occupancy chans u := by
  have : holds x u = reported x u := by simp [holds, he]
  rw [← this]
  unfold occupancy
  induction chans with
  | nil => cases hx
  | cons y l ih =>
    rw [List.map_cons, List.sum_cons]
    rcases List.mem_cons.mp hx with rfl | hx
    · omega
    · have := ih hx; omega

/-- As long as it does not pause the regulator, no buffer has reported to a manager more than the high watermark, or one above the low one. -/
theorem manager_low (h : (managerTask low high ctl chans).Partial tr) (hn : chans.Nodup) (hx : x ∈ chans) (he : ended x tr = false)
    (heven : requests ctl tr % 2 = 0) (hcl : Climb 0 (gotOn .size x tr)) : reported x tr ≤ max high (low + 1) := by
  have hP := h
  rcases h with ⟨s, t1, t2, h1, h2, rfl⟩ | ⟨r, t1, t2, h1, h2, rfl⟩
  · obtain ⟨_, i2, i3⟩ := rounds_ok h1 (minv_init ctl chans) hn
    simp only [List.nil_append] at i2 i3
    obtain ⟨t3, y, h3⟩ := h2.extend
    obtain ⟨tl, v, hv, k1, k2, k3⟩ := round_shape (x := x) h3 i2 hn
    have once : (gotOn .size x t2).length ≤ 1 := by
      have e1 : gotOn .size x (t2 ++ t3) = gotOn .size x tl := by
        rw [hv]
        apply gotOn_append_of_none
        intro e he
        cases hg : gotOf .size x e with
        | none => rfl
        | some v => exact absurd (on_of_got hg) (k3 e he x)
      have e2 := congrArg List.length e1
      rw [gotOn_append, List.length_append] at e2
      omega
    have he1 : ended x t1 = false := by
      rw [ended_append] at he
      simp at he; exact he.1
    by_cases hz : requests ctl t2 = 0
    · rw [requests_append, hz, Nat.add_zero] at heven
      have hle : reported x t1 ≤ max high (low + 1) - 1 := by
        by_cases ht : t1 = []
        · subst ht; exact Nat.zero_le _
        · have := (i3 ht).2 heven
          have := holds_le hx he1
          omega
      rw [gotOn_append, climb_append] at hcl
      have := hcl.2.last_le
      rw [reported_last, gotOn_append, lastOf_append]
      rw [reported_last] at hle
      omega
    · obtain ⟨u, e, w, rfl, q1, q2⟩ := last_split (isRequest ctl) hz
      have hodd : requests ctl (t1 ++ u) % 2 = 1 := by
        have : requests ctl (t1 ++ (u ++ e :: w)) = requests ctl (t1 ++ u) + 1 := by
          simp only [requests, List.countP_append, List.countP_cons, q1, q2]; simp; omega
        omega
      have hocc := (C19_requests hP hn (u := t1 ++ u) (e := e) (v := w) (by simp) q1).2 hodd
      have hw : ∀ e' ∈ e :: w, ∀ c', e'.q.on ≠ some (.size, c') := by
        have hv' : u ++ (e :: w ++ t3) = tl ++ v := by rw [← hv]; simp
        rw [List.append_eq_append_iff] at hv'
        have : e :: w ++ t3 <:+ v := by
          rcases hv' with ⟨z, hz1, hz2⟩ | ⟨z, hz1, hz2⟩
          · cases z with
            | nil => simp at hz2; exact ⟨[], by simp [hz2]⟩
            | cons e' z =>
              exfalso
              simp only [List.cons_append, List.cons.injEq] at hz2
              obtain ⟨rfl, _⟩ := hz2
              obtain ⟨c', r, rfl⟩ := k1 e (by rw [hz1]; simp)
              simp [isRequest] at q1
          · exact ⟨z, hz2.symm⟩
        intro e' he' c'
        exact k3 e' (this.subset (List.mem_append_left _ he')) c'
      have e1 : reported x (t1 ++ (u ++ e :: w)) = reported x (t1 ++ u) := by
        rw [← List.append_assoc]
        exact (untouched fun e' he' => hw e' he' x).1
      have e2 : ended x (t1 ++ u) = false := by
        rw [← List.append_assoc, ended_append] at he
        simp at he; simp [he.1]
      have := holds_le hx e2
      omega
  · have := (C20_balanced h1 hn).2.1 x hx
    rw [ended_of_append this] at he
    cases he

end

end Verif
