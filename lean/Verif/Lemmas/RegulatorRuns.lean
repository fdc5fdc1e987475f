import Verif.Lemmas.Regulator
namespace Verif

/-- Nothing is received, written or ended in these events. -/
structure Idle (t : List Ev) : Prop where
  received : received t = []
  offers : offers t = []
  endings : endings t = 0
  nogot : ∀ s d, Act.got s d ∉ acts t

theorem idle_of {t : List Ev} (h : ∀ a ∈ acts t, a.isCtl = true) : Idle t := by
  have z : ∀ {β} (f : Act → Option β), (∀ a : Act, a.isCtl = true → f a = none) → (acts t).filterMap f = [] := by
    intro β f h1
    rw [List.filterMap_eq_nil_iff]
    intro a ha
    exact h1 a (h a ha)
  refine ⟨z _ ?_, z _ ?_, ?_, ?_⟩
  · intro a ha; cases a <;> simp [Act.isCtl] at ha <;> rfl
  · intro a ha; cases a <;> simp [Act.isCtl] at ha <;> rfl
  · unfold endings
    rw [List.countP_eq_zero]
    intro a ha
    have := h a ha
    cases a <;> simp [Act.isCtl] at this <;> simp
  · intro s d hm
    have := h _ hm
    simp [Act.isCtl] at this

theorem Idle.prefix {t u : List Ev} (h : Idle t) (hu : u <+: t) : Idle u := by
  obtain ⟨v, rfl⟩ := hu
  obtain ⟨h1, h2, h3, h4⟩ := h
  simp at h1 h2 h3
  exact ⟨h1.1, h2.1, h3.1, fun s d hm => h4 s d (by simp [hm])⟩

theorem controlPoint_idle {ctl : Option Nat} {tr : List Ev} {u : Unit} (h : (controlPoint ctl).Runs tr u) :
    Idle tr ∧ closings tr = [] := by
  have := controlPoint_acts h
  cases ctl with
  | none => simp at this; exact ⟨idle_of (by rw [this]; simp), by simp [closings, this]⟩
  | some c =>
    rcases this with h | h | ⟨r, h⟩ <;>
    exact ⟨idle_of (by rw [h]; simp [Act.isCtl]), by simp [closings, h]⟩

theorem closeControl_idle {ctl : Option Nat} {tr : List Ev} {u : Unit} (h : (closeControl ctl).Runs tr u) :
    Idle tr ∧ closings tr = (ctl.map fun c => (Kind.ctl, c)).toList := by
  have := closeControl_acts h
  refine ⟨idle_of ?_, ?_⟩
  · rw [this]; cases ctl <;> simp [Act.isCtl]
  · unfold closings; rw [this]; cases ctl <;> rfl

theorem drops_idle (l : List (Kind × Nat)) : Idle (dropEvs l) ∧ closings (dropEvs l) = l := by
  refine ⟨idle_of ?_, ?_⟩
  · intro a ha
    simp [acts, dropEvs] at ha
    obtain ⟨k, c, _, rfl⟩ := ha
    rfl
  · induction l with
    | nil => rfl
    | cons x l ih =>
      have : closings (dropEvs (x :: l)) = x :: closings (dropEvs l) := rfl
      rw [this, ih]

theorem apart_nil : ({} : Notifications).Apart := by simp [Notifications.Apart]

/-- Complete rounds of a regulator. -/
theorem regulator_rounds {pull push spy ctl n tr n'} (h : LoopRounds (regulatorBody pull push spy ctl) n tr n')
    (hp : pull ≠ .none) :
    n' = n + (received tr).length ∧ (∀ s d, Act.got s d ∈ acts tr → pull.source = some s) ∧
      (∀ o ∈ offers tr, push.target = some o.to) ∧ closings tr = [] ∧ endings tr = 0 ∧
      (push.target.isSome = true → (offers tr).map Offer.d = received tr) := by
  induction h with
  | nil => simp
  | @next s s' s'' tr tr' hb _ ih =>
    obtain ⟨i0, i1, i2, i3, i4, i5⟩ := ih
    obtain ⟨r, t1, t2, rfl, hw, h2⟩ := regulatorBody_inv hb
    rcases h2 with ⟨res, rfl, hf, hc, h0⟩ | ⟨res, rfl, hf, hc, hx⟩ | ⟨e, rfl, rfl, h0⟩
    · simp at h0
    · have rd := round_done hw hp apart_nil
      simp at hx; subst hx
      obtain ⟨hidle, hcl⟩ := controlPoint_idle hc
      have he := rd.more hf
      have h1 := rd.heard_one
      unfold heard at h1
      refine ⟨?_, ?_, ?_, ?_, ?_, ?_⟩
      · simp [hidle.received]; omega
      · intro a d hm
        simp only [acts_append, List.mem_append] at hm
        rcases hm with (hm | hm) | hm
        · exact worker_source hw a d hm
        · exact absurd hm (hidle.nogot a d)
        · exact i1 a d hm
      · intro o ho
        simp [hidle.offers] at ho
        rcases ho with ho | ho
        · exact rd.target o ho
        · exact i2 o ho
      · simp [rd.open_, hcl, i3]
      · simp [he, hidle.endings, i4]
      · intro hs; simp [rd.all_written hs, hidle.offers, hidle.received, i5 hs]
    · simp at h0

/-- A part of a round of a regulator. -/
theorem regulator_part {pull push spy ctl n t} (h : (regulatorBody pull push spy ctl n).Partial t) (hp : pull ≠ .none) :
    (offers t).map Offer.d <+: received t ∧ (received t).length ≤ (offers t).length + 1 ∧
    (∀ o ∈ offers t, push.target = some o.to) ∧ (∀ s d, Act.got s d ∈ acts t → pull.source = some s) := by
  obtain ⟨t3, x, h3⟩ := h.extend
  obtain ⟨r, u1, u2, hu, hw, h2⟩ := regulatorBody_inv h3
  have fin : ∀ {w}, w <+: u1 → (offers w).map Offer.d <+: received w ∧ (received w).length ≤ (offers w).length + 1 ∧
      (∀ o ∈ offers w, push.target = some o.to) ∧ (∀ s d, Act.got s d ∈ acts w → pull.source = some s) := by
    intro w hwp
    have rs := round_seen hw hp apart_nil hwp
    have := rs.one; unfold heard at this
    exact ⟨rs.written, by omega, rs.target, fun s d hm => worker_source hw s d ((prefix_acts hwp).subset hm)⟩
  have hidle : Idle u2 := by
    rcases h2 with ⟨res, rfl, hf, hc, h0⟩ | ⟨res, rfl, hf, hc, hx⟩ | ⟨e, rfl, rfl, h0⟩
    · exact (closeControl_idle hc).1
    · exact (controlPoint_idle hc).1
    · exact ⟨rfl, rfl, rfl, by simp⟩
  rcases prefix_append_cases (show t <+: u1 ++ u2 from ⟨t3, hu⟩) with hpre | ⟨v, rfl, hv⟩
  · exact fin hpre
  · obtain ⟨a, b, c, d⟩ := fin List.prefix_rfl
    have hv := hidle.prefix hv
    refine ⟨by simpa [hv.offers, hv.received] using a, by simpa [hv.offers, hv.received] using b,
      by simpa [hv.offers] using c, ?_⟩
    intro s x hm
    rw [acts_append, List.mem_append] at hm
    rcases hm with hm | hm
    · exact d s x hm
    · exact absurd hm (hv.nogot s x)

end Verif
