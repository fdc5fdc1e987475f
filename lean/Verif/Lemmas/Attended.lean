import Verif.Props.Managers
import Verif.Lemmas.RuntimeProgress
/-!
# Who watches and controls whom
-/
namespace Verif

/-- Regulators are controlled and buffers monitored by the managers that name them, nobody by two. -/
structure Attended (cs : List Capture) (w : Waiter) : Prop where
  regs : (cs.map Capture.regulator).Nodup
  bufs : (cs.flatMap Capture.buffers).Nodup
  control : ∀ r i o t, w.comps.get (.regulator, r) = some (.regulator i o t) → (t = true ↔ r ∈ cs.map Capture.regulator)
  monitor : ∀ x i o t, w.comps.get (.buffer, x) = some (.buffer i o t) → (t = true ↔ x ∈ cs.flatMap Capture.buffers)
  controlled : ∀ r ∈ cs.map Capture.regulator, ∃ i o, w.comps.get (.regulator, r) = some (.regulator i o true)
  monitored : ∀ x ∈ cs.flatMap Capture.buffers, ∃ i o, w.comps.get (.buffer, x) = some (.buffer i o true)

/-- A buffer has one manager. -/
theorem Attended.capture_eq {cs : List Capture} {w : Waiter} (T : Attended cs w) {a a' : Capture} (ha : a ∈ cs) (ha' : a' ∈ cs) {x : Str} (hx : x ∈ a.buffers) (hz : x ∈ a'.buffers) : a = a' := by
  have hb := T.bufs
  clear T
  induction cs with
  | nil => cases ha
  | cons b cs ih =>
    rw [List.flatMap_cons, List.nodup_append] at hb
    rcases List.mem_cons.mp ha with e1 | m1 <;> rcases List.mem_cons.mp ha' with e2 | m2
    · rw [e1, e2]
    · subst e1
      exact absurd rfl (hb.2.2 _ hx _ (List.mem_flatMap.mpr ⟨a', m2, hz⟩))
    · subst e2
      exact absurd rfl (hb.2.2 _ hz _ (List.mem_flatMap.mpr ⟨a, m1, hx⟩))
    · exact ih m1 m2 hb.2.1

/-- A regulator's control has not been handed out, or has been. -/
def Waiter.Controls (w : Waiter) (r : Str) (taken : Bool) : Prop := ∃ i o, w.comps.get (.regulator, r) = some (.regulator i o taken)

theorem monitor_ok {w w' : Waiter} {r b : Str} (h : w.monitor r b = .ok w') : w.Monitor b false := by
  unfold Waiter.monitor at h
  split at h
  · rename_i i o e; exact ⟨i, o, e⟩
  · cases h
  · cases h

theorem monitorAll_ok {r : Str} : ∀ {bs : List Str} {w w' : Waiter}, w.monitorAll r bs = .ok w' →
    bs.Nodup ∧ (∀ b ∈ bs, w.Monitor b false ∧ w'.Monitor b true) ∧ (∀ x t, x ∉ bs → (w'.Monitor x t ↔ w.Monitor x t)) ∧
      ∀ x, w'.comps.get (.regulator, x) = w.comps.get (.regulator, x) := by
  intro bs
  induction bs with
  | nil => intro w w' h; cases h; exact ⟨List.nodup_nil, by simp, fun _ _ _ => Iff.rfl, fun _ => rfl⟩
  | cons b bs ih =>
    intro w w' h
    simp only [Waiter.monitorAll] at h
    cases h1 : w.monitor r b with
    | ok w1 =>
      rw [h1] at h
      simp only at h
      have hb := monitor_ok h1
      obtain ⟨w1', e1, g1, g2, g3⟩ := monitor_spec (r := r) hb
      rw [h1] at e1; cases e1
      obtain ⟨i1, i2, i3, i4⟩ := ih h
      have hnot : b ∉ bs := fun hm => by have := (i2 b hm).1.unique g1; cases this
      refine ⟨List.nodup_cons.mpr ⟨hnot, i1⟩, ?_, ?_, fun x => (i4 x).trans (g3 x)⟩
      · intro x hx
        rcases List.mem_cons.mp hx with rfl | hx
        · exact ⟨hb, (i3 x true hnot).mpr g1⟩
        · exact ⟨(g2 x false (fun e => hnot (e ▸ hx))).mp (i2 x hx).1, (i2 x hx).2⟩
      · intro x t hx
        simp only [List.mem_cons, not_or] at hx
        exact (i3 x t hx.2).trans (g2 x t hx.1)
    | missingRegulator _ => rw [h1] at h; cases h
    | missingBuffer _ _ => rw [h1] at h; cases h
    | panic => rw [h1] at h; cases h

theorem getControl_ok {w w' : Waiter} {r : Str} (h : w.getControl r = .ok w') :
    w.Controls r false ∧ w'.Controls r true ∧ (∀ x t, x ≠ r → (w'.Controls x t ↔ w.Controls x t)) ∧ ∀ b, w'.comps.get (.buffer, b) = w.comps.get (.buffer, b) := by
  unfold Waiter.getControl at h
  split at h
  · rename_i i o e
    cases h
    refine ⟨⟨i, o, e⟩, ⟨i, o, by rw [Table.get_put, if_pos rfl]⟩, ?_, ?_⟩
    · intro x t hx
      unfold Waiter.Controls
      simp only [Table.get_put]
      rw [if_neg (by simp [hx])]
    · intro b
      simp only [Table.get_put]
      rw [if_neg (by simp)]
  · cases h
  · cases h

theorem regulatorSettings_ok : ∀ {l : List (Str × Watch)} {w w' : Waiter} {cs : List Capture}, w.regulatorSettings l = .ok (cs, w') →
    (cs.map Capture.regulator).Nodup ∧ (∀ r ∈ cs.map Capture.regulator, w.Controls r false ∧ w'.Controls r true) ∧
    (∀ x t, x ∉ cs.map Capture.regulator → (w'.Controls x t ↔ w.Controls x t)) ∧
    (cs.flatMap Capture.buffers).Nodup ∧ (∀ b ∈ cs.flatMap Capture.buffers, w.Monitor b false ∧ w'.Monitor b true) ∧
    ∀ x t, x ∉ cs.flatMap Capture.buffers → (w'.Monitor x t ↔ w.Monitor x t) := by
  intro l
  induction l with
  | nil => intro w w' cs h; cases h; simp
  | cons x l ih =>
    obtain ⟨r, s⟩ := x
    intro w w' cs h
    simp only [Waiter.regulatorSettings] at h
    cases h1 : w.getControl r with
    | missingRegulator _ => rw [h1] at h; cases h
    | missingBuffer _ _ => rw [h1] at h; cases h
    | panic => rw [h1] at h; cases h
    | ok w1 =>
      rw [h1] at h; simp only at h
      cases h2 : w1.monitorAll r s.buffers with
      | missingRegulator _ => rw [h2] at h; cases h
      | missingBuffer _ _ => rw [h2] at h; cases h
      | panic => rw [h2] at h; cases h
      | ok w2 =>
        rw [h2] at h; simp only at h
        cases h3 : w2.regulatorSettings l with
        | missingRegulator _ => rw [h3] at h; cases h
        | missingBuffer _ _ => rw [h3] at h; cases h
        | panic => rw [h3] at h; cases h
        | ok x =>
          obtain ⟨cs', w3⟩ := x
          rw [h3] at h
          cases h
          obtain ⟨g1, g2, g3, g4⟩ := getControl_ok h1
          obtain ⟨m1, m2, m3, m4⟩ := monitorAll_ok h2
          obtain ⟨i1, i2, i3, i4, i5, i6⟩ := ih h3
          have c21 : ∀ x t, w2.Controls x t ↔ w1.Controls x t := by intro x t; unfold Waiter.Controls; rw [m4]
          have b1 : ∀ x t, w1.Monitor x t ↔ w.Monitor x t := by intro x t; unfold Waiter.Monitor; rw [g4]
          have same : ∀ {w : Waiter} {r t t'}, w.Controls r t → w.Controls r t' → t = t' := by
            rintro w r t t' ⟨i, o, e⟩ ⟨i', o', e'⟩
            rw [e] at e'; cases e'; rfl
          have hr : r ∉ cs'.map Capture.regulator := by
            intro hm
            have := same (i2 r hm).1 ((c21 r true).mpr g2)
            cases this
          have disj : ∀ b ∈ s.buffers, b ∉ cs'.flatMap Capture.buffers := by
            intro b hb hm
            have := (i5 b hm).1.unique (m2 b hb).2
            cases this
          refine ⟨?_, ?_, ?_, ?_, ?_, ?_⟩
          · rw [List.map_cons, List.nodup_cons]; exact ⟨hr, i1⟩
          · intro x hx
            rw [List.map_cons, List.mem_cons] at hx
            rcases hx with rfl | hx
            · exact ⟨g1, (i3 _ true hr).mpr ((c21 _ true).mpr g2)⟩
            · exact ⟨(g3 x false (fun e => hr (by rw [← e]; exact hx))).mp ((c21 x false).mp (i2 x hx).1), (i2 x hx).2⟩
          · intro x t hx
            rw [List.map_cons, List.mem_cons, not_or] at hx
            exact (i3 x t hx.2).trans ((c21 x t).trans (g3 x t hx.1))
          · rw [List.flatMap_cons, List.nodup_append]
            refine ⟨m1, i4, ?_⟩
            rintro a ha b hb rfl
            exact disj a ha hb
          · intro x hx
            rw [List.flatMap_cons, List.mem_append] at hx
            rcases hx with hx | hx
            · exact ⟨(b1 x false).mp (m2 x hx).1, (i6 x true (disj x hx)).mpr (m2 x hx).2⟩
            · exact ⟨(b1 x false).mp ((m3 x false (fun h => disj x h hx)).mp (i5 x hx).1), (i5 x hx).2⟩
          · intro x t hx
            rw [List.flatMap_cons, List.mem_append, not_or] at hx
            exact (i6 x t hx.2).trans ((m3 x t hx.1).trans (b1 x t))

theorem attended {c : Config} {R : Map Hop} (hc : c.connection = hopSets R) {w w' : Waiter} (hw : getWaiter c = .ok w) {order : List (Str × Watch)} {cs : List Capture}
    (hp : w.regulatorSettings order = .ok (cs, w')) : Attended cs w' := by
  obtain ⟨h1, h2, h3, h4, h5, h6⟩ := regulatorSettings_ok hp
  have hu := unmanaged hc hw
  refine ⟨h1, h4, ?_, ?_, fun r hr => (h2 r hr).2, fun x hx => (h5 x hx).2⟩
  · intro r i o t hk
    by_cases hr : r ∈ cs.map Capture.regulator
    · obtain ⟨i', o', e⟩ := (h2 r hr).2
      rw [e] at hk; cases hk
      simp [hr]
    · obtain ⟨i', o', e⟩ := (h3 r t hr).mp ⟨i, o, hk⟩
      have := hu _ _ e
      simp [Comp.plain] at this
      subst this
      simp [hr]
  · intro x i o t hk
    by_cases hx : x ∈ cs.flatMap Capture.buffers
    · obtain ⟨i', o', e⟩ := (h5 x hx).2
      rw [e] at hk; cases hk
      simp [hx]
    · obtain ⟨i', o', e⟩ := (h6 x t hx).mp ⟨i, o, hk⟩
      have := hu _ _ e
      simp [Comp.plain] at this
      subst this
      simp [hx]

end Verif
