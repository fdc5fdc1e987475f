import Verif.Lemmas.Runtime
/-!
# Every component is kept once

The `HashMap`s of components (waiter.rs:52-60) are lists of pairs here; no key is there twice.
-/
namespace Verif

/-- The keys are there once. -/
def Waiter.Keyed (w : Waiter) : Prop := (w.comps.map Prod.fst).Nodup

theorem Table.put_keys {κ α : Type} [DecidableEq κ] (k : κ) (v : α) : ∀ m : Table κ α, (Table.put k v m).map Prod.fst = m.map Prod.fst ∨ (Table.put k v m).map Prod.fst = m.map Prod.fst ++ [k] ∧ k ∉ m.map Prod.fst
  | [] => Or.inr ⟨rfl, by simp⟩
  | (k', v') :: m => by
    unfold Table.put
    split
    · next h => subst h; exact Or.inl rfl
    · next h =>
      rcases Table.put_keys k v m with h1 | ⟨h1, h2⟩
      · exact Or.inl (by simp [h1])
      · exact Or.inr ⟨by simp [h1], by simpa [Ne.symm h] using h2⟩

theorem Table.put_nodup {κ α : Type} [DecidableEq κ] {k : κ} {v : α} {m : Table κ α} (h : (m.map Prod.fst).Nodup) : ((Table.put k v m).map Prod.fst).Nodup := by
  rcases Table.put_keys k v m with h1 | ⟨h1, h2⟩
  · rw [h1]; exact h
  · rw [h1, List.nodup_append]
    exact ⟨h, by simp, fun a ha b hb e => h2 (by simp at hb; rw [← hb, ← e]; exact ha)⟩

theorem Waiter.Keyed.put {w : Waiter} (h : w.Keyed) {r : CompRef} {k : Comp} {w' : Waiter} (e : w'.comps = w.comps.put r k) : w'.Keyed := by
  unfold Waiter.Keyed
  rw [e]
  exact Table.put_nodup h

theorem construct_keyed {c : Config} {l : Map LaunchConfig} {w : Waiter} {r : CompRef} {x} (h : w.Keyed) (e : construct c l w r = .ok x) : x.2.1.Keyed := by
  unfold construct Waiter.incrId at e
  simp only at e
  split at e
  all_goals first
    | (cases e; exact h.put rfl)
    | skip
  split at e
  · cases e
  · split at e
    · cases e
    · cases e; exact h.put rfl

theorem join_keyed {w w' : Waiter} {src port dst input} (h : w.Keyed) (e : w.join src port dst input = .ok w') : w'.Keyed := by
  unfold Waiter.join at e
  split at e
  · cases e
  · next pull w1 h1 =>
    have hw : w1.Keyed := by
      unfold Waiter.getSrcPull at h1
      split at h1
      · cases h1
      · split at h1
        · cases h1
        · cases h1; exact h.put rfl
    unfold Waiter.giveInput at e
    split at e
    · cases e
    · split at e
      · cases e
      · cases e; exact hw.put rfl

theorem wireStep_keyed {c : Config} {s s' : WireState} {x : Connection} (h : s.waiter.Keyed) (e : wireStep c s x = .ok s') : s'.waiter.Keyed := by
  unfold wireStep at e
  split at e
  · cases e
  · cases e
  · next dst w l h1 =>
    have hw : w.Keyed := by
      unfold findOrConstruct at h1
      split at h1
      · cases h1; exact h
      · exact construct_keyed h h1
    split at e
    · cases e
    · cases e
    · next w1 h2 =>
      cases e
      unfold joinLast at h2
      split at h2
      · cases h2; exact hw
      · split at h2
        · cases h2
        · split at h2
          · next h3 => cases h2; exact join_keyed hw h3
          · cases h2

theorem wireAll_keyed {c : Config} : ∀ {l : List Connection} {s s' : WireState}, s.waiter.Keyed → wireAll c s l = .ok s' → s'.waiter.Keyed
  | [], s, s', h, e => by cases e; exact h
  | x :: xs, s, s', h, e => by
    unfold wireAll at e
    split at e
    · next h1 => exact wireAll_keyed (wireStep_keyed h h1) e
    · cases e
    · cases e

theorem getWaiter_keyed {c : Config} {w : Waiter} (h : getWaiter c = .ok w) : w.Keyed := by
  unfold getWaiter at h
  split at h
  · cases h
  · split at h
    · cases h
    · cases h
    · next s h1 =>
      cases h
      have hs := wireAll_keyed (s := ⟨Waiter.new, c.launch, none⟩) (by simp [Waiter.Keyed, Waiter.new]) h1
      generalize s.waiter = w at hs
      clear h1
      generalize c.regulator = l
      induction l generalizing w with
      | nil => exact hs
      | cons x l ih =>
        refine ih _ ?_
        unfold configureOne Waiter.configureRegulator
        split
        · exact hs
        · split <;> exact hs

theorem getControl_keyed {w w' : Waiter} {r : Str} (hw : w.Keyed) (h : w.getControl r = .ok w') : w'.Keyed := by
  unfold Waiter.getControl at h
  split at h <;> cases h
  exact hw.put rfl

theorem monitor_keyed {w w' : Waiter} {r b : Str} (hw : w.Keyed) (h : w.monitor r b = .ok w') : w'.Keyed := by
  unfold Waiter.monitor at h
  split at h <;> cases h
  exact hw.put rfl

theorem monitorAll_keyed {r : Str} : ∀ {bs : List Str} {w w' : Waiter}, w.Keyed → w.monitorAll r bs = .ok w' → w'.Keyed
  | [], w, w', hw, h => by cases h; exact hw
  | b :: bs, w, w', hw, h => by
    simp only [Waiter.monitorAll] at h
    cases hm : w.monitor r b with
    | ok w1 => rw [hm] at h; exact monitorAll_keyed (monitor_keyed hw hm) h
    | missingRegulator _ => rw [hm] at h; cases h
    | missingBuffer _ _ => rw [hm] at h; cases h
    | panic => rw [hm] at h; cases h

theorem regulatorSettings_keyed : ∀ {l : List (Str × Watch)} {w w' : Waiter} {cs}, w.Keyed → w.regulatorSettings l = .ok (cs, w') → w'.Keyed
  | [], w, w', cs, hw, h => by cases h; exact hw
  | (r, s) :: l, w, w', cs, hw, h => by
    simp only [Waiter.regulatorSettings] at h
    cases hc : w.getControl r with
    | missingRegulator _ => rw [hc] at h; cases h
    | missingBuffer _ _ => rw [hc] at h; cases h
    | panic => rw [hc] at h; cases h
    | ok w1 =>
      rw [hc] at h
      simp only at h
      cases hm : w1.monitorAll r s.buffers with
      | missingRegulator _ => rw [hm] at h; cases h
      | missingBuffer _ _ => rw [hm] at h; cases h
      | panic => rw [hm] at h; cases h
      | ok w2 =>
        rw [hm] at h
        simp only at h
        cases hr : w2.regulatorSettings l with
        | missingRegulator _ => rw [hr] at h; cases h
        | missingBuffer _ _ => rw [hr] at h; cases h
        | panic => rw [hr] at h; cases h
        | ok x =>
          obtain ⟨cs', w3⟩ := x
          rw [hr] at h
          simp only [Prepared.ok.injEq, Prod.mk.injEq] at h
          obtain ⟨_, rfl⟩ := h
          exact regulatorSettings_keyed (monitorAll_keyed (getControl_keyed hw hc) hm) hr

end Verif
