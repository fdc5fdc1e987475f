import Verif.Lemmas.Unheard
/-!
# Property C99: with flow control the failure of a regulator keeps the program from ending
-/
namespace Verif

section
variable {c : Config} {R : Map Hop} {w w' : Waiter} {order : List (Str × Watch)} {cs : List Capture} {hs : List Hop} {bad : CompRef → Bool} {τ τ₁ τ₂ : List (Who × Ev)}

theorem shutting_keeps {r : CompRef} {k : Comp} (hk : w.comps.get r = some k) (h : k.shut = k) : (w.shutting bad).comps.get r = some k := by
  rw [shutting_get, hk, Option.map_some, h, ite_self]

theorem shut_buffer {k : Comp} {i o t} (h : k.shut = .buffer i o t) : k = .buffer i o t := by
  unfold Comp.shut at h
  split at h
  · split at h <;> contradiction
  · exact h

/-- Files that cannot be opened change nothing about who is managed. -/
theorem Assembled.attended_shutting (A : Assembled c hs w) (hC : Complete hs) (T : Attended cs w) : Attended cs (w.shutting bad) := by
  have reg : ∀ r k, (w.shutting bad).comps.get (.regulator, r) = some k → w.comps.get (.regulator, r) = some k := by
    intro r k hk
    rw [shutting_get, Option.map_eq_some_iff] at hk
    obtain ⟨k', h1, h2⟩ := hk
    obtain ⟨i, o, m, h3⟩ := A.toRigged.regulatorNode hC (r := (.regulator, r)) rfl (A.mentioned h1)
    rw [h1] at h3
    injection h3 with h3
    subst h3
    rw [h1, ← h2]
    split <;> rfl
  have reg' : ∀ r i o t, w.comps.get (.regulator, r) = some (.regulator i o t) → (w.shutting bad).comps.get (.regulator, r) = some (.regulator i o t) := by
    intro r i o t hk
    exact shutting_keeps hk rfl
  have buf : ∀ x i o t, (w.shutting bad).comps.get (.buffer, x) = some (.buffer i o t) ↔ w.comps.get (.buffer, x) = some (.buffer i o t) := by
    intro x i o t
    rw [shutting_get, Option.map_eq_some_iff]
    constructor
    · rintro ⟨k, h1, h2⟩
      split at h2
      · rw [h1, shut_buffer h2]
      · rw [h1, h2]
    · intro h
      exact ⟨_, h, by split <;> rfl⟩
  refine ⟨T.regs, T.bufs, fun r i o t h => T.control r i o t (reg r _ h), fun x i o t h => T.monitor x i o t ((buf x i o t).mp h), fun r hr => ?_, fun x hx => ?_⟩
  · obtain ⟨i, o, h⟩ := T.controlled r hr
    exact ⟨i, o, reg' r i o true h⟩
  · obtain ⟨i, o, h⟩ := T.monitored x hx
    exact ⟨i, o, (buf x i o true).mpr h⟩

/-- **C99** As long as a regulator that has failed has not taken a request made by its manager, the program does not end: whatever happens in between. -/
theorem C99_untaken (hc : c.connection = hopSets R) (hw : getWaiter c = .ok w) (hp : w.regulatorSettings order = .ok (cs, w')) (hC : Complete (R.map (·.2)))
    (hb : ∀ r, r.1 = .faucet → c.Opens r → bad r = false) {a : Capture} (ha : a ∈ cs) {b : Bool}
    (hr : w'.RunWith cs bad (realCaps (R.map (·.2))) (τ₁ ++ (.manager a.regulator, ⟨.send .ctl (w'.idOf (.regulator, a.regulator)) (), b⟩) :: τ₂))
    (hf : c.Breaks (R.map (·.2)) bad (τ₁ ++ (.manager a.regulator, ⟨.send .ctl (w'.idOf (.regulator, a.regulator)) (), b⟩) :: τ₂) (.regulator, a.regulator))
    (hg : gotOn .ctl (w'.idOf (.regulator, a.regulator)) (proj (.part (.regulator, a.regulator) .main) τ₂) = []) :
    ¬ w'.OverWith cs bad (τ₁ ++ (.manager a.regulator, ⟨.send .ctl (w'.idOf (.regulator, a.regulator)) (), b⟩) :: τ₂) := by
  intro ho
  have A := assembled hc hw hp
  have T := attended hc hw hp
  have hS := shutting_sys (cs := cs) (A.opened hb)
  have hr' := (shutting_run hS).mpr hr
  have ho' := (shutting_over hS).mpr ho
  have T' := A.attended_shutting (bad := bad) hC T
  obtain ⟨i, o, t, hk⟩ := A.toRigged.regulatorNode hC (r := (.regulator, a.regulator)) rfl (A.toRigged.steered T ha)
  have ht : t = true := (T.control _ _ _ t hk).mpr (List.mem_map.mpr ⟨a, ha, rfl⟩)
  subst ht
  have hk' : (w'.shutting bad).comps.get (.regulator, a.regulator) = some (.regulator (some i) (some o) true) := shutting_keeps hk rfl
  have hn : w'.node (.part (.regulator, a.regulator) .main) = some (.regulator i.pull o.push none (some (w'.idOf (.regulator, a.regulator)))) := by
    simp only [Waiter.node, hk, Comp.node]; rfl
  have hR : (w'.shutting bad).sys cs (.part (.regulator, a.regulator) .main) = some (regulatorTask i.pull o.push none (some (w'.idOf (.regulator, a.regulator)))) := by
    simp only [Waiter.sys, hk', Comp.node]; rfl
  have hfit := A.fits hn
  have hon := regulator_honest (pull := i.pull) (spy := none) (ctl := some (w'.idOf (.regulator, a.regulator))) hfit
  have hfail : Failed (StopsAt (R.map (·.2)) (.part (.regulator, a.regulator) .main))
      (proj (.part (.regulator, a.regulator) .main) (τ₁ ++ (.manager a.regulator, ⟨.send .ctl (w'.idOf (.regulator, a.regulator)) (), b⟩) :: τ₂)) := by
    rcases hf with ⟨h, _⟩ | ⟨p, h⟩
    · rcases h with ⟨h, _⟩ | ⟨h, _⟩ <;> cases h
    · have hpp : p = .main := by
        obtain ⟨x, hx, _⟩ := h
        obtain ⟨e, he, _⟩ := List.mem_map.mp hx
        have := hr'.known _ (mem_proj.mp he)
        cases p <;> first | rfl | (exfalso; apply this; simp only [Waiter.sys, hk', Comp.node]; rfl)
      subst hpp
      exact h
  obtain ⟨r, t1, h1, h2⟩ := ho' _ _ hR
  have hfail1 := hfail
  rw [h2, failed_append] at hfail1
  obtain ⟨e, rfl⟩ := (hon.runs trivial h1).mpr (hfail1.resolve_right dropsOnly_drops.calm)
  exact A.shutting.unheard hC T' ha hr' hg (by simp [PullEnd.pull]) h1 h2 (ho' _ _ (T'.manages ha))

/-- **C99** Once a regulator has failed, a single request of its manager is enough to keep the program from ever ending; so it never reports the failure, nor anything else. -/
theorem C99_stuck (hc : c.connection = hopSets R) (hw : getWaiter c = .ok w) (hp : w.regulatorSettings order = .ok (cs, w')) (hC : Complete (R.map (·.2)))
    (hb : ∀ r, r.1 = .faucet → c.Opens r → bad r = false) {a : Capture} (ha : a ∈ cs) {b : Bool}
    (hr : w'.RunWith cs bad (realCaps (R.map (·.2))) (τ₁ ++ (.manager a.regulator, ⟨.send .ctl (w'.idOf (.regulator, a.regulator)) (), b⟩) :: τ₂))
    (hf : c.Breaks (R.map (·.2)) bad τ₁ (.regulator, a.regulator)) (out : Option (Except (List WaiterErr) Nat)) :
    ¬ w'.Returns cs bad (τ₁ ++ (.manager a.regulator, ⟨.send .ctl (w'.idOf (.regulator, a.regulator)) (), b⟩) :: τ₂) out := by
  rintro ⟨ho, _⟩
  have A := assembled hc hw hp
  have T := attended hc hw hp
  obtain ⟨i, o, t, hk⟩ := A.toRigged.regulatorNode hC (r := (.regulator, a.regulator)) rfl (A.toRigged.steered T ha)
  have hS := shutting_sys (cs := cs) (A.opened hb)
  have hr' := (shutting_run hS).mpr hr
  have hk' : (w'.shutting bad).comps.get (.regulator, a.regulator) = some (.regulator (some i) (some o) t) := shutting_keeps hk rfl
  have hn : w'.node (.part (.regulator, a.regulator) .main) = some (.regulator i.pull o.push none (if t then some (w'.idOf (.regulator, a.regulator)) else none)) := by
    simp only [Waiter.node, hk, Comp.node]
  have hR : (w'.shutting bad).sys cs (.part (.regulator, a.regulator) .main) = some (regulatorTask i.pull o.push none (if t then some (w'.idOf (.regulator, a.regulator)) else none)) := by
    simp only [Waiter.sys, hk', Comp.node]; rfl
  have hon := regulator_honest (pull := i.pull) (spy := none) (ctl := if t then some (w'.idOf (.regulator, a.regulator)) else none) (A.fits hn)
  refine C99_untaken hc hw hp hC hb ha hr ?_ ?_ ho
  · rcases hf with h | ⟨p, x, hx, hx'⟩
    · exact Or.inl h
    · exact Or.inr ⟨p, x, by rw [proj_append, acts_append]; exact List.mem_append_left _ hx, hx'⟩
  · have hfail : Failed (StopsAt (R.map (·.2)) (.part (.regulator, a.regulator) .main)) (proj (.part (.regulator, a.regulator) .main) τ₁) := by
      rcases hf with ⟨h, _⟩ | ⟨p, h⟩
      · rcases h with ⟨h, _⟩ | ⟨h, _⟩ <;> cases h
      · have hpp : p = .main := by
          obtain ⟨x, hx, _⟩ := h
          obtain ⟨e, he, _⟩ := List.mem_map.mp hx
          have := hr'.known _ (List.mem_append_left _ (mem_proj.mp he))
          cases p <;> first | rfl | (exfalso; apply this; simp only [Waiter.sys, hk', Comp.node]; rfl)
        subst hpp
        exact h
    obtain ⟨x, hx, hx'⟩ := hfail
    obtain ⟨e, he, rfl⟩ := List.mem_map.mp hx
    obtain ⟨u, v, hu⟩ := List.append_of_mem he
    obtain ⟨r, t1, h1, h2⟩ := (shutting_over hS).mpr ho _ _ hR
    have hd : DropsOnly (v ++ proj (.part (.regulator, a.regulator) .main) τ₂) := by
      have hall : proj (.part (.regulator, a.regulator) .main) (τ₁ ++ (.manager a.regulator, ⟨.send .ctl (w'.idOf (.regulator, a.regulator)) (), b⟩) :: τ₂) =
          u ++ e :: (v ++ proj (.part (.regulator, a.regulator) .main) τ₂) := by
        rw [proj_append, proj_cons_ne (by simp), hu]; simp
      have hF : Failed (StopsAt (R.map (·.2)) (.part (.regulator, a.regulator) .main)) (t1 ++ dropEvs (regulatorTask i.pull o.push none (if t then some (w'.idOf (.regulator, a.regulator)) else none)).drops) := by
        rw [← h2, hall]; exact ⟨act e, by simp [acts], hx'⟩
      rw [failed_append] at hF
      obtain ⟨m, rfl⟩ := (hon.runs trivial h1).mpr (hF.resolve_right dropsOnly_drops.calm)
      have h3 : Falls _ (t1 ++ _) := Falls.and (hon.runs_ok trivial h1) (dropsOnly_drops (l := (regulatorTask i.pull o.push none (if t then some (w'.idOf (.regulator, a.regulator)) else none)).drops))
      rw [← h2, hall] at h3
      exact h3.rest hx'
    unfold gotOn
    rw [List.filterMap_eq_nil_iff]
    intro y hy
    obtain ⟨k, ch, rfl⟩ := hd y (List.mem_append_right _ hy)
    rfl

end
end Verif
