import Verif.Spec.FairWith
import Verif.Lemmas.Rested
import Verif.Lemmas.Bounded
/-!
# Drains that cannot create their files are like regulators without output

Both let go of their input at once and do nothing else.
-/
namespace Verif

def Comp.shut : Comp → Comp
  | .drain d (some i) => if d = "/dev/null".toList ∨ d = ['-'] ∨ d = ['_'] then .drain d (some i) else .regulator (some i) none false
  | k => k

/-- The waiter with those drains replaced. -/
def Waiter.shutting (w : Waiter) (bad : CompRef → Bool) : Waiter := { w with comps := w.comps.map fun x => (x.1, if bad x.1 then x.2.shut else x.2) }

theorem Table.get_map {κ α β : Type} [DecidableEq κ] (f : κ → α → β) (m : Table κ α) (x : κ) :
    Table.get (m.map fun y => (y.1, f y.1 y.2) : Table κ β) x = (m.get x).map (f x) := by
  induction m with
  | nil => rfl
  | cons y m ih =>
    obtain ⟨k, v⟩ := y
    simp only [List.map_cons, Table.get]
    by_cases h : k = x
    · subst h; simp
    · rw [if_neg h, if_neg h]; exact ih

section
variable {c : Config} {hs : List Hop} {w : Waiter} {cs : List Capture} {cap : Caps} {bad : CompRef → Bool} {τ : List (Who × Ev)}

theorem shutting_get (r : CompRef) : (w.shutting bad).comps.get r = (w.comps.get r).map fun k => if bad r then k.shut else k :=
  Table.get_map (fun (r : CompRef) (k : Comp) => if bad r = true then k.shut else k) w.comps r

theorem shutting_idOf : (w.shutting bad).idOf = w.idOf := rfl

theorem shutting_sys (hf : ∀ r o f, w.comps.get r = some (.faucet f o) → bad r = true → f = ['-']) : (w.shutting bad).sys cs = w.sysWith cs bad := by
  funext i
  cases i with
  | manager r => rfl
  | part r p =>
    rw [Waiter.sysWith]
    have hs : (w.shutting bad).sys cs (.part r p) = match (w.comps.get r).map fun k => if bad r then k.shut else k with
      | none => none
      | some k => match k.node (w.idOf r) w.chans p with
        | some n => some n.task
        | none => k.other (w.idOf r) p := by
      rw [← shutting_get]; rfl
    rw [hs]
    cases hk : w.comps.get r with
    | none =>
      have : w.unopened bad (.part r p) = none := by cases p <;> simp [Waiter.unopened, hk]
      simp [this, Waiter.sys, hk]
    | some k =>
      cases hb : bad r with
      | false =>
        have : w.unopened bad (.part r p) = none := by cases p <;> simp [Waiter.unopened, hk, hb]
        simp only [this, Waiter.sys, hk, Option.map_some, Option.none_or]; rfl
      | true =>
        have un : ∀ k' : Comp, k' = k → k'.shut = k' → k'.unopened = none → (match some (if true = true then k'.shut else k') with
          | none => none
          | some k => match k.node (w.idOf r) w.chans p with
            | some n => some n.task
            | none => k.other (w.idOf r) p) = (w.unopened bad (.part r p)).or (w.sys cs (.part r p)) := by
          rintro k' rfl h1 h2
          have : w.unopened bad (.part r p) = none := by cases p <;> simp [Waiter.unopened, hk, hb, h2]
          simp only [this, Waiter.sys, hk, h1, Option.none_or, ↓reduceIte]
          rfl
        cases k with
        | faucet f o =>
          refine un _ rfl rfl ?_
          cases o with
          | none => rfl
          | some o => rw [Comp.unopened, if_pos (hf r _ _ hk hb)]
        | drain d o =>
          cases o with
          | none => exact un _ rfl rfl rfl
          | some i =>
            by_cases hd : d = "/dev/null".toList ∨ d = ['-'] ∨ d = ['_']
            · exact un _ rfl (by rw [Comp.shut, if_pos hd]) (by rw [Comp.unopened, if_pos hd])
            · have h1 : (Comp.drain d (some i)).shut = .regulator (some i) none false := by rw [Comp.shut, if_neg hd]
              have h2 : (Comp.drain d (some i)).unopened = some (dropTask i.pull.owned) := by rw [Comp.unopened, if_neg hd]
              cases p <;> simp [Waiter.unopened, Waiter.sys, hk, hb, h1, h2, Comp.node, Comp.other]
        | launch => exact un _ rfl rfl rfl
        | junction => exact un _ rfl rfl rfl
        | buffer => exact un _ rfl rfl rfl
        | regulator => exact un _ rfl rfl rfl

theorem shutting_junction {i : Who} {ins outs spy} (h : (w.shutting bad).node i = some (.junction ins outs spy)) : w.node i = some (.junction ins outs spy) := by
  cases i with
  | manager r => cases h
  | part r p =>
    have hs : (w.shutting bad).node (.part r p) = match (w.comps.get r).map fun k => if bad r then k.shut else k with
      | none => none
      | some k => k.node (w.idOf r) w.chans p := by
      rw [← shutting_get]; rfl
    rw [hs] at h
    cases hk : w.comps.get r with
    | none => rw [hk] at h; cases h
    | some k =>
      rw [hk] at h
      simp only [Option.map_some] at h
      simp only [Waiter.node, hk]
      cases hb : bad r with
      | false => rw [hb] at h; exact h
      | true =>
        rw [hb] at h
        simp only [↓reduceIte] at h
        cases k with
        | drain d o =>
          cases o with
          | none => exact h
          | some i =>
            rw [Comp.shut] at h
            split at h
            · exact h
            · cases p <;> cases h
        | _ => exact h

theorem shutting_unmanaged (hu : w.Unmanaged) : (w.shutting bad).Unmanaged := by
  intro r k hk
  rw [shutting_get, Option.map_eq_some_iff] at hk
  obtain ⟨k0, h0, rfl⟩ := hk
  have := hu r k0 h0
  split
  · cases k0 with
    | drain d o =>
      cases o with
      | none => exact this
      | some i => rw [Comp.shut]; split <;> rfl
    | _ => exact this
  · exact this

theorem Assembled.shutting (A : Assembled c hs w) : Rigged c hs (w.shutting bad) where
  all := A.all
  made := by
    intro r hm
    obtain ⟨k, hk, he⟩ := A.comps r hm
    rw [shutting_get, hk]
    refine ⟨_, rfl, ?_⟩
    rw [shutting_idOf]
    split
    · by_cases hr : r.1 = .drain
      · rw [expected_drain _ _ _ _ hr] at he ⊢
        have hk := plain_drain he
        subst hk
        cases hi : (pullEnds w.idOf hs.zipIdx fun h => h.to = r).head?.map Prod.fst with
        | none => exact Or.inl rfl
        | some i =>
          simp only [Comp.shut]
          split
          · exact Or.inl rfl
          · exact Or.inr ⟨hr, i, rfl, rfl⟩
      · left
        rw [← he]
        cases k with
        | drain d o =>
          exfalso
          cases hr' : r.1 with
          | drain => exact hr hr'
          | faucet => rw [expected_faucet _ _ _ _ hr'] at he; cases he
          | junction => rw [expected_junction _ _ _ _ hr'] at he; cases he
          | launch => rw [expected_launch _ _ _ _ hr'] at he; cases he
          | buffer => rw [expected_buffer _ _ _ _ hr'] at he; cases he
          | regulator => rw [expected_regulator _ _ _ _ hr'] at he; cases he
        | _ => rfl
    · exact Or.inl he
  only := by
    intro r hm
    rw [shutting_get, A.only r hm]; rfl
  distinct := A.distinct
  chans := A.chans

/-- Faucets that can open their files, or have none. -/
theorem Assembled.opened (A : Assembled c hs w) (hf : ∀ r, r.1 = .faucet → c.Opens r → bad r = false) : ∀ r o f, w.comps.get r = some (.faucet f o) → bad r = true → f = ['-'] := by
  intro r o f hk hb
  have hm : Mentioned hs r := by
    by_cases hm : Mentioned hs r
    · exact hm
    · rw [A.only r hm] at hk; cases hk
  obtain ⟨k', hk', he⟩ := A.comps r hm
  rw [hk] at hk'; cases hk'
  have hr : r.1 = .faucet := by
    cases hr : r.1 with
    | faucet => rfl
    | drain => rw [expected_drain _ _ _ _ hr] at he; cases he
    | junction => rw [expected_junction _ _ _ _ hr] at he; cases he
    | launch => rw [expected_launch _ _ _ _ hr] at he; cases he
    | buffer => rw [expected_buffer _ _ _ _ hr] at he; cases he
    | regulator => rw [expected_regulator _ _ _ _ hr] at he; cases he
  have hg : c.faucet.get r.2 = some ['-'] := by
    apply Classical.byContradiction
    intro hg
    rw [hf r hr (Or.inl ⟨hr, hg⟩)] at hb; cases hb
  rw [expected_faucet _ _ _ _ hr, hg] at he
  cases he; rfl

variable (hS : (w.shutting bad).sys cs = w.sysWith cs bad)
include hS

theorem shutting_run : (w.shutting bad).Run cs cap τ ↔ w.RunWith cs bad cap τ := by
  constructor
  · rintro ⟨h1, h2, h3⟩
    rw [hS] at h1 h2 h3
    exact ⟨h1, h2, h3⟩
  · rintro ⟨h1, h2, h3⟩
    refine ⟨?_, ?_, ?_⟩ <;> rw [hS] <;> assumption

theorem shutting_over : (w.shutting bad).Over cs τ ↔ w.OverWith cs bad τ := by
  rw [Waiter.Over, Waiter.OverWith, hS]

theorem shutting_fair {σ : Nat → Option (Who × Ev)} : (w.shutting bad).Fair cs cap σ ↔ w.FairWith cs bad cap σ := by
  constructor
  · rintro ⟨h1, h2⟩
    refine ⟨fun n => (shutting_run hS).mp (h1 n), fun i n h => h2 i n fun m hm => ?_⟩
    obtain ⟨e, he⟩ := h m hm
    exact ⟨e, (shutting_run hS).mpr he⟩
  · rintro ⟨h1, h2⟩
    refine ⟨fun n => (shutting_run hS).mpr (h1 n), fun i n h => h2 i n fun m hm => ?_⟩
    obtain ⟨e, he⟩ := h m hm
    exact ⟨e, (shutting_run hS).mp he⟩

end
end Verif
