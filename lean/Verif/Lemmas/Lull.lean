import Verif.Lemmas.Bounded
/-!
# From some time on a fair schedule only looks and sleeps
-/
namespace Verif

/-- From time `n` on the channels are as in `st`; whoever ever ends has ended; everybody either can do nothing and does nothing, or goes on for ever
without getting anything forward. -/
structure Waiter.Lull (w : Waiter) (cs : List Capture) (cap : Caps) (σ : Nat → Option (Who × Ev)) (n : Nat) (st : Store) : Prop where
  quiet : ∀ m, n ≤ m → execAll cap Store.init ((upTo σ m).map Prod.snd) = some st
  ended : ∀ i t, w.sys cs i = some t → ∀ m, t.Done (proj i (upTo σ m)) → t.Done (proj i (upTo σ n))
  each : ∀ i t, w.sys cs i = some t → ((∀ m, n ≤ m → proj i (upTo σ m) = proj i (upTo σ n)) ∧ ¬ w.CanStep cs cap (upTo σ n) i) ∨
    ∃ g : Nat → Ev, (∀ k, t.Partial (proj i (upTo σ n) ++ first g k)) ∧ ∀ j, w.moves i (g j) = false ∧ Verif.exec cap st (g j) = some st

/-- As `Lull`, where those who do nothing may be able to. -/
structure Waiter.Calmed (w : Waiter) (cs : List Capture) (cap : Caps) (σ : Nat → Option (Who × Ev)) (n : Nat) (st : Store) : Prop where
  quiet : ∀ m, n ≤ m → execAll cap Store.init ((upTo σ m).map Prod.snd) = some st
  ended : ∀ i t, w.sys cs i = some t → ∀ m, t.Done (proj i (upTo σ m)) → t.Done (proj i (upTo σ n))
  each : ∀ i t, w.sys cs i = some t → ((∀ m, n ≤ m → proj i (upTo σ m) = proj i (upTo σ n)) ∧ ∀ m, n ≤ m → ∀ e, σ m ≠ some (i, e)) ∨
    ∃ g : Nat → Ev, (∀ k, t.Partial (proj i (upTo σ n) ++ first g k)) ∧ ∀ j, w.moves i (g j) = false ∧ Verif.exec cap st (g j) = some st

section
variable {c : Config} {hs : List Hop} {w : Waiter} {cs : List Capture} {cap : Caps} {σ : Nat → Option (Who × Ev)}

theorem moves_exec {i : Who} {e : Ev} (h : w.moves i e = false) {st st' : Store} (hx : exec cap st e = some st') : st' = st := by
  unfold Waiter.moves at h
  split at h
  · rcases idles_act (by simpa using h) with ⟨ch, rfl⟩ | ⟨k, rfl⟩
    · exact (exec_try_empty hx).2.2
    · simp [exec] at hx; exact hx.symm
  · cases h
  · split at h
    · exact tellsNothing_exec (by simpa using h) hx
    · exact tellsNothing_exec (by simpa using h) hx
    · cases h

theorem done_later (runs : ∀ n, w.Run cs cap (upTo σ n)) {i : Who} {t : Task} {n m : Nat} (ht : w.sys cs i = some t) (hd : t.Done (proj i (upTo σ n))) (hnm : n ≤ m) :
    proj i (upTo σ m) = proj i (upTo σ n) := by
  obtain ⟨u, hu', _⟩ := proj_since (σ := σ) i hnm
  cases u with
  | nil => simpa using hu'
  | cons e u => exact absurd (by rw [← hu']; exact (runs m).exec.tasks i t ht) (hd.stops (e := e) (u := u))

/-- When everybody has got forward what they will ever get forward. -/
theorem Waiter.calmed (runs : ∀ n, w.Run cs cap (upTo σ n)) (hK : ∀ i, ∃ K, ∀ n, (proj i (upTo σ n)).countP (w.moves i) ≤ K) :
    ∃ n, ∀ m, n ≤ m → ∃ st, w.Calmed cs cap σ m st := by
  have parts : ∀ n {i t}, w.sys cs i = some t → t.Partial (proj i (upTo σ n)) := fun n {i t} ht => (runs n).exec.tasks i t ht
  have later : ∀ {i t n m}, w.sys cs i = some t → t.Done (proj i (upTo σ n)) → n ≤ m → proj i (upTo σ m) = proj i (upTo σ n) := done_later runs
  obtain ⟨n1, hn1⟩ := together (l := w.everyone cs) (P := fun i m => (∀ e, σ m = some (i, e) → w.moves i e = false) ∧
      (∀ t, w.sys cs i = some t → ∀ k, t.Done (proj i (upTo σ k)) → t.Done (proj i (upTo σ m))) ∧
      ((∀ n, ∃ k e, n ≤ k ∧ σ k = some (i, e)) ∨ ∀ e, σ m ≠ some (i, e))) (by
    intro i _
    have h1 : ∃ n, ∀ m, n ≤ m → ∀ e, σ m = some (i, e) → w.moves i e = false := by
      obtain ⟨K, hK⟩ := hK i
      obtain ⟨n, hn⟩ := settles (f := fun n => (proj i (upTo σ n)).countP (w.moves i)) (by
        intro n
        rcases proj_upTo_succ (σ := σ) i n with h | ⟨e, _, h⟩ <;> rw [h]
        · exact Nat.le_refl _
        · rw [List.countP_append]; exact Nat.le_add_right _ _) hK
      refine ⟨n, fun m hm e he => ?_⟩
      have h1 := hn m hm
      have h2 := hn (m + 1) (by omega)
      have h3 : proj i (upTo σ (m + 1)) = proj i (upTo σ m) ++ [e] := by
        rw [upTo, proj_append, he]; simp [proj]
      rw [h3, List.countP_append, h1] at h2
      cases hme : w.moves i e with
      | false => rfl
      | true => simp [hme] at h2
    have h2 : ∃ n, ∀ m, n ≤ m → ∀ t, w.sys cs i = some t → ∀ k, t.Done (proj i (upTo σ k)) → t.Done (proj i (upTo σ m)) := by
      cases ht : w.sys cs i with
      | none => exact ⟨0, fun _ _ t h => by cases h⟩
      | some t =>
        by_cases hd : ∃ k, t.Done (proj i (upTo σ k))
        · obtain ⟨k, hk⟩ := hd
          refine ⟨k, fun m hm t' ht' _ _ => ?_⟩
          cases ht'
          rw [later ht hk hm]; exact hk
        · exact ⟨0, fun _ _ t' ht' k hk => by cases ht'; exact absurd ⟨k, hk⟩ hd⟩
    have h3 : ∃ n, ∀ m, n ≤ m → (∀ n, ∃ k e, n ≤ k ∧ σ k = some (i, e)) ∨ ∀ e, σ m ≠ some (i, e) := by
      by_cases h : ∀ n, ∃ k e, n ≤ k ∧ σ k = some (i, e)
      · exact ⟨0, fun _ _ => Or.inl h⟩
      · obtain ⟨n, hn⟩ := Classical.not_forall.mp h
        exact ⟨n, fun m hm => Or.inr fun e he => hn ⟨m, e, hm, he⟩⟩
    obtain ⟨n1, h1⟩ := h1
    obtain ⟨n2, h2⟩ := h2
    obtain ⟨n3, h3⟩ := h3
    exact ⟨max n1 (max n2 n3), fun m hm => ⟨h1 m (by omega), h2 m (by omega), h3 m (by omega)⟩⟩)
  refine ⟨n1, fun n0 hle => ?_⟩
  have hn0 := fun m (hm : n0 ≤ m) => hn1 m (Nat.le_trans hle hm)
  have still : ∀ m, n0 ≤ m → ∀ i e, σ m = some (i, e) → w.moves i e = false := by
    intro m hm i e he
    refine (hn0 m hm i ?_).1 e he
    apply sys_everyone
    intro hs'
    have hx : (i, e) ∈ upTo σ (m + 1) := by rw [upTo, he]; simp
    exact (runs (m + 1)).known _ hx hs'
  obtain ⟨st, hst⟩ := Option.isSome_iff_exists.mp (runs n0).exec.chans
  have quiet : ∀ m, n0 ≤ m → execAll cap Store.init ((upTo σ m).map Prod.snd) = some st := by
    intro m hm
    induction hm with
    | refl => exact hst
    | @step m hm ih =>
      cases hs' : σ m with
      | none => rw [upTo, hs']; simpa using ih
      | some x =>
        obtain ⟨i, e⟩ := x
        have hmv := still m hm i e hs'
        have hru := runs (m + 1)
        have hch := hru.exec.chans
        rw [upTo, hs', List.map_append, execAll_append, ih] at hch ⊢
        simp only [Option.toList_some, List.map_cons, List.map_nil, Option.bind_some, execAll] at hch ⊢
        cases hx : Verif.exec cap st e with
        | none => rw [hx] at hch; cases hch
        | some st' => rw [moves_exec hmv hx]
  have hexec : ∀ {i m e}, n0 ≤ m → σ m = some (i, e) → Verif.exec cap st e = some st := by
    intro i m e hm he
    have h1 := quiet (m + 1) (by omega)
    rw [upTo, he, List.map_append, execAll_append, quiet m hm] at h1
    simp only [Option.toList_some, List.map_cons, List.map_nil, Option.bind_some, execAll] at h1
    split at h1
    · cases h1
    · next h => rw [h, h1]
  refine ⟨st, quiet, ?_, ?_⟩
  · intro i t ht m hd
    exact (hn0 n0 (Nat.le_refl _) i (sys_everyone (by rw [ht]; simp))).2.1 t ht m hd
  · intro i t ht
    have hmem : i ∈ w.everyone cs := sys_everyone (by rw [ht]; simp)
    by_cases hinf : ∀ n, ∃ k e, n ≤ k ∧ σ k = some (i, e)
    · right
      obtain ⟨g, hg⟩ := numbered (T := fun k => proj i (upTo σ (n0 + k))) (by
        intro n
        rcases proj_upTo_succ (σ := σ) i (n0 + n) with h | ⟨e, _, h⟩
        · exact Or.inl h
        · exact Or.inr ⟨e, h⟩) (by
        intro n
        obtain ⟨m, e, hm, he⟩ := hinf (n0 + n)
        refine ⟨m - n0, by omega, ?_⟩
        have e1 : n0 + (m - n0 + 1) = m + 1 := by omega
        have e2 : n0 + (m - n0) = m := by omega
        simp only [e1, e2]
        rw [upTo, proj_append, he]; simp [proj])
      refine ⟨g, fun k => ?_, fun j => ?_⟩
      · obtain ⟨n, hn⟩ := hg k
        simp only [Nat.add_zero] at hn
        rw [← hn]; exact parts _ ht
      · obtain ⟨n, hn⟩ := hg (j + 1)
        simp only [Nat.add_zero] at hn
        obtain ⟨u, hu1, hu2⟩ := proj_since (σ := σ) i (show n0 ≤ n0 + n by omega)
        rw [hn] at hu1
        have := List.append_cancel_left hu1
        subst this
        obtain ⟨m, hm, he⟩ := hu2 (g j) (mem_first.mpr ⟨j, by omega, rfl⟩)
        exact ⟨still m hm i _ he, hexec hm he⟩
    · left
      have never : ∀ m, n0 ≤ m → ∀ e, σ m ≠ some (i, e) := fun m hm => (hn0 m hm i hmem).2.2.resolve_left hinf
      have same : ∀ m, n0 ≤ m → proj i (upTo σ m) = proj i (upTo σ n0) := by
        intro m hm
        obtain ⟨u, hu1, hu2⟩ := proj_since (σ := σ) i hm
        cases u with
        | nil => simpa using hu1
        | cons e u =>
          obtain ⟨k, hk, he⟩ := hu2 e (by simp)
          exact absurd he (never k hk e)
      exact ⟨same, never⟩

theorem Waiter.Fair.lull (hσ : w.Fair cs cap σ) (hK : ∀ i, ∃ K, ∀ n, (proj i (upTo σ n)).countP (w.moves i) ≤ K) : ∃ n st, w.Lull cs cap σ n st := by
  obtain ⟨n0, h0⟩ := Waiter.calmed hσ.runs hK
  obtain ⟨st, C⟩ := h0 n0 (Nat.le_refl _)
  refine ⟨n0, st, C.quiet, C.ended, fun i t ht => ?_⟩
  rcases C.each i t ht with ⟨same, never⟩ | h
  case inr => exact Or.inr h
  left
  refine ⟨same, fun hcs => ?_⟩
  obtain ⟨m, e, hm, he⟩ := hσ.fair i n0 (by
    intro m hm
    obtain ⟨e, he⟩ := hcs
    have h1 := he.exec.chans
    rw [List.map_append, execAll_append, C.quiet n0 (Nat.le_refl _)] at h1
    obtain ⟨st', hs'⟩ := Option.isSome_iff_exists.mp h1
    have h2 : Verif.exec cap st e = some st' := by
      simp [execAll] at hs'
      split at hs'
      · cases hs'
      · next h => rw [h, hs']
    have h3 := he.exec.tasks i t ht
    rw [proj_append, show proj i [(i, e)] = [e] by simp [proj], ← same m hm] at h3
    refine ⟨e, (hσ.runs m).step (C.quiet m hm) ht h3 h2 ?_⟩
    rintro r rfl p hp' t' ht'
    have h4 := he.exits (upTo σ n0) [] r e rfl p hp' t' ht'
    rw [done_later hσ.runs ht' h4 hm]; exact h4)
  exact never m hm e he

variable {n : Nat} {st : Store}

/-- Who gets something forward with everything it does can do nothing. -/
theorem Waiter.Lull.mover (L : w.Lull cs cap σ n st) {i : Who} {t : Task} (ht : w.sys cs i = some t) (h : ∀ e, w.moves i e = true) :
    (∀ m, n ≤ m → proj i (upTo σ m) = proj i (upTo σ n)) ∧ ¬ w.CanStep cs cap (upTo σ n) i := by
  rcases L.each i t ht with h1 | ⟨g, _, h2⟩
  · exact h1
  · have := (h2 0).1
    rw [h] at this; cases this

end
end Verif
