import Verif.Model.Start
/-!
# C45, C46: the outcome of a run
-/
namespace Verif

/-- The errors among some results. -/
def errorsOf : List (Except WaiterErr Nat) → List WaiterErr
  | [] => []
  | .ok _ :: rs => errorsOf rs
  | .error e :: rs => e :: errorsOf rs

/-- The sum of the counts among some results. -/
def sumOf : List (Except WaiterErr Nat) → Nat
  | [] => 0
  | .ok n :: rs => n + sumOf rs
  | .error _ :: rs => sumOf rs

theorem errorsOf_nil_iff (rs : List (Except WaiterErr Nat)) : errorsOf rs = [] ↔ ∀ x ∈ rs, ∃ n, x = .ok n := by
  induction rs with
  | nil => simp [errorsOf]
  | cons x rs ih => cases x <;> simp [errorsOf, ih]

theorem mem_errorsOf (rs : List (Except WaiterErr Nat)) (e : WaiterErr) : e ∈ errorsOf rs ↔ .error e ∈ rs := by
  induction rs with
  | nil => simp [errorsOf]
  | cons x rs ih => cases x <;> simp [errorsOf, ih]

theorem fold_error (rs : List (Except WaiterErr Nat)) (es : List WaiterErr) : rs.foldl folder (.error es) = .error (es ++ errorsOf rs) := by
  induction rs generalizing es with
  | nil => simp [errorsOf]
  | cons x rs ih => cases x <;> simp [folder, errorsOf, ih]

theorem fold_ok (rs : List (Except WaiterErr Nat)) (n : Nat) :
    rs.foldl folder (.ok n) = if errorsOf rs = [] then .ok (n + sumOf rs) else .error (errorsOf rs) := by
  induction rs generalizing n with
  | nil => simp [errorsOf, sumOf]
  | cons x rs ih =>
    cases x with
    | ok m =>
      simp only [List.foldl_cons, folder, errorsOf, sumOf, ih, Nat.add_assoc]
      by_cases h : errorsOf rs = [] <;> simp [h]
    | error e => simp [folder, errorsOf, fold_error]

/-- **C45** A run succeeds if and only if every component succeeded, and its result is then the sum of theirs. -/
theorem C45_success {start : Nat} {r : Results} {out} (h : Outcome start r out) :
    ((∃ n, out = some (.ok n)) ↔ ∀ x ∈ r.all, ∃ n, x = .ok n) ∧ ∀ n, out = some (.ok n) → n = sumOf r.all := by
  rw [← errorsOf_nil_iff]
  unfold Outcome at h
  rw [fold_ok] at h
  by_cases he : errorsOf r.all = []
  · rw [if_pos he] at h
    simp only at h
    subst h
    simp [he]
  · rw [if_neg he] at h
    obtain ⟨s, _, rfl⟩ := h
    cases s <;> simp [he]

/-- **C45** Otherwise, unless sorting aborts, each error is reported as often as it occurred. -/
theorem C45_reported {start : Nat} {r : Results} {es} (h : Outcome start r (some (.error es))) : es ≠ [] ∧ es.Perm (errorsOf r.all) := by
  unfold Outcome at h
  rw [fold_ok] at h
  by_cases he : errorsOf r.all = []
  · rw [if_pos he] at h; simp at h
  · rw [if_neg he] at h
    obtain ⟨s, hs, e⟩ := h
    cases s with
    | none => simp at e
    | some out =>
      simp at e; subst e
      refine ⟨fun hn => ?_, hs.1⟩
      have := hs.1
      rw [hn] at this
      exact he this.symm.eq_nil

/-- The results of everything that was started, by what it was. -/
def Results.kinds (r : Results) : List (List (Except WaiterErr Nat)) := [r.launches, r.faucets, r.regulators, r.managers, r.drains, r.buffers, r.junctions]

theorem errorsOf_append (a b : List (Except WaiterErr Nat)) : errorsOf (a ++ b) = errorsOf a ++ errorsOf b := by
  induction a with
  | nil => rfl
  | cons x a ih => cases x <;> simp [errorsOf, ih]

theorem sumOf_append (a b : List (Except WaiterErr Nat)) : sumOf (a ++ b) = sumOf a + sumOf b := by
  induction a with
  | nil => simp [sumOf]
  | cons x a ih => cases x <;> simp [sumOf, ih]; omega

/-- **C45** Everything that was started counts: launches, faucets, regulators, managers, drains, buffers and junctions. -/
theorem C45_everyone {start : Nat} {r : Results} {out} (h : Outcome start r out) :
    ((∃ n, out = some (.ok n)) ↔ ∀ l ∈ r.kinds, errorsOf l = []) ∧ (∀ n, out = some (.ok n) → n = (r.kinds.map sumOf).sum) ∧
    ∀ es, out = some (.error es) → es.Perm (r.kinds.flatMap errorsOf) := by
  have h1 : errorsOf r.all = r.kinds.flatMap errorsOf := by simp [Results.all, Results.kinds, errorsOf_append]
  have h2 : sumOf r.all = (r.kinds.map sumOf).sum := by simp [Results.all, Results.kinds, sumOf_append, Nat.add_assoc]
  have hs := C45_success h
  rw [← errorsOf_nil_iff, h1, h2] at hs
  refine ⟨hs.1.trans (by simp [List.flatMap_eq_nil_iff]), hs.2, ?_⟩
  rintro es rfl
  have := (C45_reported h).2
  rwa [h1] at this

theorem swap_compare (a b : Nat) : compare a b = (compare b a).swap := by
  rcases Nat.lt_trichotomy a b with h | h | h
  · rw [Nat.compare_eq_lt.mpr h, Nat.compare_eq_gt.mpr h]; rfl
  · subst h; rw [Nat.compare_eq_eq.mpr rfl]; rfl
  · rw [Nat.compare_eq_gt.mpr h, Nat.compare_eq_lt.mpr h]; rfl

theorem compareErrs_swap (start : Nat) (a b : WaiterErr) : compareErrs start a b = (compareErrs start b a).swap := by
  unfold compareErrs
  cases a.instant <;> cases b.instant <;> first | rfl | exact swap_compare _ _

/-- How long after the start. -/
def WaiterErr.after (start : Nat) (e : WaiterErr) : Option Nat := e.instant.map (· - start)

/-- An error without a time beside two with different times. -/
def Mixed (start : Nat) (es : List WaiterErr) : Prop :=
  ∃ a ∈ es, ∃ b ∈ es, ∃ c ∈ es, ∃ i j, a.instant = none ∧ b.after start = some i ∧ c.after start = some j ∧ i ≠ j

theorem compareErrs_none {start : Nat} {a b : WaiterErr} (h : a.instant = none) : compareErrs start a b = .eq ∧ compareErrs start b a = .eq := by
  unfold compareErrs
  rw [h]
  cases b.instant <;> exact ⟨rfl, rfl⟩

theorem compareErrs_some {start : Nat} {a b : WaiterErr} {i j : Nat} (h : a.after start = some i) (h' : b.after start = some j) : compareErrs start a b = compare i j := by
  unfold WaiterErr.after at h h'
  unfold compareErrs
  cases ha : a.instant with
  | none => rw [ha] at h; cases h
  | some x => cases hb : b.instant with
    | none => rw [hb] at h'; cases h'
    | some y =>
      rw [ha] at h; rw [hb] at h'
      simp at h h'
      subst h h'
      rfl

theorem after_cases (start : Nat) (e : WaiterErr) : e.instant = none ∨ ∃ i, e.after start = some i := by
  unfold WaiterErr.after
  cases e.instant with
  | none => exact Or.inl rfl
  | some i => exact Or.inr ⟨_, rfl⟩

/-- **C46** The comparison is a total order on the errors of a run exactly if none without a time is beside two with different times. -/
theorem C46_exactly (start : Nat) (es : List WaiterErr) : Consistent (compareErrs start) es ↔ ¬ Mixed start es := by
  constructor
  · rintro ⟨_, h⟩ ⟨a, ha, b, hb, c, hc, i, j, h1, h2, h3, hne⟩
    have e1 : compareErrs start b a ≠ .gt := by rw [(compareErrs_none h1).2]; simp
    have e2 : compareErrs start a c ≠ .gt := by rw [(compareErrs_none h1).1]; simp
    have e3 : compareErrs start c a ≠ .gt := by rw [(compareErrs_none h1).2]; simp
    have e4 : compareErrs start a b ≠ .gt := by rw [(compareErrs_none h1).1]; simp
    have x1 := h b hb a ha c hc e1 e2
    have x2 := h c hc a ha b hb e3 e4
    rw [compareErrs_some h2 h3] at x1
    rw [compareErrs_some h3 h2] at x2
    rw [Ne, Nat.compare_eq_gt] at x1 x2
    omega
  · intro hm
    refine ⟨fun a _ b _ => compareErrs_swap start a b, ?_⟩
    intro a ha b hb c hc h1 h2
    rcases after_cases start a with na | ⟨i, hi⟩
    · rw [(compareErrs_none na).1]; simp
    · rcases after_cases start c with nc | ⟨k, hk⟩
      · rw [(compareErrs_none nc).2]; simp
      · rcases after_cases start b with nb | ⟨j, hj⟩
        · have : i = k := by
            apply Decidable.byContradiction
            intro hne
            exact hm ⟨b, hb, a, ha, c, hc, i, k, nb, hi, hk, hne⟩
          rw [compareErrs_some hi hk, Nat.compare_eq_eq.mpr this]; simp
        · rw [compareErrs_some hi hj] at h1
          rw [compareErrs_some hj hk] at h2
          rw [compareErrs_some hi hk]
          rw [Ne, Nat.compare_eq_gt] at h1 h2 ⊢
          omega

/-- **C46**, refuted: any error without a time compares equal to any two others, also where these do not to each other. -/
theorem C46_refuted {start : Nat} {a b c : WaiterErr} {i j : Nat} (h1 : a.instant = none) (h2 : b.after start = some i) (h3 : c.after start = some j) (hne : i ≠ j) :
    compareErrs start b a = .eq ∧ compareErrs start a c = .eq ∧ compareErrs start b c ≠ .eq ∧ ¬ Consistent (compareErrs start) [a, b, c] := by
  refine ⟨(compareErrs_none h1).2, (compareErrs_none h1).1, ?_, ?_⟩
  · rw [compareErrs_some h2 h3, Ne, Nat.compare_eq_eq]; exact hne
  · rw [C46_exactly]
    exact fun h => h ⟨a, by simp, b, by simp, c, by simp, i, j, h1, h2, h3, hne⟩

/-- **C46**, the part that is so. Missing: lists with an error without a time and two with different times, where it is false (`C46_refuted`). -/
theorem C46_timed_partial (start : Nat) (es : List WaiterErr) (h : (∀ e ∈ es, e.instant ≠ none) ∨ ∀ e ∈ es, e.instant = none) : Consistent (compareErrs start) es := by
  rw [C46_exactly]
  rintro ⟨a, ha, b, hb, _, _, i, _, h1, h2, _⟩
  rcases h with h | h
  · exact h a ha h1
  · have := h b hb
    simp [WaiterErr.after, this] at h2

/-- **C45** If all the errors have a time, sorting does not abort, and the earliest comes first. -/
theorem C45_earliest {start : Nat} {r : Results} {out} (h : Outcome start r out) (ht : ∀ e, .error e ∈ r.all → ∃ t, e.instant = some t ∧ start ≤ t) :
    out ≠ none ∧ ∀ es, out = some (.error es) → es.Pairwise fun a b => ∀ s t, a.instant = some s → b.instant = some t → s ≤ t := by
  have hc : Consistent (compareErrs start) (errorsOf r.all) := C46_timed_partial _ _ (Or.inl fun e he => by
    obtain ⟨t, e1, _⟩ := ht e ((mem_errorsOf _ _).mp he)
    rw [e1]; simp)
  unfold Outcome at h
  rw [fold_ok] at h
  by_cases he : errorsOf r.all = []
  · rw [if_pos he] at h
    simp only at h
    subst h; simp
  · rw [if_neg he] at h
    obtain ⟨s, hs, rfl⟩ := h
    cases s with
    | none => exact absurd hc hs
    | some out =>
      refine ⟨by simp, ?_⟩
      intro es e
      simp at e; subst e
      have hp := hs.2 hc
      refine List.Pairwise.imp_of_mem ?_ hp
      intro a b ha hb hle s t h1 h2
      obtain ⟨s', e1, q1⟩ := ht a ((mem_errorsOf _ _).mp (hs.1.mem_iff.mp ha))
      obtain ⟨t', e2, q2⟩ := ht b ((mem_errorsOf _ _).mp (hs.1.mem_iff.mp hb))
      rw [h1] at e1; rw [h2] at e2
      cases e1; cases e2
      rw [compareErrs_some (i := s - start) (j := t - start) (by simp [WaiterErr.after, h1]) (by simp [WaiterErr.after, h2]), Ne, Nat.compare_eq_gt] at hle
      omega

/-- **C45** Sorting can abort only with an error without a time beside two with different times. -/
theorem C45_abort {start : Nat} {r : Results} (h : Outcome start r none) : Mixed start (errorsOf r.all) := by
  unfold Outcome at h
  rw [fold_ok] at h
  by_cases he : errorsOf r.all = []
  · rw [if_pos he] at h; simp at h
  · rw [if_neg he] at h
    obtain ⟨s, hs, e⟩ := h
    cases s with
    | some _ => simp at e
    | none =>
      apply Classical.byContradiction
      intro hm
      exact hs ((C46_exactly _ _).mpr hm)

/-- Some sorted arrangement exists. -/
theorem exists_sorted {α} {cmp : α → α → Ordering} : ∀ (l : List α), Consistent cmp l → ∃ out : List α, out.Perm l ∧ out.Pairwise fun a b => cmp a b ≠ .gt := by
  have ins : ∀ (a : α) (l : List α), Consistent cmp (a :: l) → (l.Pairwise fun a b => cmp a b ≠ .gt) →
      ∃ out : List α, out.Perm (a :: l) ∧ out.Pairwise fun a b => cmp a b ≠ .gt := by
    intro a l
    induction l with
    | nil => intro _ _; exact ⟨[a], List.Perm.refl _, by simp⟩
    | cons b l ih =>
      intro hc hp
      rw [List.pairwise_cons] at hp
      by_cases hab : cmp a b = .gt
      · obtain ⟨out, h1, h2⟩ := ih ⟨fun x hx y hy => hc.1 x (by simp at hx ⊢; grind) y (by simp at hy ⊢; grind),
          fun x hx y hy z hz => hc.2 x (by simp at hx ⊢; grind) y (by simp at hy ⊢; grind) z (by simp at hz ⊢; grind)⟩ hp.2
        refine ⟨b :: out, (List.Perm.cons b h1).trans (List.Perm.swap a b l), ?_⟩
        rw [List.pairwise_cons]
        refine ⟨fun x hx => ?_, h2⟩
        rcases List.mem_cons.mp (h1.mem_iff.mp hx) with rfl | hx
        · have := hc.1 b (by simp) x (by simp)
          rw [this, hab]; simp
        · exact hp.1 x hx
      · refine ⟨a :: b :: l, List.Perm.refl _, ?_⟩
        rw [List.pairwise_cons, List.pairwise_cons]
        refine ⟨fun x hx => ?_, hp⟩
        rcases List.mem_cons.mp hx with rfl | hx
        · exact hab
        · exact hc.2 a (by simp) b (by simp) x (by simp [hx]) hab (hp.1 x hx)
  intro l
  induction l with
  | nil => intro _; exact ⟨[], List.Perm.refl _, by simp⟩
  | cons a l ih =>
    intro hc
    obtain ⟨out, h1, h2⟩ := ih ⟨fun x hx y hy => hc.1 x (by simp [hx]) y (by simp [hy]), fun x hx y hy z hz => hc.2 x (by simp [hx]) y (by simp [hy]) z (by simp [hz])⟩
    have hm : ∀ x ∈ a :: out, x ∈ a :: l := fun x hx => by
      rcases List.mem_cons.mp hx with rfl | hx
      · simp
      · simp [h1.mem_iff.mp hx]
    obtain ⟨o, h3, h4⟩ := ins a out ⟨fun x hx y hy => hc.1 x (hm x hx) y (hm y hy), fun x hx y hy z hz => hc.2 x (hm x hx) y (hm y hy) z (hm z hz)⟩ h2
    exact ⟨o, h3.trans (List.Perm.cons a h1), h4⟩

/-- **C45** Whatever the results, there is an outcome that is not an abort. -/
theorem C45_exists (start : Nat) (r : Results) : ∃ out, Outcome start r (some out) := by
  unfold Outcome
  rw [fold_ok]
  by_cases he : errorsOf r.all = []
  · rw [if_pos he]; exact ⟨_, rfl⟩
  · rw [if_neg he]
    by_cases hc : Consistent (compareErrs start) (errorsOf r.all)
    · obtain ⟨out, h1, h2⟩ := exists_sorted _ hc
      exact ⟨.error out, some out, ⟨h1, fun _ => h2⟩, rfl⟩
    · exact ⟨.error (errorsOf r.all), some (errorsOf r.all), ⟨List.Perm.refl _, fun h => absurd h hc⟩, rfl⟩

/-! ## Instances -/

def lateError : WaiterErr := .causedBy (.launch, "x".toList) (.recv ⟨0, none, 1, .terminate⟩) 7
def earlyError : WaiterErr := .causedBy (.faucet, "tap".toList) (.openIO ⟨0, 1⟩) 5

/-- Two programs succeeded, one failed at 7, a faucet at 5. -/
def someResults : Results := ⟨[.ok 3, .error lateError, .ok 2], [.error earlyError], [], [], [], [], []⟩

example : ∃ es, Outcome 1 someResults (some (.error es)) ∧ es = [earlyError, lateError] := by
  refine ⟨_, ⟨some [earlyError, lateError], ⟨List.Perm.swap _ _ _, fun _ => ?_⟩, rfl⟩, rfl⟩
  decide

example : ∀ e, .error e ∈ someResults.all → ∃ t, e.instant = some t ∧ 1 ≤ t := by
  intro e he
  simp [someResults, Results.all] at he
  rcases he with rfl | rfl
  · exact ⟨7, rfl, by omega⟩
  · exact ⟨5, rfl, by omega⟩

example : compareErrs 1 lateError .couldNotPause = .eq ∧ compareErrs 1 .couldNotPause earlyError = .eq ∧ compareErrs 1 lateError earlyError = .gt := by decide

end Verif
