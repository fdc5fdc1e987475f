import Verif.Props.Tolerant
/-!
# Example for C98: one of two drains cannot create its file
-/
namespace Verif

/-- What happened, with the turns in between. -/
def stepsOf (names : List Who) : Nat → List (Who × Ev) → List (Step Who)
  | _, [] => []
  | k, (i, e) :: l => List.replicate ((names.idxOf i + names.length - k) % names.length) .turn ++ .ev i e :: stepsOf names (names.idxOf i) l

theorem stepsOf_events (names : List Who) (k : Nat) (τ : List (Who × Ev)) : (stepsOf names k τ).filterMap Step.event = τ := by
  induction τ generalizing k with
  | nil => rfl
  | cons x τ ih =>
    have turns : ∀ n, (List.replicate n (Step.turn (ι := Who))).filterMap Step.event = [] := by
      intro n
      induction n with
      | zero => rfl
      | succ n ihn => rw [List.replicate_succ, List.filterMap_cons]; exact ihn
    simp [stepsOf, List.filterMap_append, turns, Step.event, ih]

theorem Polled.take {cap : Caps} {as : List (Who × Task)} {τ : List (Who × Ev)} {k : Nat} (h : Polled cap as τ k) (n : Nat) : ∃ k', Polled cap as (τ.take n) k' := by
  induction h with
  | start => exact ⟨0, by simpa using .start⟩
  | @act τ k i t e h ha ih =>
    by_cases hn : n ≤ τ.length
    · rw [List.take_append_of_le_length hn]; exact ih
    · rw [List.take_of_length_le (by simp; omega)]; exact ⟨k, .act h ha⟩
  | @other τ k j e h ha ih =>
    by_cases hn : n ≤ τ.length
    · rw [List.take_append_of_le_length hn]; exact ih
    · rw [List.take_of_length_le (by simp; omega)]; exact ⟨k, .other h ha⟩
  | yield _ _ _ ih => exact ih

/-- A file goes into a junction, from there into a drain and through a buffer into another; the pipes out of the junction have variations `F` and `C`. The first drain cannot create its file. -/
def ravine : List (Str × Hop) :=
  [("m_1".toList, ⟨⟨.faucet, "spring".toList, .out⟩, none, ⟨.junction, "fork".toList⟩, ⟨.terminate, 0⟩, none⟩),
   ("m_2".toList, ⟨⟨.junction, "fork".toList, .out⟩, none, ⟨.drain, "field".toList⟩, ⟨.finish, 0⟩, none⟩),
   ("m_3".toList, ⟨⟨.junction, "fork".toList, .out⟩, none, ⟨.buffer, "pond".toList⟩, ⟨.consume, 0⟩, none⟩),
   ("m_4".toList, ⟨⟨.buffer, "pond".toList, .out⟩, none, ⟨.drain, "lake".toList⟩, ⟨.terminate, 0⟩, none⟩)]
def ravineConfig : Config where
  faucet := [("spring".toList, "-".toList)]
  regulator := []
  drain := [("lake".toList, "-".toList), ("field".toList, "f".toList)]
  launch := []
  connection := hopSets ravine
def ravineWaiter : Waiter := ((getWaiter ravineConfig).ok?).getD Waiter.new
def ravineBad (r : CompRef) : Bool := r == (.drain, "field".toList)
def ravineShut : Waiter := ravineWaiter.shutting ravineBad
def ravineCaps : Caps := realCaps (ravine.map (·.2))
def ravineOrder : List CompRef := [(.faucet, "spring".toList), (.drain, "field".toList), (.drain, "lake".toList), (.buffer, "pond".toList), (.junction, "fork".toList)]
def ravineFeed : Feed := fun h => if h = 0 then [[1, 10], [2, 10]] else []
/-- spring, field, lake, the three parts of pond, fork -/
def ravineNames : List Who := (ravineShut.joined [] ravineOrder).map Prod.fst
def ravineTrace := ravineShut.drive [] ravineCaps ravineFeed .err (([0, 0, 1, 5, 5, 5, 6, 6, 6, 6, 0, 0, 3, 3, 3, 4, 4, 4, 5, 5, 5, 5, 5, 5, 5, 6, 6, 6, 6, 6, 0, 0, 2, 3, 3, 3, 4, 4, 4, 5,
  5, 5, 5, 5, 5, 5, 6, 6, 6, 6, 6, 2, 2, 3, 3, 3, 3, 3, 3, 3, 4, 4, 4, 4, 4, 4, 4, 5, 5, 5, 5, 5, 5, 5, 2, 2, 2, 2] : List Nat).filterMap fun k => ravineNames[k]?)

theorem ravine_built : getWaiter ravineConfig = .ok ravineWaiter := by decide +kernel
theorem ravine_complete : Complete (ravine.map (·.2)) := complete_of (by decide +kernel) (by decide +kernel)
def ravineRank : Who → Nat
  | .part (.junction, _) _ => 1
  | .part (.buffer, _) .input => 2
  | .part (.buffer, _) .output => 3
  | .part (.drain, _) _ => 4
  | _ => 0
theorem ravine_free : CircleFree (ravine.map (·.2)) := circleFree_of ravineRank (by decide +kernel) (by decide +kernel) (fun _ => Nat.lt_succ_self 2)
theorem ravine_lenient : Lenient (ravine.map (·.2)) := by
  intro h hm
  have : ∀ h ∈ ravine.map (·.2), h.src.ty = .junction → h.input.breakable ≠ .terminate := by decide +kernel
  exact this h hm
theorem ravine_opens (r : CompRef) (hr : r.1 = .faucet) (_ : ravineConfig.Opens r) : ravineBad r = false := by
  obtain ⟨t, x⟩ := r
  cases hr
  simp [ravineBad]
theorem ravine_sys : ravineShut.sys [] = ravineWaiter.sysWith [] ravineBad :=
  shutting_sys ((assembled (c := ravineConfig) (R := ravine) (order := []) rfl ravine_built rfl).opened ravine_opens)
theorem ravine_runs : ravineShut.Run [] ravineCaps ravineTrace := Waiter.runs_sound (by decide +kernel)
theorem ravine_over : ravineShut.Over [] ravineTrace := Waiter.overNow_sound (by decide +kernel)
theorem ravine_fair : ravineWaiter.FairWith [] ravineBad ravineCaps fun m => ravineTrace[m]? := (shutting_fair ravine_sys).mp (fair_of_over ravine_runs ravine_over)
theorem ravine_polled : ∃ k, Polled ravineCaps (ravineWaiter.joinedWith [] ravineBad ravineOrder) ravineTrace k := by
  rw [← shutting_joined ravine_sys]
  have h : (script ravineCaps (ravineShut.joined [] ravineOrder) (stepsOf ravineNames 0 ravineTrace) [] Store.init 0).isSome = true := by decide +kernel
  obtain ⟨⟨st, k⟩, hx⟩ := Option.isSome_iff_exists.mp h
  have := (script_sound (τ := []) rfl .start hx).1
  rw [List.nil_append, stepsOf_events] at this
  exact ⟨k, this⟩
theorem ravine_known : ∀ x ∈ ravineTrace, x.1 ∈ ravineNames := by decide +kernel
theorem ravine_listed : ∀ r, Mentioned (ravine.map (·.2)) r → r ∈ ravineOrder := by
  rintro r ⟨h, hm, hr⟩
  have : ∀ h ∈ ravine.map (·.2), (h.src.ty, h.src.name) ∈ ravineOrder ∧ (h.dst.ty, h.dst.name) ∈ ravineOrder := by decide +kernel
  rcases hr with rfl | rfl
  · exact (this h hm).1
  · exact (this h hm).2

/-- All hypotheses of C98 are met: everything ends and `start` returns. -/
theorem ravine_says : ∃ n out, ravineWaiter.Returns [] ravineBad (upTo (fun m => ravineTrace[m]?) n) (some out) ∧
    ∀ es, out = .error es → ∀ r, (∃ m t, .causedBy r m t ∈ es) ↔ Mentioned (ravine.map (·.2)) r ∧ ravineConfig.Breaks (ravine.map (·.2)) ravineBad (upTo (fun m => ravineTrace[m]?) n) r := by
  obtain ⟨n, out, h1, _, h3⟩ := C98_says (c := ravineConfig) (R := ravine) (order := []) rfl ravine_built rfl ravine_complete ravine_free ravine_lenient ravine_opens (rs := ravineOrder)
    (by decide +kernel) ravine_listed ravine_fair (fun n => by
      rw [upTo_list]
      obtain ⟨k, hk⟩ := ravine_polled
      exact hk.take n) ravineTrace.length (fun n => by
      rw [upTo_list]
      have h := limited_length (ravineTrace.take n)
      have hl : (ravineTrace.take n).length ≤ ravineTrace.length := by rw [List.length_take]; omega
      exact ⟨fun i k => Nat.le_trans (h.lines i k) hl, fun i => Nat.le_trans (h.statuses i) hl⟩)
  exact ⟨n, out, h1, h3⟩

/-- The drain that could not create its file is the only thing reported, and the other one has got everything though the junction was refused every line on its way to the first. -/
example : ∃ es, ravineWaiter.Returns [] ravineBad ravineTrace (some (.error es)) ∧ (∃ m t, .causedBy (.drain, "field".toList) m t ∈ es) ∧
    (¬ ∃ m t, .causedBy (.junction, "fork".toList) m t ∈ es) ∧
    received (proj (.part (.drain, "lake".toList) .main) ravineTrace) = [[1, 10], [2, 10]] ∧
    ((acts (proj (.part (.junction, "fork".toList) .main) ravineTrace)).countP fun
      | .offer (.chan 1) _ (.closed _) => true
      | _ => false) = 2 := by
  obtain ⟨k, hk⟩ := ravine_polled
  have hr := (shutting_run ravine_sys).mp ravine_runs
  obtain ⟨out, h1, h2, h3⟩ := C98_returns (c := ravineConfig) (R := ravine) (order := []) rfl ravine_built rfl ravine_complete ravine_opens (rs := ravineOrder)
    (by decide +kernel) ravine_listed hr hk ((shutting_over ravine_sys).mp ravine_over)
  have hm : Mentioned (ravine.map (·.2)) (.drain, "field".toList) := ⟨(ravine.map (·.2))[1], List.getElem_mem _, Or.inr rfl⟩
  have hj : Mentioned (ravine.map (·.2)) (.junction, "fork".toList) := ⟨(ravine.map (·.2))[1], List.getElem_mem _, Or.inl rfl⟩
  have hb : ravineConfig.Breaks (ravine.map (·.2)) ravineBad ravineTrace (.drain, "field".toList) := by
    refine Or.inl ⟨Or.inr ⟨rfl, fun d hd => ?_⟩, rfl⟩
    have : ravineConfig.drain.get "field".toList = some "f".toList := by decide +kernel
    rw [this] at hd
    cases hd
    decide +kernel
  have hok := C80_safe_partial (c := ravineConfig) (R := ravine) (order := []) rfl ravine_built rfl ravine_complete hr (j := (.junction, "fork".toList)) rfl hj (by decide +kernel)
  cases out with
  | ok n => exact absurd hb (h2.mp ⟨n, rfl⟩ _ hm)
  | error es =>
    refine ⟨es, h1, (h3 es rfl _).mpr ⟨hm, hb⟩, fun h => ?_, by decide +kernel, by decide +kernel⟩
    obtain ⟨_, h | ⟨p, h⟩⟩ := (h3 es rfl _).mp h
    · obtain ⟨⟨h, _⟩ | ⟨h, _⟩, _⟩ := h <;> cases h
    · cases p with
      | main => exact hok h
      | _ =>
        obtain ⟨f, hf, _⟩ := h
        obtain ⟨e, he, _⟩ := List.mem_map.mp hf
        have none : (ravineNames.all fun i => match i with
          | .part (.junction, _) p => p == .main
          | _ => true) = true := by decide +kernel
        have := List.all_eq_true.mp none _ (ravine_known _ (mem_proj.mp he))
        cases this

end Verif
