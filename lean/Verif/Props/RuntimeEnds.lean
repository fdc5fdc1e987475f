import Verif.Lemmas.Rested
/-!
# Property C67: without circles and managers, every fair schedule of what runs after `start` ends
-/
namespace Verif
section
variable {c : Config} {hs : List Hop} {w : Waiter} {cap : Caps} {σ : Nat → Option (Who × Ev)}

/-- The reason behind C67. -/
theorem Rigged.ends (A : Rigged c hs w) (hC : Complete hs) (hu : w.Unmanaged) (hcf : CircleFree hs) (hcap : ∀ k ch, cap k ch ≠ some 0) (hσ : w.Fair [] cap σ)
    (hK : ∀ i, ∃ K, ∀ n, (proj i (upTo σ n)).countP (w.moves i) ≤ K)
    (hj : ∀ n i inputs pushs spy, w.node i = some (.junction inputs pushs spy) → ∀ f ∈ acts (proj i (upTo σ n)), f.ruins pushs = false) : ∃ n, w.Over [] (upTo σ n) := by
  obtain ⟨n, st, L⟩ := hσ.lull hK
  refine ⟨n, Classical.byContradiction fun ho => ?_⟩
  obtain ⟨i, t, ht, _, hni, hcs⟩ := A.progress hC hu hcf (hσ.runs n) (L.quiet n (Nat.le_refl _)) hcap (hj n) ho
  rcases A.rested hC (attended_none hu) L (hj n) ht with h | h | ⟨_, h, _⟩
  · exact h hcs
  · exact hni h
  · cases h

variable {R : Map Hop} {w' : Waiter} {order : List (Str × Watch)}

/-- **C67** In a runtime without managers in which nothing leads back to where it started, and no channel of which has capacity zero, whatever the order in which the activities run,
as long as none that could go on is left out for ever: if every file, stream and program delivers a limited number of lines and every program ends, then everything ends. Junctions are
assumed to meet nothing they cannot get over. -/
theorem C67_ends (hc : c.connection = hopSets R) (hw : getWaiter c = .ok w) (hp : w.regulatorSettings order = .ok ([], w')) (hC : Complete (R.map (·.2)))
    (hcf : CircleFree (R.map (·.2))) (hcap : ∀ k ch, cap k ch ≠ some 0) (hσ : w'.Fair [] cap σ) (B : Nat) (hB : ∀ n, Limited B (upTo σ n))
    (hj : ∀ n i inputs pushs spy, w'.node i = some (.junction inputs pushs spy) → ∀ f ∈ acts (proj i (upTo σ n)), f.ruins pushs = false) :
    ∃ n, w'.Over [] (upTo σ n) := by
  have A := assembled hc hw hp
  have hww := regulatorSettings_none hp
  subst hww
  refine A.ends hC (unmanaged hc hw) hcf hcap hσ (fun i => ?_) hj
  obtain ⟨K, hK⟩ := A.bounded (cap := cap) (attended hc hw hp) hC hcf (by simp) B i
  exact ⟨K, fun n => hK _ (hσ.runs n) (hB n)⟩

/-- **C67** And if no file, stream or notification fails, everything ends with every hop having delivered everything. -/
theorem C67_delivers (hc : c.connection = hopSets R) (hw : getWaiter c = .ok w) (hp : w.regulatorSettings order = .ok ([], w')) (hC : Complete (R.map (·.2)))
    (hcf : CircleFree (R.map (·.2))) (hcap : ∀ k ch, cap k ch ≠ some 0) (hσ : w'.Fair [] cap σ) (B : Nat) (hB : ∀ n, Limited B (upTo σ n))
    (hf : ∀ n i, ∀ f ∈ acts (proj i (upTo σ n)), f.trouble = false) :
    ∃ n, w'.Over [] (upTo σ n) ∧ ∀ i h, (R.map (·.2))[i]? = some h → ¬ h.isExit → receivedFrom (.chan i) (proj h.reader (upTo σ n)) = received (proj h.writer (upTo σ n)) := by
  have A := assembled hc hw hp
  obtain ⟨n, hn⟩ := C67_ends hc hw hp hC hcf hcap hσ B hB (by
    intro n i inputs pushs spy hi f hm
    obtain ⟨E, U⟩ := A.run hC (hσ.runs n)
    exact not_ruins (C55_no_failures (A.wired hC) E U (A.inside hC (hσ.runs n) (hf n)) i _ f hi hm))
  exact ⟨n, hn, (C65_complete hc hw hp hC (hσ.runs n) hn (hf n)).1⟩

/-! ## An example -/

theorem upTo_list (τ : List (Who × Ev)) (n : Nat) : upTo (fun m => τ[m]?) n = τ.take n := by
  induction n with
  | zero => simp [upTo]
  | succ n ih => rw [upTo, ih, List.take_add_one]

theorem Waiter.Run.take {cs : List Capture} {τ : List (Who × Ev)} (h : w.Run cs cap τ) (n : Nat) : w.Run cs cap (τ.take n) := by
  have hsplit := List.take_append_drop n τ
  refine ⟨?_, fun x hx => h.known x (List.mem_of_mem_take hx), ?_⟩
  · exact Execution.prefix (τ' := τ.drop n) (by rw [hsplit]; exact h.exec)
  · intro τ₁ τ₂ r e he
    exact h.exits τ₁ (τ₂ ++ τ.drop n) r e (by rw [← List.cons_append, ← List.append_assoc, ← he, hsplit])

/-- Whatever comes to its end is fair. -/
theorem fair_of_over {cs : List Capture} {τ : List (Who × Ev)} (h : w.Run cs cap τ) (ho : w.Over cs τ) : w.Fair cs cap fun m => τ[m]? := by
  refine ⟨fun n => by rw [upTo_list]; exact h.take n, fun i n hcs => ?_⟩
  exfalso
  obtain ⟨e, he⟩ := hcs (max n τ.length) (by omega)
  rw [upTo_list, List.take_of_length_le (by omega)] at he
  cases ht : w.sys cs i with
  | none => exact he.known (i, e) (by simp) ht
  | some t =>
    have := he.exec.tasks i t ht
    rw [proj_append, show proj i [(i, e)] = [e] by simp [proj]] at this
    exact (ho i t ht).stops this

/-- The example of C66, to its end. -/
def brookAll := brookWaiter.drive [] brookCaps brookFeed (.code 3) (List.replicate 40 (brookWaiter.everyone [])).flatten
theorem brookAll_runs : brookWaiter.Run [] brookCaps brookAll := Waiter.runs_sound (by decide +kernel)
theorem brookAll_over : brookWaiter.Over [] brookAll := Waiter.overNow_sound (by decide +kernel)
theorem brookAll_calm : ∀ i, ∀ f ∈ acts (proj i brookAll), f.trouble = false := brookAll_runs.calm (by decide +kernel)
theorem brook_fair : brookWaiter.Fair [] brookCaps fun m => brookAll[m]? := fair_of_over brookAll_runs brookAll_over

theorem limited_length (τ : List (Who × Ev)) : Limited τ.length τ := by
  have hl : ∀ i, (proj i τ).length ≤ τ.length := fun i => List.length_filterMap_le _ _
  refine ⟨fun i h => Nat.le_trans ?_ (hl i), fun i => Nat.le_trans List.countP_le_length (hl i)⟩
  refine Nat.le_trans (List.length_filterMap_le _ _) ?_
  simp [acts]

example : ∃ n, brookWaiter.Over [] (upTo (fun m => brookAll[m]?) n) ∧
    receivedFrom (.chan 5) (proj (.part (.drain, "field".toList) .main) (upTo (fun m => brookAll[m]?) n)) =
      received (proj (.part (.junction, "fork".toList) .main) (upTo (fun m => brookAll[m]?) n)) := by
  obtain ⟨n, h1, h2⟩ := C67_delivers (order := []) rfl brook_built rfl brook_complete brook_free (fun k ch => by unfold brookCaps; split <;> simp) brook_fair brookAll.length
    (by
      intro n
      rw [upTo_list]
      have h := limited_length (brookAll.take n)
      have hl : (brookAll.take n).length ≤ brookAll.length := by rw [List.length_take]; omega
      exact ⟨fun i k => Nat.le_trans (h.lines i k) hl, fun i => Nat.le_trans (h.statuses i) hl⟩)
    (by
      intro n i f hm
      rw [upTo_list] at hm
      refine brookAll_calm i f ?_
      obtain ⟨e, he, rfl⟩ := List.mem_map.mp hm
      exact List.mem_map.mpr ⟨e, mem_proj.mpr (List.mem_of_mem_take (mem_proj.mp he)), rfl⟩)
  exact ⟨n, h1, h2 5 _ rfl (by decide)⟩

end
end Verif
