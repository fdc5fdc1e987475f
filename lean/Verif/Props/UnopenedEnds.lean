import Verif.Lemmas.Shut
import Verif.Props.Unopened
import Verif.Props.RuntimeEnds
import Verif.Props.ExitExample
/-!
# C62: everything ends when only drains cannot create their files, and the failure is reported
-/
namespace Verif
section
variable {c : Config} {R : Map Hop} {w w' : Waiter} {order : List (Str × Watch)} {cs : List Capture} {cap : Caps} {bad : CompRef → Bool} {τ : List (Who × Ev)} {σ : Nat → Option (Who × Ev)}

/-- **C62, what is true** If all faucets can open their files, then whichever drains cannot create theirs, everything ends, under the assumptions of C67: no managers, nothing leads back to
where it started, whoever could go on is not left out for ever, whatever is read is limited, and junctions meet nothing they cannot get over. -/
theorem C62_ends_partial (hc : c.connection = hopSets R) (hw : getWaiter c = .ok w) (hp : w.regulatorSettings order = .ok ([], w')) (hC : Complete (R.map (·.2)))
    (hcf : CircleFree (R.map (·.2))) (hcap : ∀ k ch, cap k ch ≠ some 0) (hb : ∀ r, r.1 = .faucet → c.Opens r → bad r = false) (hσ : w'.FairWith [] bad cap σ)
    (B : Nat) (hB : ∀ n, Limited B (upTo σ n))
    (hj : ∀ n i inputs pushs spy, w'.node i = some (.junction inputs pushs spy) → ∀ f ∈ acts (proj i (upTo σ n)), f.ruins pushs = false) :
    ∃ n, w'.OverWith [] bad (upTo σ n) := by
  have A := assembled hc hw hp
  have hww := regulatorSettings_none hp
  subst hww
  have hS := shutting_sys (cs := []) (A.opened hb)
  have hu := shutting_unmanaged (bad := bad) (unmanaged hc hw)
  have hσ' := (shutting_fair hS).mpr hσ
  obtain ⟨n, hn⟩ := (A.shutting (bad := bad)).ends hC hu hcf hcap hσ' (fun i => by
    obtain ⟨K, hK⟩ := (A.shutting (bad := bad)).bounded (cap := cap) (attended_none hu) hC hcf (by simp) B i
    exact ⟨K, fun n => hK _ (hσ'.runs n) (hB n)⟩) fun n i a b s hi => hj n i a b s (shutting_junction hi)
  exact ⟨n, (shutting_over hS).mp hn⟩

/-- **C62, what is true** Whenever `start` returns, it reports every faucet and every drain whose file could not be opened. -/
theorem C62_reported_partial (hc : c.connection = hopSets R) (hw : getWaiter c = .ok w) (hp : w.regulatorSettings order = .ok (cs, w')) (hC : Complete (R.map (·.2)))
    (hr : w'.RunWith cs bad cap τ) {out} (ho : w'.Returns cs bad τ (some out)) {r : CompRef} (hm : Mentioned (R.map (·.2)) r) (hf : c.Opens r) (hb : bad r = true) :
    ∃ es m t, out = .error es ∧ .causedBy r m t ∈ es := by
  obtain ⟨h1, h2⟩ := C75_outcome hc hw hp hC hr ho
  cases out with
  | ok n => exact absurd (Or.inl ⟨hf, hb⟩) (h1.mp ⟨n, rfl⟩ r hm)
  | error es =>
    obtain ⟨m, t, h⟩ := ((h2 es rfl).2 r).mpr ⟨hm, Or.inl ⟨hf, hb⟩⟩
    exact ⟨es, m, t, rfl, h⟩

end

section Example
/-- Of the two pipelines of `delta` (Props/Unopened.lean), the first has a drain that cannot create its file. -/
def seaBad (r : CompRef) : Bool := r == (.drain, "sea".toList)
def seaWaiter : Waiter := deltaReady.2.shutting seaBad
def seaTrace := seaWaiter.drive [] (realCaps (delta.map (·.2))) (fun h => if h = 0 then [[5, 10]] else [[1, 10], [2, 10]]) .err
  (List.replicate 20 (seaWaiter.everyone [])).flatten
def deltaRank : Who → Nat
  | .part (.drain, _) _ => 1
  | .part (.buffer, _) .output => 1
  | _ => 0
theorem delta_free : CircleFree (delta.map (·.2)) := circleFree_of deltaRank (by decide +kernel) (by decide +kernel) (fun _ => Nat.lt_succ_self 0)
theorem delta_unmanaged : deltaWaiter.regulatorSettings [] = .ok ([], deltaReady.2) := by decide +kernel
theorem sea_opens (r : CompRef) (hr : r.1 = .faucet) (_ : deltaConfig.Opens r) : seaBad r = false := by
  obtain ⟨t, x⟩ := r
  cases hr
  simp [seaBad]
theorem sea_sys : seaWaiter.sys [] = deltaReady.2.sysWith [] seaBad :=
  shutting_sys ((assembled (c := deltaConfig) (R := delta) rfl delta_built delta_unmanaged).opened sea_opens)
theorem sea_runs : seaWaiter.Run [] (realCaps (delta.map (·.2))) seaTrace := Waiter.runs_sound (by decide +kernel)
theorem sea_over : seaWaiter.Over [] seaTrace := Waiter.overNow_sound (by decide +kernel)
theorem sea_fair : deltaReady.2.FairWith [] seaBad (realCaps (delta.map (·.2))) fun m => seaTrace[m]? := (shutting_fair sea_sys).mp (fair_of_over sea_runs sea_over)

/-- The faucet of the first pipeline has found its channel closed; the other pipeline has done its work. -/
example : (∃ n, deltaReady.2.OverWith [] seaBad (upTo (fun m => seaTrace[m]?) n)) ∧ received (proj (.part (.drain, "lake".toList) .main) seaTrace) = [[1, 10], [2, 10]] ∧
    ((acts (proj (.part (.faucet, "lost".toList) .main) seaTrace)).any fun
      | .offer (.chan 0) _ (.closed _) => true
      | _ => false) = true := by
  refine ⟨C62_ends_partial (c := deltaConfig) (R := delta) rfl delta_built delta_unmanaged delta_complete delta_free (realCaps_room _) sea_opens sea_fair seaTrace.length (fun n => ?_) ?_,
    by decide +kernel, by decide +kernel⟩
  · rw [upTo_list]
    have h := limited_length (seaTrace.take n)
    have hl : (seaTrace.take n).length ≤ seaTrace.length := by rw [List.length_take]; omega
    exact ⟨fun i k => Nat.le_trans (h.lines i k) hl, fun i => Nat.le_trans (h.statuses i) hl⟩
  · intro n i ins outs spy hn
    have none : (deltaReady.2.comps.all fun x => match x.2 with
      | .junction _ _ => false
      | _ => true) = true := by decide +kernel
    cases i with
    | manager => cases hn
    | part r p =>
      simp only [Waiter.node] at hn
      split at hn
      · cases hn
      · rename_i k hk
        obtain ⟨a, b, rfl⟩ := node_junction hn
        have := List.all_eq_true.mp none _ (Table.get_mem hk)
        cases this

/-- And `start` returns, reporting the drain. -/
example : ∃ out, deltaReady.2.Returns [] seaBad seaTrace (some out) ∧ ∃ es m t, out = .error es ∧ .causedBy (.drain, "sea".toList) m t ∈ es := by
  obtain ⟨out, h⟩ := C75_returns (bad := seaBad) ((shutting_over sea_sys).mp sea_over) (by simp) (fun r m x _ hx => by
    rw [no_counts (by decide +kernel)] at hx
    exact absurd hx total_nothing)
  refine ⟨out, h, C62_reported_partial (c := deltaConfig) (R := delta) rfl delta_built delta_unmanaged delta_complete ((shutting_run sea_sys).mp sea_runs) h ?_ ?_ rfl⟩
  · exact ⟨(delta.map (·.2))[0], List.getElem_mem _, Or.inr rfl⟩
  · refine Or.inr ⟨rfl, fun d hd => ?_⟩
    have : deltaConfig.drain.get "sea".toList = none := by decide +kernel
    rw [this] at hd; cases hd

end Example
end Verif
