import Verif.Props.Causes
import Verif.Props.ExitExample
/-!
# An instance of C94
-/
namespace Verif

/-- As `sinkTurn`, but writing to programs fails for another reason. -/
def harshTurn (i : Who) (τ : List (Who × Ev)) : List (Who × Ev) :=
  match sinkWaiter.sys [] i, execAll (realCaps (sinkMap.map (·.2))) Store.init (τ.map Prod.snd) with
  | some t, some st => match t.replay (proj i τ) with
    | some (.inr (.ioWrite h d)) => τ ++ [(i, ⟨.ioWrite h d, .other 5⟩)]
    | some (.inr q) => match answer (realCaps (sinkMap.map (·.2))) st (fun h => if h = 0 then [[1, 10], [2, 10]] else []) (readsOf τ) .err q with
      | some r => τ ++ [(i, ⟨q, r⟩)]
      | none => τ
    | some (.inl (_, rest)) => match (dropEvs t.drops)[rest.length]? with
      | some e => τ ++ [(i, e)]
      | none => τ
    | none => τ
  | _, _ => τ

def harshTrace : List (Who × Ev) :=
  (List.replicate 12 (Who.part (.faucet, "tap".toList) .main) ++ List.replicate 12 (Who.part (.launch, "head".toList) .input)).foldl (fun τ i => harshTurn i τ) []

theorem harsh_runs : sinkWaiter.Run [] (realCaps (sinkMap.map (·.2))) harshTrace := Waiter.runs_sound (by decide +kernel)
theorem harsh_over : sinkWaiter.Over [] harshTrace := Waiter.overNow_sound (by decide +kernel)

theorem harsh_mentioned : Mentioned (sinkMap.map (·.2)) (.launch, "head".toList) := ⟨sinkHop, by simp [sinkMap], Or.inr rfl⟩

theorem harsh_input : acts (proj (.part (.launch, "head".toList) .input) harshTrace) =
    [.got (.chan 0) [1, 10], .offer (.handle 3) [1, 10] (.other 5), .close .data 0] := by decide +kernel

theorem harsh_breaks : sinkMade.Breaks (sinkMap.map (·.2)) (fun _ => false) harshTrace (.launch, "head".toList) :=
  Or.inr ⟨.input, .offer (.handle 3) [1, 10] (.other 5), by rw [harsh_input]; simp, trivial⟩

/-- There is such a run, its outcome is a failure, and the error is that of the program. -/
theorem harsh_returns : ∃ es, sinkWaiter.Returns [] (fun _ => false) harshTrace (some (.error es)) ∧ ∃ m t, .causedBy (.launch, "head".toList) m t ∈ es := by
  obtain ⟨out, h⟩ := C75_returns (bad := fun _ => false) harsh_over.plain (by simp) (fun r m x _ hx => by
    rw [no_counts (by decide +kernel)] at hx
    exact absurd hx total_nothing)
  have hO := C75_outcome (R := sinkMap) rfl sink_built sink_prepared sink_complete harsh_runs.plain h
  cases out with
  | ok n => exact absurd harsh_breaks (hO.1.mp ⟨n, rfl⟩ _ harsh_mentioned)
  | error es => exact ⟨es, h, ((hO.2 es rfl).2 _).mpr ⟨harsh_mentioned, harsh_breaks⟩⟩

/-- What it says is what happened. -/
example : ∃ es m t, sinkWaiter.Returns [] (fun _ => false) harshTrace (some (.error es)) ∧ .causedBy (.launch, "head".toList) m t ∈ es ∧
    reportEnds sinkWaiter.names (.causedBy (.launch, "head".toList) m t) = (componentText sinkHop.from, componentText sinkHop.to) ∧
    ∃ j, m = .writeIO j 5 [1, 10] := by
  obtain ⟨es, h, m, t, hm⟩ := harsh_returns
  have hcause := C94_cause (R := sinkMap) rfl sink_built sink_prepared sink_complete h hm
  rw [if_neg (by simp)] at hcause
  obtain ⟨i, x, h1, h2, h3, h4⟩ := hcause
  have hx : x = sinkHop := by
    have := List.mem_of_getElem? h1
    simpa [sinkMap] using this
  subst hx
  rcases h4 with ⟨_, h4, _⟩ | ⟨p, l, e, rest, h4, h5, h6⟩
  · cases h4
  · have hp : p = .input := by
      have he : ((.part (.launch, "head".toList) p, e) : Who × Ev) ∈ harshTrace := mem_proj.mp (by rw [h4]; simp)
      have := (by decide +kernel : ∀ x ∈ harshTrace, x.1 = .part (.faucet, "tap".toList) .main ∨ x.1 = .part (.launch, "head".toList) .input) _ he
      simpa using this
    subst hp
    have ha := congrArg acts h4
    rw [harsh_input] at ha
    simp only [acts, List.map_append, List.map_cons] at ha
    have hm : ∃ j, m = .writeIO j 5 [1, 10] := by
      have hmem : act e ∈ [Act.got (.chan 0) [1, 10], .offer (.handle 3) [1, 10] (.other 5), .close .data 0] := by rw [ha]; simp
      simp only [List.mem_cons, List.not_mem_nil, or_false] at hmem
      unfold MErr.Says at h6
      rcases hmem with h | h | h <;> rw [h] at h6 <;> split at h6 <;> simp at h6
      · next j x d => exact ⟨j, by rw [h6.2, h6.1]⟩
    obtain ⟨j, rfl⟩ := hm
    exact ⟨es, _, t, h, hm, h3, j, rfl⟩

/-- And the program is named just once. -/
example : ∃ es, sinkWaiter.Returns [] (fun _ => false) harshTrace (some (.error es)) ∧ (.launch, "head".toList) ∈ es.filterMap WaiterErr.component ∧
    (es.filterMap WaiterErr.component).Nodup := by
  obtain ⟨es, h, m, t, hm⟩ := harsh_returns
  exact ⟨es, h, List.mem_filterMap.mpr ⟨_, hm, rfl⟩, C94_once sink_built sink_prepared h⟩

end Verif
