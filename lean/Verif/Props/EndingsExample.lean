import Verif.Lemmas.Plain
import Verif.Props.Endings
/-!
# Cases for C74
-/
namespace Verif

theorem plainOrders_complete : plainOrders.Complete := ⟨fun _ => .refl _, fun _ => .refl _, fun _ => .refl _, fun _ => .refl _⟩

theorem twoPipes_proper (p q : Int) (hp : FitsI p) (hq : FitsI q) : (twoPipes p q).Proper := by
  have h0 : FitsI 0 := by unfold FitsI; omega
  refine ⟨by simp [twoPipes, Map.keys], by simp [twoPipes, Map.keys], by simp [twoPipes, Map.keys], by simp [twoPipes, Map.keys], ?_, ?_, by simp [twoPipes], ?_⟩
  · intro n l h
    simp [twoPipes] at h
    simp [h.2, Map.keys]
  · simp only [twoPipes, Map.Sorted]
    simp only [List.pairwise_cons, List.mem_cons, List.not_mem_nil, or_false, forall_eq, List.Pairwise.nil, and_true, false_imp_iff, implies_true]
    decide
  · intro k l x h hx
    simp only [twoPipes, List.mem_cons, Prod.mk.injEq, DConn.conns.injEq, List.not_mem_nil, or_false] at h
    rcases h with ⟨_, rfl⟩ | ⟨_, rfl⟩
    · simp only [List.mem_cons, List.not_mem_nil, or_false] at hx
      rcases hx with rfl | rfl | rfl
      · trivial
      · exact hp
      · exact h0
    · simp only [List.mem_cons, List.not_mem_nil, or_false] at hx
      rcases hx with rfl | rfl
      · trivial
      · exact hq

def processLine : Matches := [("process", argsOf [("format", ["yaml".toList])])]

theorem processLine_asks : Asks processLine (.process "-".toList .yaml) := .process ⟨Or.inr ⟨rfl, rfl⟩, Or.inr ⟨rfl, rfl⟩⟩

theorem processLine_possible : Possible declared processLine :=
  .step (c := .mk "process" [.option "config", formatArg] []) (List.mem_of_getElem? (i := 0) rfl) (argsOf_config none "yaml" (by simp)) .stop

/-- The world in which this configuration is on standard input. -/
noncomputable def given (c : Config) : World := ⟨some (plainLibrary.print (encodeConfig c) ++ "\n".toList), fun _ => none⟩

/-- Running a good configuration with a pipeline that ends well is a success. -/
example : (pa2 plainLibrary plainOrders (fun _ => .ended (.ok 3)) (given (twoPipes 0 5)) processLine).Succeeds ["{tub}".toList] := by
  have hf : Finds plainLibrary (given (twoPipes 0 5)) .yaml "-".toList (twoPipes 0 5) := finds_again plain_faithful (twoPipes_proper 0 5 (by unfold FitsI; omega) (by unfold FitsI; omega)) _ _
  have hm : manipulate id id id (twoPipes 0 5) ≠ none := by decide +kernel
  have hl : ((manipulate id id id (twoPipes 0 5)).bind fun x => (lint x.1).map (·.2)) = some [] := by decide +kernel
  have hw : ((manipulate id id id (twoPipes 0 5)).map fun x => match getWaiter x.1 with | .ok _ => true | _ => false) = some true := by decide +kernel
  rcases C74_process (start := fun _ => .ended (.ok 3)) plainOrders_complete processLine_asks hf with ⟨h, _⟩ | ⟨_, c', h1, h2⟩
  · exact absurd ((C35_aborts (twoPipes 0 5) (hf.proper.connection.nodup) (spyOrder := id) (fun _ => .refl _) fun _ => .refl _).2.mpr h) hm
  · have h1 : manipulate id id id (twoPipes 0 5) = some (c', (twoPipes 0 5).drain.keys) := h1
    rw [h1] at hl hw
    simp only [Option.bind_some, Option.map_some, Option.some.injEq] at hl hw
    obtain ⟨ws, h3, h4⟩ := lint_always c'
    rw [h3] at hl
    simp at hl
    subst hl
    rcases h2 with ⟨h, _⟩ | ⟨_, ⟨e, h, _⟩ | ⟨v, _, ⟨_, h⟩ | ⟨_, h, _⟩ | ⟨h, _⟩ | ⟨h, _⟩⟩⟩
    · exact absurd ((ready_iff c').mpr fun w hw => by simpa using (h4 w).mpr hw.1) h
    · rw [h] at hw; simp at hw
    · exact h
    · simp at h
    · simp at h
    · simp at h

/-- A configuration that is not in order: the drain is missing. -/
example : ¬ Config.Ready { twoPipes 0 5 with drain := [] } := by
  intro h
  have := h.configured .drain "tub".toList ⟨"a".toList, _, _, .end .drain "tub".toList ⟨.terminate, 0⟩ none, List.mem_of_getElem? (i := 0) rfl, rfl, List.mem_of_getElem? (i := 2) rfl, rfl, rfl⟩
    (by simp [Configurable])
  simp [Config.Has, Map.keys] at this

/-- A malformed one: a set of one component. -/
example : Config.Malformed { twoPipes 0 5 with connection := [("a".toList, .conns [.start .faucet "tap".toList .out none])] } :=
  ⟨_, _, List.mem_of_getElem? (i := 0) rfl, Or.inr ⟨_, rfl, by decide⟩⟩

end Verif
