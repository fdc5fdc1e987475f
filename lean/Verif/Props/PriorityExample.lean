import Verif.Props.Priority
import Verif.Props.ExitExample
/-!
# C103: an example
-/
namespace Verif
namespace Example

/-- Two streams are merged; the one called `calm` has the larger number. -/
def estuary : List (Str × Hop) :=
  [("m_1".toList, ⟨⟨.faucet, "calm".toList, .out⟩, none, ⟨.junction, "merge".toList⟩, ⟨.terminate, 5⟩, none⟩),
   ("m_2".toList, ⟨⟨.faucet, "rush".toList, .out⟩, none, ⟨.junction, "merge".toList⟩, ⟨.terminate, 1⟩, none⟩),
   ("m_3".toList, ⟨⟨.junction, "merge".toList, .out⟩, none, ⟨.drain, "lake".toList⟩, ⟨.terminate, 0⟩, none⟩)]
def estuaryConfig : Config where
  faucet := [("calm".toList, "-".toList), ("rush".toList, "-".toList)]
  regulator := []
  drain := [("lake".toList, "-".toList)]
  launch := []
  connection := hopSets estuary
def estuaryWaiter : Waiter := ((getWaiter estuaryConfig).ok?).getD Waiter.new
def estuaryCaps : Caps := fun _ _ => some 8
def estuaryFeed : Feed := fun h => if h = 0 then [[1, 10], [2, 10], [3, 10]] else [[4, 10], [5, 10], [6, 10]]
def estuaryJoin : Who := .part (.junction, "merge".toList) .main
/-- Both have delivered three lines before the junction first looks. -/
def estuaryTrace := estuaryWaiter.drive [] estuaryCaps estuaryFeed (.code 3)
  (List.replicate 6 (Who.part (.faucet, "calm".toList) .main) ++ List.replicate 6 (Who.part (.faucet, "rush".toList) .main) ++ List.replicate 20 estuaryJoin)
theorem estuary_built : getWaiter estuaryConfig = .ok estuaryWaiter := by decide +kernel
theorem estuary_runs : estuaryWaiter.Run [] estuaryCaps estuaryTrace := Waiter.runs_sound (by decide +kernel)
theorem estuary_complete : Complete (estuary.map (·.2)) := complete_of (by decide +kernel) (by decide +kernel)


/-- While there are lines of `rush`, at most one of `calm` is taken; afterwards all of them. -/
example : (takenOver (estuary.map (·.2)) 1 (proj estuaryJoin ((estuaryTrace.take 16).drop 12))).length ≤ 1 ∧
    takenOver (estuary.map (·.2)) 1 (proj estuaryJoin estuaryTrace) = [[1, 10], [2, 10], [3, 10]] := by
  refine ⟨?_, by decide +kernel⟩
  have hr : estuaryWaiter.RunWith [] (fun _ => false) estuaryCaps (estuaryTrace.take 16) := Waiter.Run.plain (Waiter.runs_sound (by decide +kernel))
  rw [← List.take_append_drop 12 (estuaryTrace.take 16)] at hr
  refine C103_served (c := estuaryConfig) (R := estuary) (order := []) rfl estuary_built rfl estuary_complete rfl hr (ch' := 1) (g := (estuary.map (·.2))[1]) (by decide +kernel) rfl
    ⟨2, (estuary.map (·.2))[2], rfl, rfl, fun h => absurd h.1 (by decide +kernel)⟩ fun υ hυ => ?_
  have all : ((List.range 5).all fun n => match execAll estuaryCaps Store.init (((estuaryTrace.take 16).take 12 ++ ((estuaryTrace.take 16).drop 12).take n).map Prod.snd) with
    | some st => !(st .data 1).q.isEmpty
    | none => false) = true := by decide +kernel
  have hl : υ.length < 5 := by
    have := hυ.length_le
    have h4 : ((estuaryTrace.take 16).drop 12).length = 4 := by decide +kernel
    omega
  have := List.all_eq_true.mp all υ.length (List.mem_range.mpr hl)
  rw [← List.prefix_iff_eq_take.mp hυ] at this
  split at this
  · rename_i st hst
    exact ⟨st, hst, fun h => by simp [h] at this⟩
  · cases this

/-- When the first line of `calm` is taken, `rush` has been empty since the junction last did anything else. -/
example : ∃ υ₁ υ₂ st, estuaryTrace.take 19 = υ₁ ++ υ₂ ∧ execAll estuaryCaps Store.init (υ₁.map Prod.snd) = some st ∧ (st .data 1).q = [] ∧
    ∀ a ∈ acts (proj estuaryJoin υ₂), ∃ s, a = .empty s := by
  have hr : estuaryWaiter.RunWith [] (fun _ => false) estuaryCaps (estuaryTrace.take 19 ++ (estuaryJoin, ⟨.tryRecv .data 0, .got [1, 10]⟩) :: estuaryTrace.drop 20) :=
    Waiter.Run.plain (Waiter.runs_sound (by decide +kernel))
  rcases C103_order (c := estuaryConfig) (R := estuary) (order := []) rfl estuary_built rfl estuary_complete rfl hr (ch := 0) (ch' := 1) (h := (estuary.map (·.2))[0])
    (g := (estuary.map (·.2))[1]) rfl (by decide +kernel) (by decide +kernel) rfl (by decide +kernel) with h | ⟨st, h1, _, h3⟩ | h
  · exact h
  · exfalso
    have : (match execAll estuaryCaps Store.init ((estuaryTrace.take 19).map Prod.snd) with
      | some st => (st .data 1).closed
      | none => false) = false := by decide +kernel
    rw [h1] at this
    simp only at this
    rw [this] at h3
    cases h3
  · exfalso
    exact absurd (h 2 ((estuary.map (·.2))[2]) rfl rfl).1 (by decide +kernel)

end Example
end Verif
