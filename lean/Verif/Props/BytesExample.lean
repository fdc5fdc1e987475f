import Verif.Props.Bytes
/-!
# Property C78: examples
-/
namespace Verif

/-! Two faucets into a buffer, the buffer into a drain. -/

def marsh : Config where
  faucet := [("spring".toList, "b.txt".toList), ("tap".toList, "a.txt".toList)]
  drain := [("tub".toList, "c.txt".toList)]
  regulator := []
  launch := []
  connection := [("a".toList, .conns [.start .faucet "tap".toList .out none, .middle .buffer "pond".toList ⟨.terminate, 0⟩ .out none, .end .drain "tub".toList ⟨.terminate, 0⟩ none]),
    ("b".toList, .conns [.start .faucet "spring".toList .out none, .end .buffer "pond".toList ⟨.finish, 0⟩ none])]

def marshTap : Hop := ⟨⟨.faucet, "tap".toList, .out⟩, none, ⟨.buffer, "pond".toList⟩, ⟨.terminate, 0⟩, none⟩
def marshTub : Hop := ⟨⟨.buffer, "pond".toList, .out⟩, none, ⟨.drain, "tub".toList⟩, ⟨.terminate, 0⟩, none⟩
def marshSpring : Hop := ⟨⟨.faucet, "spring".toList, .out⟩, none, ⟨.buffer, "pond".toList⟩, ⟨.finish, 0⟩, none⟩

theorem marsh_hops {b i h} (hh : marsh.HopOf b i h) :
    (b = "a".toList ∧ i = 0 ∧ h = marshTap) ∨ (b = "a".toList ∧ i = 1 ∧ h = marshTub) ∨ (b = "b".toList ∧ i = 0 ∧ h = marshSpring) := by
  obtain ⟨d, cs, hm, hd, x, y, hx, hy, e1, e2, e3, e4⟩ := hh
  obtain ⟨s, st, t, inp, dst⟩ := h
  simp only [marsh, List.mem_cons, Prod.mk.injEq, List.not_mem_nil, or_false] at hm
  rcases hm with ⟨rfl, rfl⟩ | ⟨rfl, rfl⟩ <;> simp only [DConn.Means] at hd <;> subst hd
  · rcases i with _ | _ | i <;> simp at hx hy
    · subst hx hy
      simp [Connection.out, Connection.into, Connection.setName] at e1 e2 e3 e4
      simp [marshTap, ← e1, ← e2, ← e3.1, ← e3.2, ← e4]
    · subst hx hy
      simp [Connection.out, Connection.into, Connection.setName] at e1 e2 e3 e4
      simp [marshTub, ← e1, ← e2, ← e3.1, ← e3.2, ← e4]
  · rcases i with _ | i <;> simp at hx hy
    subst hx hy
    simp [Connection.out, Connection.into, Connection.setName] at e1 e2 e3 e4
    simp [marshSpring, ← e1, ← e2, ← e3.1, ← e3.2, ← e4]
theorem marsh_tap : marsh.HopOf "a".toList 0 marshTap := ⟨_, _, List.mem_cons_self, rfl, _, _, rfl, rfl, rfl, rfl, rfl, rfl⟩
theorem marsh_tub : marsh.HopOf "a".toList 1 marshTub := ⟨_, _, List.mem_cons_self, rfl, _, _, rfl, rfl, rfl, rfl, rfl, rfl⟩
theorem marsh_spring : marsh.HopOf "b".toList 0 marshSpring := ⟨_, _, List.mem_cons_of_mem _ List.mem_cons_self, rfl, _, _, rfl, rfl, rfl, rfl, rfl, rfl⟩

theorem marsh_sound : marsh.Sound [marshTap, marshTub, marshSpring] := by
  refine ⟨by decide +kernel, ?_, ?_, ⟨?_, ?_, ?_, ?_, ?_, ?_⟩, ?_, complete_of (by decide +kernel) (by decide +kernel)⟩
  · intro b d h
    simp only [marsh, List.mem_cons, Prod.mk.injEq, List.not_mem_nil, or_false] at h
    rcases h with ⟨_, rfl⟩ | ⟨_, rfl⟩
    · refine ⟨_, rfl, by simp, ?_, ?_⟩
      · intro i a hi
        rcases i with _ | _ | i <;> simp at hi
        all_goals (subst hi; simp [Connection.into])
      · intro i a b hi hi'
        rcases i with _ | _ | i <;> simp at hi hi'
        all_goals (subst hi; simp [Connection.out])
    · refine ⟨_, rfl, by simp, ?_, ?_⟩
      · intro i a hi
        rcases i with _ | i <;> simp at hi
        all_goals (subst hi; simp [Connection.into])
      · intro i a b hi hi'
        rcases i with _ | i <;> simp at hi hi'
        all_goals (subst hi; simp [Connection.out])
  · intro b i h hh hd
    rcases marsh_hops hh with ⟨_, _, rfl⟩ | ⟨_, _, rfl⟩ | ⟨_, _, rfl⟩ <;> simp [marshTap, marshTub, marshSpring, marsh, Map.keys] at hd ⊢
  · intro b i h hh
    rcases marsh_hops hh with ⟨_, _, rfl⟩ | ⟨_, _, rfl⟩ | ⟨_, _, rfl⟩ <;> simp [Config.Runnable, Hop.from, Hop.to, marshTap, marshTub, marshSpring, marsh, Map.get, List.lookup]
  · intro b i h hh
    rcases marsh_hops hh with ⟨_, _, rfl⟩ | ⟨_, _, rfl⟩ | ⟨_, _, rfl⟩ <;> simp [marshTap, marshTub, marshSpring]
  · intro b i h hh
    rcases marsh_hops hh with ⟨_, _, rfl⟩ | ⟨_, _, rfl⟩ | ⟨_, _, rfl⟩ <;> simp [marshTap, marshTub, marshSpring]
  · intro b i h hh
    rcases marsh_hops hh with ⟨_, _, rfl⟩ | ⟨_, _, rfl⟩ | ⟨_, _, rfl⟩ <;> simp [marshTap, marshTub, marshSpring]
  · intro b i h b' i' h' hh hh'
    rcases marsh_hops hh with ⟨_, _, rfl⟩ | ⟨_, _, rfl⟩ | ⟨_, _, rfl⟩ <;> rcases marsh_hops hh' with ⟨_, _, rfl⟩ | ⟨_, _, rfl⟩ | ⟨_, _, rfl⟩ <;> simp [marshTap, marshTub, marshSpring]
  · intro b i h k hh
    rcases marsh_hops hh with ⟨_, _, rfl⟩ | ⟨_, _, rfl⟩ | ⟨_, _, rfl⟩ <;> intros <;> rfl
  · intro h
    constructor
    · intro hh
      simp only [List.mem_cons, List.not_mem_nil, or_false] at hh
      rcases hh with rfl | rfl | rfl
      · exact ⟨_, _, marsh_tap⟩
      · exact ⟨_, _, marsh_tub⟩
      · exact ⟨_, _, marsh_spring⟩
    · rintro ⟨b, i, hh⟩
      rcases marsh_hops hh with ⟨_, _, rfl⟩ | ⟨_, _, rfl⟩ | ⟨_, _, rfl⟩ <;> simp

def marshWaiter : Waiter := match manipulate id id id marsh with
  | some (c', _) => ((getWaiter c').ok?).getD Waiter.new
  | none => Waiter.new
theorem marsh_made : ∃ c' printed, manipulate id id id marsh = some (c', printed) ∧ getWaiter c' = .ok marshWaiter := by
  cases h : manipulate id id id marsh with
  | none => exact absurd (show (manipulate id id id marsh).isSome = true by decide +kernel) (by simp [h])
  | some x =>
    refine ⟨x.1, x.2, rfl, ?_⟩
    have h1 : marshWaiter = ((getWaiter x.1).ok?).getD Waiter.new := by simp only [marshWaiter, h]
    have h2 : ((manipulate id id id marsh).bind fun x => (getWaiter x.1).ok?).isSome = true := by decide +kernel
    rw [h] at h2
    simp only [Option.bind_some] at h2
    rw [h1]
    cases h3 : getWaiter x.1 with
    | ok w => rfl
    | err e => rw [h3] at h2; cases h2
    | panic => rw [h3] at h2; cases h2

/-- The last line of the first faucet is not ended. -/
def marshFeed : Feed := fun h => if h = 0 then [[1, 10], [2]] else if h = 12 then [[3, 13, 10], [10]] else []
def marshAll := marshWaiter.drive [] brookCaps marshFeed (.code 3) (List.replicate 40 (marshWaiter.everyone [])).flatten
theorem marshAll_runs : marshWaiter.Run [] brookCaps marshAll := Waiter.runs_sound (by decide +kernel)
theorem marshAll_over : marshWaiter.Over [] marshAll := Waiter.overNow_sound (by decide +kernel)
theorem marshAll_calm : ∀ i, ∀ f ∈ acts (proj i marshAll), f.trouble = false := marshAll_runs.calm (by decide +kernel)

/-- What the files hold. -/
def marshBytes (h : Hop) : Bytes := if h = marshTap then [1, 10, 2] else [3, 13, 10, 10]

/-- They come in chunks that have nothing to do with lines. -/
theorem marsh_supplies : ∀ g ∈ [marshTap, marshSpring], marshWaiter.Supplies marshAll g (marshBytes g) := by
  intro g hg
  simp only [List.mem_cons, List.not_mem_nil, or_false] at hg
  rcases hg with rfl | rfl
  · exact Or.inl ⟨0, [[1], [10, 2]], by decide +kernel, by decide, by decide +kernel, by unfold ReadsFrom; decide +kernel⟩
  · exact Or.inl ⟨12, [[3, 13], [10], [10]], by decide +kernel, by decide, by decide +kernel, by unfold ReadsFrom; decide +kernel⟩

theorem marsh_into_pond : marsh.Into ⟨.buffer, "pond".toList⟩ [("a".toList, 0), ("b".toList, 0)] := by
  refine ⟨by decide, fun b i => ?_⟩
  constructor
  · intro h
    simp only [List.mem_cons, List.not_mem_nil, or_false] at h
    rcases h with h | h <;> cases h
    · exact ⟨_, marsh_tap, rfl⟩
    · exact ⟨_, marsh_spring, rfl⟩
  · rintro ⟨h, hh, e⟩
    rcases marsh_hops hh with ⟨rfl, rfl, rfl⟩ | ⟨rfl, rfl, rfl⟩ | ⟨rfl, rfl, rfl⟩
    · simp
    · cases e
    · simp

theorem marsh_into_tub : marsh.Into ⟨.drain, "tub".toList⟩ [("a".toList, 1)] := by
  refine ⟨by decide, fun b i => ?_⟩
  constructor
  · intro h
    simp only [List.mem_cons, List.not_mem_nil, or_false] at h
    cases h
    exact ⟨_, marsh_tub, rfl⟩
  · rintro ⟨h, hh, e⟩
    rcases marsh_hops hh with ⟨rfl, rfl, rfl⟩ | ⟨rfl, rfl, rfl⟩ | ⟨rfl, rfl, rfl⟩
    · cases e
    · simp
    · cases e

theorem marsh_brings : marsh.Brings [("a".toList, 1)] [marshTap, marshSpring] :=
  .through (S' := [marshTap, marshSpring]) (S := []) marsh_tub (by decide) (by decide) marsh_into_pond (by simp)
    (.stream marsh_tap (Or.inl rfl) (.stream marsh_spring (Or.inl rfl) .none)) .none

/-- What is written to the drain's file is a mixture of the lines of the two files. -/
example : ∃ ls, Mix [[[1, 10], [2]], [[3, 13, 10], [10]]] ls ∧ bytesIn 9 (proj (.part (.drain, "tub".toList) .main) marshAll) = ls.flatten := by
  obtain ⟨c', printed, h1, h2⟩ := marsh_made
  have e1 : 9 = 3 * marshWaiter.idOf marshTub.to := by decide +kernel
  have e2 : [[[1, 10], [2]], [[3, 13, 10], [10]]] = [marshTap, marshSpring].map fun g => specLines (marshBytes g) := by decide +kernel
  rw [e1, e2]
  exact C78_merged (perm := id) (perm' := id) (spyOrder := id) (order := []) (cs := []) marsh_sound (fun _ => .refl _) (fun _ => .refl _) (fun _ => .refl _) h1 h2 rfl marshAll_runs marshAll_over
    marshAll_calm (h := marshTub) marsh_tub (Or.inr ⟨rfl, by decide +kernel⟩) marsh_into_tub marsh_brings marsh_supplies

-- what it came to
example : bytesIn 9 (proj (.part (.drain, "tub".toList) .main) marshAll) = [1, 10, 3, 13, 10, 2, 10] := by decide +kernel

/-- In the configuration of C71, what the program wrote is what the drain wrote. -/
example : bytesIn 9 (proj (.part (.drain, "tub".toList) .main) twoAll) = [4, 10, 5, 10] := by
  obtain ⟨c', printed, h1, h2⟩ := two_made
  have hh : (twoPipes 0 5).HopOf "a".toList 1 twoHops[1] := ⟨_, _, List.mem_cons_self, rfl, _, _, rfl, rfl, rfl, rfl, rfl, rfl⟩
  have e1 : 9 = 3 * twoWaiter.idOf twoHops[1].to := by decide +kernel
  rw [e1]
  exact C78_copied (bs := [4, 10, 5, 10]) (perm := id) (perm' := id) (spyOrder := id) (order := []) (cs := []) twoPipes_sound (fun _ => .refl _) (fun _ => .refl _) (fun _ => .refl _) h1 h2 rfl twoAll_runs twoAll_over
    twoAll_calm (h := twoHops[1]) hh (Or.inr ⟨rfl, by decide +kernel⟩) (L := [("a".toList, 1)])
    ⟨by decide, fun b i => by
      constructor
      · intro h
        simp only [List.mem_cons, List.not_mem_nil, or_false] at h
        cases h
        exact ⟨_, hh, rfl⟩
      · rintro ⟨h, hh, e⟩
        rcases twoPipes_hops hh with ⟨rfl, rfl, rfl⟩ | ⟨rfl, rfl, rfl⟩ | ⟨rfl, rfl, rfl⟩
        · cases e
        · simp
        · cases e⟩
    (.stream hh (Or.inr rfl) .none) (Or.inl ⟨7, [[4, 10, 5], [10]], by decide +kernel, by decide, by decide, by unfold ReadsFrom; decide +kernel⟩)

end Verif
