import Verif.Props.Piped
import Verif.Props.BytesExample
/-!
# C107: an example

One file is copied to another through a junction, for ever; beside it, another file gives nothing.
-/
namespace Verif.Example

def runnel : Config where
  faucet := [("still".toList, "b.txt".toList), ("tap".toList, "a.txt".toList)]
  drain := [("tub".toList, "c.txt".toList), ("well".toList, "d.txt".toList)]
  regulator := []
  launch := []
  connection := [("a".toList, .conns [.start .faucet "tap".toList .out none, .middle .junction "fork".toList ⟨.terminate, 0⟩ .out none, .end .drain "tub".toList ⟨.terminate, 0⟩ none]),
    ("b".toList, .conns [.start .faucet "still".toList .out none, .end .drain "well".toList ⟨.finish, 0⟩ none])]

def runnelTap : Hop := ⟨⟨.faucet, "tap".toList, .out⟩, none, ⟨.junction, "fork".toList⟩, ⟨.terminate, 0⟩, none⟩
def runnelTub : Hop := ⟨⟨.junction, "fork".toList, .out⟩, none, ⟨.drain, "tub".toList⟩, ⟨.terminate, 0⟩, none⟩
def runnelStill : Hop := ⟨⟨.faucet, "still".toList, .out⟩, none, ⟨.drain, "well".toList⟩, ⟨.finish, 0⟩, none⟩

theorem runnel_hops {b i h} (hh : runnel.HopOf b i h) :
    (b = "a".toList ∧ i = 0 ∧ h = runnelTap) ∨ (b = "a".toList ∧ i = 1 ∧ h = runnelTub) ∨ (b = "b".toList ∧ i = 0 ∧ h = runnelStill) := by
  obtain ⟨d, cs, hm, hd, x, y, hx, hy, e1, e2, e3, e4⟩ := hh
  obtain ⟨s, st, t, inp, dst⟩ := h
  simp only [runnel, List.mem_cons, Prod.mk.injEq, List.not_mem_nil, or_false] at hm
  rcases hm with ⟨rfl, rfl⟩ | ⟨rfl, rfl⟩ <;> simp only [DConn.Means] at hd <;> subst hd
  · rcases i with _ | _ | i <;> simp at hx hy
    · subst hx hy
      simp [Connection.out, Connection.into, Connection.setName] at e1 e2 e3 e4
      simp [runnelTap, ← e1, ← e2, ← e3.1, ← e3.2, ← e4]
    · subst hx hy
      simp [Connection.out, Connection.into, Connection.setName] at e1 e2 e3 e4
      simp [runnelTub, ← e1, ← e2, ← e3.1, ← e3.2, ← e4]
  · rcases i with _ | i <;> simp at hx hy
    subst hx hy
    simp [Connection.out, Connection.into, Connection.setName] at e1 e2 e3 e4
    simp [runnelStill, ← e1, ← e2, ← e3.1, ← e3.2, ← e4]
theorem runnel_tap : runnel.HopOf "a".toList 0 runnelTap := ⟨_, _, List.mem_cons_self, rfl, _, _, rfl, rfl, rfl, rfl, rfl, rfl⟩
theorem runnel_tub : runnel.HopOf "a".toList 1 runnelTub := ⟨_, _, List.mem_cons_self, rfl, _, _, rfl, rfl, rfl, rfl, rfl, rfl⟩
theorem runnel_still : runnel.HopOf "b".toList 0 runnelStill := ⟨_, _, List.mem_cons_of_mem _ List.mem_cons_self, rfl, _, _, rfl, rfl, rfl, rfl, rfl, rfl⟩

theorem runnel_sound : runnel.Sound [runnelTap, runnelTub, runnelStill] := by
  refine ⟨by decide +kernel, ?_, ?_, ⟨?_, ?_, ?_, ?_, ?_, ?_⟩, ?_, complete_of (by decide +kernel) (by decide +kernel)⟩
  · intro b d h
    simp only [runnel, List.mem_cons, Prod.mk.injEq, List.not_mem_nil, or_false] at h
    rcases h with ⟨_, rfl⟩ | ⟨_, rfl⟩
    · refine ⟨_, rfl, by simp, ?_, ?_⟩
      · intro i a hi
        rcases i with _ | _ | i <;> simp at hi
        all_goals (subst hi; simp [Connection.into])
      · intro i a b hi hi'
        rcases i with _ | _ | i <;> simp at hi hi'
        all_goals (subst hi; simp [Connection.out])
    · refine ⟨_, rfl, by simp, ?_, ?_⟩
      · intro i a hi
        rcases i with _ | i <;> simp at hi
        all_goals (subst hi; simp [Connection.into])
      · intro i a b hi hi'
        rcases i with _ | i <;> simp at hi hi'
        all_goals (subst hi; simp [Connection.out])
  · intro b i h hh hd
    rcases runnel_hops hh with ⟨_, _, rfl⟩ | ⟨_, _, rfl⟩ | ⟨_, _, rfl⟩ <;> simp [runnelTap, runnelTub, runnelStill, runnel, Map.keys] at hd ⊢
  · intro b i h hh
    rcases runnel_hops hh with ⟨_, _, rfl⟩ | ⟨_, _, rfl⟩ | ⟨_, _, rfl⟩ <;> simp [Config.Runnable, Hop.from, Hop.to, runnelTap, runnelTub, runnelStill, runnel, Map.get, List.lookup]
  · intro b i h hh
    rcases runnel_hops hh with ⟨_, _, rfl⟩ | ⟨_, _, rfl⟩ | ⟨_, _, rfl⟩ <;> simp [runnelTap, runnelTub, runnelStill]
  · intro b i h hh
    rcases runnel_hops hh with ⟨_, _, rfl⟩ | ⟨_, _, rfl⟩ | ⟨_, _, rfl⟩ <;> simp [runnelTap, runnelTub, runnelStill]
  · intro b i h hh
    rcases runnel_hops hh with ⟨_, _, rfl⟩ | ⟨_, _, rfl⟩ | ⟨_, _, rfl⟩ <;> simp [runnelTap, runnelTub, runnelStill]
  · intro b i h b' i' h' hh hh'
    rcases runnel_hops hh with ⟨_, _, rfl⟩ | ⟨_, _, rfl⟩ | ⟨_, _, rfl⟩ <;> rcases runnel_hops hh' with ⟨_, _, rfl⟩ | ⟨_, _, rfl⟩ | ⟨_, _, rfl⟩ <;> simp [runnelTap, runnelTub, runnelStill]
  · intro b i h k hh
    rcases runnel_hops hh with ⟨_, _, rfl⟩ | ⟨_, _, rfl⟩ | ⟨_, _, rfl⟩ <;> intros <;> rfl
  · intro h
    constructor
    · intro hh
      simp only [List.mem_cons, List.not_mem_nil, or_false] at hh
      rcases hh with rfl | rfl | rfl
      · exact ⟨_, _, runnel_tap⟩
      · exact ⟨_, _, runnel_tub⟩
      · exact ⟨_, _, runnel_still⟩
    · rintro ⟨b, i, hh⟩
      rcases runnel_hops hh with ⟨_, _, rfl⟩ | ⟨_, _, rfl⟩ | ⟨_, _, rfl⟩ <;> simp

def runnelWaiter : Waiter := match manipulate id id id runnel with
  | some (c', _) => ((getWaiter c').ok?).getD Waiter.new
  | none => Waiter.new
theorem runnel_made : ∃ c' printed, manipulate id id id runnel = some (c', printed) ∧ getWaiter c' = .ok runnelWaiter := by
  cases h : manipulate id id id runnel with
  | none => exact absurd (show (manipulate id id id runnel).isSome = true by decide +kernel) (by simp [h])
  | some x =>
    refine ⟨x.1, x.2, rfl, ?_⟩
    have h1 : runnelWaiter = ((getWaiter x.1).ok?).getD Waiter.new := by simp only [runnelWaiter, h]
    have h2 : ((manipulate id id id runnel).bind fun x => (getWaiter x.1).ok?).isSome = true := by decide +kernel
    rw [h] at h2
    simp only [Option.bind_some] at h2
    rw [h1]
    cases h3 : getWaiter x.1 with
    | ok w => rfl
    | err e => rw [h3] at h2; cases h2
    | panic => rw [h3] at h2; cases h2

def runnelHops : List Hop := [runnelTap, runnelTub, runnelStill]
def runnelIn : Who := .part (.faucet, "tap".toList) .main

theorem runnel_free : CircleFree runnelHops := circleFree_of evenRank (by decide +kernel) (by decide +kernel) (fun _ => Nat.lt_succ_self 1)
theorem runnel_bufferless (x : Str) : ¬ Mentioned runnelHops (.buffer, x) := by
  rintro ⟨h, hh, he⟩
  have : ∀ h ∈ runnelHops, h.from.1 ≠ .buffer ∧ h.to.1 ≠ .buffer := by decide +kernel
  rcases he with he | he
  · exact (this h hh).1 (by rw [he])
  · exact (this h hh).2 (by rw [he])
theorem runnel_favoured (a : Who) : FavouredEnds runnelHops a := by
  intro h hh _ _ f hf e
  exact (by decide +kernel : ∀ h ∈ runnelHops, ∀ f ∈ runnelHops, f.dst = h.dst → h.input.priority ≤ f.input.priority) h hh f hf e

theorem runnel_reached {z : Who} (h : Relation.TransGen (Feeds runnelHops) runnelIn z) : z = runnelTap.reader ∨ z = runnelTub.reader := by
  have one : ∀ {a z}, a = runnelIn ∨ a = runnelTap.reader ∨ a = runnelTub.reader → Feeds runnelHops a z → z = runnelTap.reader ∨ z = runnelTub.reader := by
    intro a z ha hz
    cases hz with
    | hop h2 _ =>
      exact (by decide +kernel : ∀ h ∈ runnelHops, (h.writer = runnelIn ∨ h.writer = runnelTap.reader ∨ h.writer = runnelTub.reader) → h.reader = runnelTap.reader ∨ h.reader = runnelTub.reader) _ h2 ha
    | buffer h2 => exact absurd h2 (runnel_bufferless _)
  induction h with
  | single h => exact one (Or.inl rfl) h
  | tail _ h ih => exact one (Or.inr ih) h

theorem runnel_into_fork : runnel.Into ⟨.junction, "fork".toList⟩ [("a".toList, 0)] := by
  refine ⟨by decide, fun b i => ?_⟩
  constructor
  · intro h
    simp only [List.mem_cons, List.not_mem_nil, or_false] at h
    cases h
    exact ⟨_, runnel_tap, rfl⟩
  · rintro ⟨h, hh, e⟩
    rcases runnel_hops hh with ⟨rfl, rfl, rfl⟩ | ⟨rfl, rfl, rfl⟩ | ⟨rfl, rfl, rfl⟩
    · simp
    · cases e
    · cases e

theorem runnel_into_tub : runnel.Into ⟨.drain, "tub".toList⟩ [("a".toList, 1)] := by
  refine ⟨by decide, fun b i => ?_⟩
  constructor
  · intro h
    simp only [List.mem_cons, List.not_mem_nil, or_false] at h
    cases h
    exact ⟨_, runnel_tub, rfl⟩
  · rintro ⟨h, hh, e⟩
    rcases runnel_hops hh with ⟨rfl, rfl, rfl⟩ | ⟨rfl, rfl, rfl⟩ | ⟨rfl, rfl, rfl⟩
    · cases e
    · simp
    · exact absurd e (by decide)

theorem runnel_brings : runnel.Brings [("a".toList, 1)] [runnelTap] :=
  .through (S' := [runnelTap]) (S := []) runnel_tub (by decide) (by decide) runnel_into_fork (by simp) (.stream runnel_tap (Or.inl rfl) .none) .none

/-- One file is read for ever and another gives nothing. What is written is at all times the beginning of what was read from the first, and all of that is written. -/
example : ∃ (σ : Nat → Option (Who × Ev)) (x y : Nat), runnelWaiter.FairBut (fun h => h ≠ x ∧ h ≠ y) [] estuaryCaps σ ∧
    (∀ k, ∃ m, k ≤ (receivedFrom (.handle x) (proj runnelIn (upTo σ m))).length) ∧
    ∀ n, bytesIn y (proj runnelTub.reader (upTo σ n)) <+: (received (proj runnelIn (upTo σ n))).flatten ∧
      ∃ m, n ≤ m ∧ (received (proj runnelIn (upTo σ n))).flatten <+: bytesIn y (proj runnelTub.reader (upTo σ m)) := by
  have pe : ∀ {α : Type} (l : List α), (id l).Perm l := fun _ => .refl _
  obtain ⟨c', printed, h1, hw⟩ := runnel_made
  have key : ∃ x, (runnelWaiter.node runnelIn).map (fun v => (v.sources, v.targets.all fun t => match t with | .handle _ => false | _ => true)) = some ([.handle x], true) ∧
      (runnelWaiter.node runnelTap.reader).map (fun v => v.targets.all fun t => match t with | .handle _ => false | _ => true) = some true ∧
      (runnelWaiter.node runnelTub.reader).map Node.targets = some [.handle (3 * runnelWaiter.idOf runnelTub.to)] := ⟨0, by decide +kernel⟩
  obtain ⟨x, k1, k2, k3⟩ := key
  obtain ⟨v, hv, ev⟩ := Option.map_eq_some_iff.mp k1
  obtain ⟨f, hf, ef⟩ := Option.map_eq_some_iff.mp k2
  obtain ⟨u, hu, eu⟩ := Option.map_eq_some_iff.mp k3
  simp only [Prod.mk.injEq, List.all_eq_true] at ev ef
  obtain ⟨σ, hσ, _, h4, h5, h6⟩ := C106_written_lasts (cap := estuaryCaps) (τ := []) (fun h => h ≠ x ∧ h ≠ 3 * runnelWaiter.idOf runnelTub.to) runnel_sound runnel_bufferless pe pe pe h1 hw
    (runs_nothing _) (by simp)
  have hU : runnelWaiter.Answering (fun h => h ≠ x ∧ h ≠ 3 * runnelWaiter.idOf runnelTub.to) runnelHops runnelIn := by
    rintro z n h (rfl | hz) hn ht
    · rw [hv] at hn; cases hn
      have := ev.2 _ ht
      cases this
    · rcases runnel_reached hz with rfl | rfl
      · rw [hf] at hn; cases hn
        have := ef _ ht
        cases this
      · rw [hu] at hn; cases hn
        rw [eu] at ht
        simp only [List.mem_singleton, End.handle.injEq] at ht
        exact fun h => h.2 ht
  refine ⟨σ, x, _, hσ, ?_, fun n => ?_⟩
  · rcases C106_written_reads runnel_sound runnel_free pe pe pe h1 hw (order := []) rfl (fun _ _ => by simp [estuaryCaps]) hσ h4 hv (h := x) (by rw [ev.1]; simp) (by simp [runnelIn, atJunction])
      (runnel_favoured _) hU (fun h => h.1 rfl) with ⟨m, h7⟩ | h7
    · exact absurd h7 (h5 m _ x)
    · exact h7
  · exact C107_pours runnel_sound runnel_free pe pe pe h1 hw (order := []) rfl (fun _ _ => by simp [estuaryCaps]) hσ h4 (g := runnelTap) runnel_tub (Or.inr ⟨rfl, by decide +kernel⟩) runnel_into_tub
      runnel_brings (by decide) (runnel_favoured _) hU n

/-- Two files are read into one: what has been taken out of the buffer is a mixture of beginnings of what was read. -/
example : ∃ ls, EachBegins ls ([marshTap, marshSpring].map fun g => received (proj g.writer marshAll)) ∧ Mix ls (received (proj marshTub.reader marshAll)) := by
  obtain ⟨c', printed, h1, h2⟩ := marsh_made
  exact C107_mixes (perm := id) (perm' := id) (spyOrder := id) (order := []) (cs := []) marsh_sound (fun _ => .refl _) (fun _ => .refl _) (fun _ => .refl _) h1 h2 rfl marshAll_runs (h := marshTub) marsh_tub
    marsh_into_tub marsh_brings (by decide +kernel)

end Verif.Example
