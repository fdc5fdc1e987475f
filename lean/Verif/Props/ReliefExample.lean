import Verif.Props.Relief
import Verif.Props.WorldSteerExample
/-!
# A leat

The sluice with a lake between the mill and the pond that the regulator watches, and with the capacities of the code.
-/
namespace Verif

def leat : Config where
  faucet := [("spring".toList, "a.txt".toList)]
  drain := [("sea".toList, "b.txt".toList)]
  regulator := [("gate".toList, ⟨some (0, 1), ["pond".toList]⟩)]
  launch := [("mill".toList, ⟨some "tr".toList, none, [], []⟩)]
  connection := [("m".toList, .conns [.start .faucet "spring".toList .out none, .middle .regulator "gate".toList ⟨.terminate, 0⟩ .out none, .middle .launch "mill".toList ⟨.terminate, 0⟩ .out none,
    .middle .buffer "lake".toList ⟨.terminate, 0⟩ .out none, .middle .buffer "pond".toList ⟨.terminate, 0⟩ .out none, .end .drain "sea".toList ⟨.terminate, 0⟩ none])]

def leatSpring : Hop := ⟨⟨.faucet, "spring".toList, .out⟩, none, ⟨.regulator, "gate".toList⟩, ⟨.terminate, 0⟩, none⟩
def leatGate : Hop := ⟨⟨.regulator, "gate".toList, .out⟩, none, ⟨.launch, "mill".toList⟩, ⟨.terminate, 0⟩, none⟩
def leatMill : Hop := ⟨⟨.launch, "mill".toList, .out⟩, none, ⟨.buffer, "lake".toList⟩, ⟨.terminate, 0⟩, none⟩
def leatLake : Hop := ⟨⟨.buffer, "lake".toList, .out⟩, none, ⟨.buffer, "pond".toList⟩, ⟨.terminate, 0⟩, none⟩
def leatPond : Hop := ⟨⟨.buffer, "pond".toList, .out⟩, none, ⟨.drain, "sea".toList⟩, ⟨.terminate, 0⟩, none⟩
theorem leat_spring : leat.HopOf "m".toList 0 leatSpring := ⟨_, _, List.mem_cons_self, rfl, _, _, rfl, rfl, rfl, rfl, rfl, rfl⟩
theorem leat_gate : leat.HopOf "m".toList 1 leatGate := ⟨_, _, List.mem_cons_self, rfl, _, _, rfl, rfl, rfl, rfl, rfl, rfl⟩
theorem leat_mill : leat.HopOf "m".toList 2 leatMill := ⟨_, _, List.mem_cons_self, rfl, _, _, rfl, rfl, rfl, rfl, rfl, rfl⟩
theorem leat_lake : leat.HopOf "m".toList 3 leatLake := ⟨_, _, List.mem_cons_self, rfl, _, _, rfl, rfl, rfl, rfl, rfl, rfl⟩
theorem leat_pond : leat.HopOf "m".toList 4 leatPond := ⟨_, _, List.mem_cons_self, rfl, _, _, rfl, rfl, rfl, rfl, rfl, rfl⟩

theorem leat_hops {b i h} (hh : leat.HopOf b i h) :
    (b = "m".toList ∧ i = 0 ∧ h = leatSpring) ∨ (b = "m".toList ∧ i = 1 ∧ h = leatGate) ∨ (b = "m".toList ∧ i = 2 ∧ h = leatMill) ∨ (b = "m".toList ∧ i = 3 ∧ h = leatLake) ∨ (b = "m".toList ∧ i = 4 ∧ h = leatPond) := by
  obtain ⟨d, cs, hm, hd, x, y, hx, hy, e1, e2, e3, e4⟩ := hh
  obtain ⟨s, st, t, inp, dst⟩ := h
  simp only [leat, List.mem_cons, Prod.mk.injEq, List.not_mem_nil, or_false] at hm
  obtain ⟨rfl, rfl⟩ := hm
  simp only [DConn.Means] at hd
  subst hd
  rcases i with _ | _ | _ | _ | _ | i <;> simp at hx hy
  · subst hx hy
    simp [Connection.out, Connection.into, Connection.setName] at e1 e2 e3 e4
    simp [leatSpring, ← e1, ← e2, ← e3.1, ← e3.2, ← e4]
  · subst hx hy
    simp [Connection.out, Connection.into, Connection.setName] at e1 e2 e3 e4
    simp [leatGate, ← e1, ← e2, ← e3.1, ← e3.2, ← e4]
  · subst hx hy
    simp [Connection.out, Connection.into, Connection.setName] at e1 e2 e3 e4
    simp [leatMill, ← e1, ← e2, ← e3.1, ← e3.2, ← e4]
  · subst hx hy
    simp [Connection.out, Connection.into, Connection.setName] at e1 e2 e3 e4
    simp [leatLake, ← e1, ← e2, ← e3.1, ← e3.2, ← e4]
  · subst hx hy
    simp [Connection.out, Connection.into, Connection.setName] at e1 e2 e3 e4
    simp [leatPond, ← e1, ← e2, ← e3.1, ← e3.2, ← e4]

theorem leat_sound : leat.Sound [leatSpring, leatGate, leatMill, leatLake, leatPond] := by
  refine ⟨by decide +kernel, ?_, ?_, ⟨?_, ?_, ?_, ?_, ?_, ?_⟩, ?_, complete_of (by decide +kernel) (by decide +kernel)⟩
  · intro b d h
    simp only [leat, List.mem_cons, Prod.mk.injEq, List.not_mem_nil, or_false] at h
    obtain ⟨_, rfl⟩ := h
    refine ⟨_, rfl, by simp, ?_, ?_⟩
    · intro i a hi
      rcases i with _ | _ | _ | _ | _ | i <;> simp at hi
      all_goals (subst hi; simp [Connection.into])
    · intro i a b hi hi'
      rcases i with _ | _ | _ | _ | _ | i <;> simp at hi hi'
      all_goals (subst hi; simp [Connection.out])
  · intro b i h hh hd
    rcases leat_hops hh with ⟨_, _, rfl⟩ | ⟨_, _, rfl⟩ | ⟨_, _, rfl⟩ | ⟨_, _, rfl⟩ | ⟨_, _, rfl⟩ <;> simp [leatSpring, leatGate, leatMill, leatLake, leatPond, leat, Map.keys] at hd ⊢
  · intro b i h hh
    rcases leat_hops hh with ⟨_, _, rfl⟩ | ⟨_, _, rfl⟩ | ⟨_, _, rfl⟩ | ⟨_, _, rfl⟩ | ⟨_, _, rfl⟩ <;> simp [Config.Runnable, Hop.from, Hop.to, leatSpring, leatGate, leatMill, leatLake, leatPond, leat, Map.get, List.lookup]
  · intro b i h hh
    rcases leat_hops hh with ⟨_, _, rfl⟩ | ⟨_, _, rfl⟩ | ⟨_, _, rfl⟩ | ⟨_, _, rfl⟩ | ⟨_, _, rfl⟩ <;> simp [leatSpring, leatGate, leatMill, leatLake, leatPond]
  · intro b i h hh
    rcases leat_hops hh with ⟨_, _, rfl⟩ | ⟨_, _, rfl⟩ | ⟨_, _, rfl⟩ | ⟨_, _, rfl⟩ | ⟨_, _, rfl⟩ <;> simp [leatSpring, leatGate, leatMill, leatLake, leatPond]
  · intro b i h hh
    rcases leat_hops hh with ⟨_, _, rfl⟩ | ⟨_, _, rfl⟩ | ⟨_, _, rfl⟩ | ⟨_, _, rfl⟩ | ⟨_, _, rfl⟩ <;> simp [leatSpring, leatGate, leatMill, leatLake, leatPond]
  · intro b i h b' i' h' hh hh'
    rcases leat_hops hh with ⟨_, _, rfl⟩ | ⟨_, _, rfl⟩ | ⟨_, _, rfl⟩ | ⟨_, _, rfl⟩ | ⟨_, _, rfl⟩ <;> rcases leat_hops hh' with ⟨_, _, rfl⟩ | ⟨_, _, rfl⟩ | ⟨_, _, rfl⟩ | ⟨_, _, rfl⟩ | ⟨_, _, rfl⟩ <;> simp [leatSpring, leatGate, leatMill, leatLake, leatPond]
  · intro b i h k hh
    rcases leat_hops hh with ⟨_, _, rfl⟩ | ⟨_, _, rfl⟩ | ⟨_, _, rfl⟩ | ⟨_, _, rfl⟩ | ⟨_, _, rfl⟩ <;> intros <;> rfl
  · intro h
    constructor
    · intro hh
      simp only [List.mem_cons, List.not_mem_nil, or_false] at hh
      rcases hh with rfl | rfl | rfl | rfl | rfl
      · exact ⟨_, _, leat_spring⟩
      · exact ⟨_, _, leat_gate⟩
      · exact ⟨_, _, leat_mill⟩
      · exact ⟨_, _, leat_lake⟩
      · exact ⟨_, _, leat_pond⟩
    · rintro ⟨b, i, hh⟩
      rcases leat_hops hh with ⟨_, _, rfl⟩ | ⟨_, _, rfl⟩ | ⟨_, _, rfl⟩ | ⟨_, _, rfl⟩ | ⟨_, _, rfl⟩ <;> simp

/-- What is left after processing. -/
def leatMap : Map Hop := [("dyn_connection_1".toList, ⟨⟨.launch, "mill".toList, .exit⟩, none, ⟨.drain, "dyn_drain_1".toList⟩, ⟨.terminate, 0⟩, none⟩), ("m_1".toList, leatSpring), ("m_2".toList, leatGate),
  ("m_3".toList, leatMill), ("m_4".toList, leatLake), ("m_5".toList, leatPond)]
def leatWaiter : Waiter := match manipulate id id id leat with
  | some (c', _) => ((getWaiter c').ok?).getD Waiter.new
  | none => Waiter.new
theorem leat_made : ∃ c' printed, manipulate id id id leat = some (c', printed) ∧ getWaiter c' = .ok leatWaiter ∧ c'.connection = hopSets leatMap := by
  have h4 : (manipulate id id id leat).map (fun x => x.1.connection) = some (hopSets leatMap) := by decide +kernel
  cases h : manipulate id id id leat with
  | none => exact absurd (show (manipulate id id id leat).isSome = true by decide +kernel) (by simp [h])
  | some x =>
    rw [h] at h4
    refine ⟨x.1, x.2, rfl, ?_, by simpa using h4⟩
    have h1 : leatWaiter = ((getWaiter x.1).ok?).getD Waiter.new := by simp only [leatWaiter, h]
    have h2 : ((manipulate id id id leat).bind fun x => (getWaiter x.1).ok?).isSome = true := by decide +kernel
    rw [h] at h2
    simp only [Option.bind_some] at h2
    rw [h1]
    cases h3 : getWaiter x.1 with
    | ok w => rfl
    | err e => rw [h3] at h2; cases h2
    | panic => rw [h3] at h2; cases h2
def leatReady : List Capture × Waiter := match leatWaiter.regulatorSettings [("gate".toList, ⟨0, 1, ["pond".toList]⟩)] with
  | .ok x => x
  | _ => ([], Waiter.new)
theorem leat_prepared : leatWaiter.regulatorSettings [("gate".toList, ⟨0, 1, ["pond".toList]⟩)] = .ok (leatReady.1, leatReady.2) := by decide +kernel
theorem leat_steers : leatReady.1 = [⟨0, 1, "gate".toList, ["pond".toList]⟩] := by decide +kernel

def leatProgs : Str → Program := fun _ => filterBy milled true
theorem leat_first : (leatProgs "mill".toList).Filters milled := filterBy_filters fun _ => milled_mono

/-- The capacities of the code. -/
def leatCaps : Caps := realCaps (leatMap.map (·.2))
def leatText : Bytes := [1, 10, 2, 10, 3, 10]
def leatFeed : Feed := fun h => if h = 6 then [[1, 10], [2, 10], [3, 10]] else []
/-- The whole run. Pipes hold two bytes. -/
def leatAll : List Happening := leatReady.2.worldDrive leatReady.1 leatCaps 2 leatProgs leatFeed (([12, 12, 12, 12, 12, 12, 18, 18, 18, 18, 18, 1, 1, 43, 1, 43, 2, 1, 2, 1, 43, 2, 25, 1, 43, 2, 25, 26, 2, 25, 26, 2, 25, 26, 31, 25, 26, 31, 25, 26, 31, 26, 31, 31, 31, 29, 35,
  42, 29, 35, 42, 29, 35, 42, 29, 35, 42, 29, 35, 42, 29, 35, 42, 12, 18, 12, 32, 32, 32, 36, 32, 36, 32, 32, 36, 35, 42, 35, 42, 35, 42, 35, 42, 35, 42, 35, 42, 35, 42, 35, 42, 35,
  42, 35, 42, 35, 42, 35, 42, 35, 42, 35, 42, 35, 42, 35, 42, 35, 42, 35, 42, 35, 42, 35, 42, 35, 42, 35, 42, 35, 42, 35, 42, 18, 36, 18, 18, 1, 18, 1, 43, 18, 1, 43, 2, 18, 2, 18,
  1, 2, 25, 18, 1, 25, 26, 1, 43, 25, 26, 43, 2, 26, 31, 2, 25, 31, 32, 2, 25, 31, 32, 4, 25, 26, 32, 36, 4, 6, 25, 26, 36, 4, 6, 25, 26, 31, 6, 25, 26, 31, 25, 26, 31, 32, 26, 31,
  32, 26, 31, 32, 36, 31, 32, 36, 31, 32, 36, 32, 32, 29, 35, 42, 29, 35, 42, 29, 35, 42, 29, 35, 42, 29, 35, 42, 29, 35, 42, 29, 35, 42, 29, 35, 42, 29, 35, 42, 35, 42, 35, 42, 35,
  42, 42] : List Nat).filterMap fun k => (leatReady.2.everybody leatReady.1)[k]?)
theorem leat_runs : leatReady.2.WorldRun leatReady.1 leatCaps 2 leatProgs leatAll := Waiter.worldDrive_runs _ _

/-- The manager asks the regulator to wait and to go on. -/
example : ((coreOf leatAll).filterMap fun x => match x.1, x.2.q with
    | .manager _, .send .ctl _ _ => some true
    | .part (.regulator, _) .main, .recv .ctl _ => some false
    | _, _ => none) = [true, true, false] := by decide +kernel

theorem leat_launches : ∀ x, leatReady.2.comps.get (.launch, x) ≠ none → x = "mill".toList := by
  intro x hx
  obtain ⟨y, hy⟩ := Option.ne_none_iff_exists'.mp hx
  have hk : ∀ z ∈ leatReady.2.comps, z.1.1 = .launch → z.1.2 = "mill".toList := by decide +kernel
  exact hk ((.launch, x), y) (Table.get_mem hy) rfl
theorem leat_over : leatReady.2.AllOver leatReady.1 leatAll := by
  have h : Exited (historyOf "mill".toList leatAll) := by decide +kernel
  refine ⟨Waiter.overNow_sound (by decide +kernel), fun x hx => ?_⟩
  rw [leat_launches x hx]
  exact h
theorem leat_calm : ∀ i, ∀ f ∈ acts (proj i (coreOf leatAll)), f.trouble = false := leat_runs.core.calm (by decide +kernel)
theorem leat_until (n : Nat) : ∃ u, coreOf leatAll = coreOf (soFar (fun n => leatAll[n]?) n) ++ u := by
  refine ⟨coreOf (leatAll.drop n), ?_⟩
  rw [soFar_list, ← coreOf_append, List.take_append_drop]
theorem leat_supplies : ∀ b i g, leat.HopOf b i g → g.src.ty = .faucet → leatReady.2.Supplies (coreOf leatAll) g leatText := by
  intro b i g hh hg
  rcases leat_hops hh with ⟨_, _, rfl⟩ | ⟨_, _, rfl⟩ | ⟨_, _, rfl⟩ | ⟨_, _, rfl⟩ | ⟨_, _, rfl⟩
  · exact Or.inl ⟨6, [[1, 10], [2, 10], [3, 10]], by decide +kernel, by decide, by decide +kernel, by unfold ReadsFrom; decide +kernel⟩
  · cases hg
  · cases hg
  · cases hg
  · cases hg

theorem leat_into {h : Hop} (hh : h ∈ [leatSpring, leatGate, leatMill, leatLake, leatPond]) :
    leat.Into h.dst [("m".toList, if h.dst.name = "gate".toList then 0 else if h.dst.name = "mill".toList then 1 else if h.dst.name = "lake".toList then 2 else if h.dst.name = "pond".toList then 3 else 4)] := by
  refine ⟨by simp, fun b i => ?_⟩
  simp only [List.mem_cons, List.not_mem_nil, or_false] at hh
  constructor
  · intro hm
    simp only [List.mem_cons, List.not_mem_nil, or_false] at hm
    rcases hh with rfl | rfl | rfl | rfl | rfl
    · cases hm; exact ⟨_, leat_spring, rfl⟩
    · cases hm; exact ⟨_, leat_gate, rfl⟩
    · cases hm; exact ⟨_, leat_mill, rfl⟩
    · cases hm; exact ⟨_, leat_lake, rfl⟩
    · cases hm; exact ⟨_, leat_pond, rfl⟩
  · rintro ⟨g, hg, e⟩
    rcases hh with rfl | rfl | rfl | rfl | rfl <;> rcases leat_hops hg with ⟨rfl, rfl, rfl⟩ | ⟨rfl, rfl, rfl⟩ | ⟨rfl, rfl, rfl⟩ | ⟨rfl, rfl, rfl⟩ | ⟨rfl, rfl, rfl⟩ <;> first | (cases e; done) | decide +kernel
theorem leat_gives : leat.Gives leatProgs (fun _ => leatText) leatMill (milled leatText) :=
  .program leat_mill rfl rfl leat_first leat_gate rfl (leat_into (by simp))
    (.through leat_gate (by decide) (by decide) (leat_into (h := leatSpring) (by simp)) (by simp) (.stream leat_spring (Or.inl rfl) .none) .none) (.file leat_spring rfl)
def leatRank : CompRef → Nat := fun r => match r.1 with
  | .faucet => 0
  | .regulator => 1
  | .launch => 2
  | .buffer => if r.2 = "lake".toList then 3 else 4
  | _ => 5
theorem leat_free : NoWayBack [leatSpring, leatGate, leatMill, leatLake, leatPond] := C85_components (noReturn leatRank (by
  have : ∀ h ∈ [leatSpring, leatGate, leatMill, leatLake, leatPond], leatRank h.from < leatRank h.to := by decide +kernel
  rintro a b ⟨h, hm, rfl, rfl⟩
  exact this h hm))
/-- Only the output of the lake can be held up by the pond. -/
theorem leat_hangs {i : Who} (h : Relation.TransGen (HoldsUp [leatSpring, leatGate, leatMill, leatLake, leatPond]) i (.part (.buffer, "pond".toList) .input)) : i = .part (.buffer, "lake".toList) .output := by
  have h1 : ∀ h ∈ [leatSpring, leatGate, leatMill, leatLake, leatPond], h.reader = .part (.buffer, "pond".toList) .input → h.writer = .part (.buffer, "lake".toList) .output := by decide +kernel
  have h2 : ∀ h ∈ [leatSpring, leatGate, leatMill, leatLake, leatPond], h.src.ty = .launch → h.writer ≠ .part (.buffer, "pond".toList) .input := by decide +kernel
  have one : ∀ {i}, HoldsUp [leatSpring, leatGate, leatMill, leatLake, leatPond] i (.part (.buffer, "pond".toList) .input) → i = .part (.buffer, "lake".toList) .output := by
    intro i h
    generalize hb : Who.part (.buffer, "pond".toList) .input = b at h
    cases h with
    | hop hm _ => exact h1 _ hm hb.symm
    | program hm hl _ => exact absurd hb.symm (h2 _ hm hl)
  generalize hb : Who.part (.buffer, "pond".toList) .input = b at h
  cases h with
  | single h => subst hb; exact one h
  | tail h h' =>
    subst hb
    rw [one h'] at h
    generalize hb : Who.part (.buffer, "lake".toList) .output = b at h
    cases h with
    | single h => subst hb; exact absurd h not_holdsUp_output
    | tail _ h => subst hb; exact absurd h not_holdsUp_output
/-- It and the pond are downstream of the regulator. -/
theorem leat_relieved : Relieved [leatSpring, leatGate, leatMill, leatLake, leatPond] leatReady.1 := by
  have hop : ∀ h ∈ [leatSpring, leatGate, leatMill, leatLake, leatPond], LeadsOn [leatSpring, leatGate, leatMill, leatLake, leatPond] (fun _ => True) h.writer h.reader := by
    have : ∀ h ∈ [leatSpring, leatGate, leatMill, leatLake, leatPond], ¬ h.isExit := by decide +kernel
    exact fun h hm => .inside (.hop hm (this h hm))
  have h1 : Below [leatSpring, leatGate, leatMill, leatLake, leatPond] (.part (.regulator, "gate".toList) .main) (.part (.buffer, "lake".toList) .output) := by
    refine .tail (.tail (.tail (.single (hop leatGate (by simp))) (?_ : LeadsOn _ _ _ leatMill.writer)) (hop leatMill (by simp))) ?_
    · exact .program (h := leatMill) (by simp) rfl (by decide +kernel) trivial
    · exact .inside (.buffer (x := "lake".toList) ⟨leatMill, by simp, Or.inr rfl⟩)
  rw [leat_steers]
  constructor
  · intro a ha x hx i hg
    simp only [List.mem_cons, List.not_mem_nil, or_false] at ha
    subst ha
    simp only [List.mem_cons, List.not_mem_nil, or_false] at hx
    subst hx
    rcases hg with rfl | hg
    · exact .tail h1 (hop leatLake (by simp))
    · rw [leat_hangs hg]; exact h1
  · intro a ha x hx b hb y hy hg
    simp only [List.mem_cons, List.not_mem_nil, or_false] at ha hb
    subst ha hb
    simp only [List.mem_cons, List.not_mem_nil, or_false] at hx hy
    subst hx hy
    rcases hg with hg | hg
    · simp at hg
    · exact absurd (leat_hangs hg) (by decide)

/-- The pipeline comes to its end having written what its program makes of the file, whatever the order in which things happen; here, one order that neglects nobody. -/
example : ∃ n, bytesIn (3 * leatReady.2.idOf leatPond.to) (proj (.part (.drain, "sea".toList) .main) (coreOf (soFar (fun n => leatAll[n]?) n))) = [2, 10, 3, 10, 4, 10] := by
  obtain ⟨c', printed, h1, h2, h3⟩ := leat_made
  obtain ⟨n, _, _, h⟩ := C96_real (perm := id) (perm' := id) (spyOrder := id) leat_sound (fun _ => .refl _) (fun _ => .refl _) (fun _ => .refl _) h1 h3 h2 leat_prepared leat_free (by decide +kernel)
    leat_relieved (by rw [leat_steers]; decide) (by decide) (leat_over.fair leat_runs) (fun x hx => leat_launches x hx ▸ leat_first.reads) (fun x hx => filterBy_finite fun _ => milled_mono)
    (fun n i _ f hm => leat_calm i f (by
      obtain ⟨u, hu⟩ := leat_until n
      rw [hu, proj_append, acts_append]; exact List.mem_append_left _ hm))
    (B := fun _ => leatText) (fun n b i g hh hg => by
      obtain ⟨u, hu⟩ := leat_until n
      exact (hu ▸ leat_supplies b i g hh hg).before)
  refine ⟨n, ?_⟩
  have e2 : milled leatText = [2, 10, 3, 10, 4, 10] := by decide
  rw [← e2]
  exact h (h := leatPond) leat_pond rfl (by decide +kernel) (leat_into (by simp))
    (.through leat_pond (by decide) (by decide) (leat_into (h := leatLake) (by simp)) (by simp)
      (.through leat_lake (by decide) (by decide) (leat_into (h := leatMill) (by simp)) (by simp) (.stream leat_mill (Or.inr rfl) .none) .none) .none) leat_gives

end Verif
