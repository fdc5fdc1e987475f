import Verif.Props.WorldSteer
import Verif.Props.WorldEndsExample
import Verif.Props.WorldSettlesExample
import Verif.Lemmas.Braids
/-!
# A sluice

A program behind a regulator, and before the buffer the regulator watches: while the buffer holds more than one line the regulator is paused.
-/
namespace Verif

theorem Unbraided.of_rank {hs : List Hop} {cs : List Capture} (rank : Who → Nat) (h1 : ∀ a b, HoldsUp hs a b → rank a < rank b)
    (h2 : ∀ c ∈ cs, ∀ x ∈ c.buffers, rank (.part (.regulator, c.regulator) .main) < rank (.part (.buffer, x) .output)) : Unbraided hs cs := by
  intro i hi
  have one : ∀ {a b}, Backs hs cs a b → rank a < rank b := by
    intro a b h
    cases h with
    | holds h => exact h1 _ _ h
    | steer hc hx => exact h2 _ hc _ hx
  have : ∀ {a b}, Relation.TransGen (Backs hs cs) a b → rank a < rank b := by
    intro a b h
    induction h with
    | single h => exact one h
    | tail _ h ih => exact Nat.lt_trans ih (one h)
  exact Nat.lt_irrefl _ (this hi)

def sluice : Config where
  faucet := [("spring".toList, "a.txt".toList)]
  drain := [("sea".toList, "b.txt".toList)]
  regulator := [("gate".toList, ⟨some (0, 1), ["pond".toList]⟩)]
  launch := [("mill".toList, ⟨some "tr".toList, none, [], []⟩)]
  connection := [("m".toList, .conns [.start .faucet "spring".toList .out none, .middle .regulator "gate".toList ⟨.terminate, 0⟩ .out none, .middle .launch "mill".toList ⟨.terminate, 0⟩ .out none,
    .middle .buffer "pond".toList ⟨.terminate, 0⟩ .out none, .end .drain "sea".toList ⟨.terminate, 0⟩ none])]

def sluiceSpring : Hop := ⟨⟨.faucet, "spring".toList, .out⟩, none, ⟨.regulator, "gate".toList⟩, ⟨.terminate, 0⟩, none⟩
def sluiceGate : Hop := ⟨⟨.regulator, "gate".toList, .out⟩, none, ⟨.launch, "mill".toList⟩, ⟨.terminate, 0⟩, none⟩
def sluiceMill : Hop := ⟨⟨.launch, "mill".toList, .out⟩, none, ⟨.buffer, "pond".toList⟩, ⟨.terminate, 0⟩, none⟩
def sluicePond : Hop := ⟨⟨.buffer, "pond".toList, .out⟩, none, ⟨.drain, "sea".toList⟩, ⟨.terminate, 0⟩, none⟩
theorem sluice_spring : sluice.HopOf "m".toList 0 sluiceSpring := ⟨_, _, List.mem_cons_self, rfl, _, _, rfl, rfl, rfl, rfl, rfl, rfl⟩
theorem sluice_gate : sluice.HopOf "m".toList 1 sluiceGate := ⟨_, _, List.mem_cons_self, rfl, _, _, rfl, rfl, rfl, rfl, rfl, rfl⟩
theorem sluice_mill : sluice.HopOf "m".toList 2 sluiceMill := ⟨_, _, List.mem_cons_self, rfl, _, _, rfl, rfl, rfl, rfl, rfl, rfl⟩
theorem sluice_pond : sluice.HopOf "m".toList 3 sluicePond := ⟨_, _, List.mem_cons_self, rfl, _, _, rfl, rfl, rfl, rfl, rfl, rfl⟩

theorem sluice_hops {b i h} (hh : sluice.HopOf b i h) :
    (b = "m".toList ∧ i = 0 ∧ h = sluiceSpring) ∨ (b = "m".toList ∧ i = 1 ∧ h = sluiceGate) ∨ (b = "m".toList ∧ i = 2 ∧ h = sluiceMill) ∨ (b = "m".toList ∧ i = 3 ∧ h = sluicePond) := by
  obtain ⟨d, cs, hm, hd, x, y, hx, hy, e1, e2, e3, e4⟩ := hh
  obtain ⟨s, st, t, inp, dst⟩ := h
  simp only [sluice, List.mem_cons, Prod.mk.injEq, List.not_mem_nil, or_false] at hm
  obtain ⟨rfl, rfl⟩ := hm
  simp only [DConn.Means] at hd
  subst hd
  rcases i with _ | _ | _ | _ | i <;> simp at hx hy
  · subst hx hy
    simp [Connection.out, Connection.into, Connection.setName] at e1 e2 e3 e4
    simp [sluiceSpring, ← e1, ← e2, ← e3.1, ← e3.2, ← e4]
  · subst hx hy
    simp [Connection.out, Connection.into, Connection.setName] at e1 e2 e3 e4
    simp [sluiceGate, ← e1, ← e2, ← e3.1, ← e3.2, ← e4]
  · subst hx hy
    simp [Connection.out, Connection.into, Connection.setName] at e1 e2 e3 e4
    simp [sluiceMill, ← e1, ← e2, ← e3.1, ← e3.2, ← e4]
  · subst hx hy
    simp [Connection.out, Connection.into, Connection.setName] at e1 e2 e3 e4
    simp [sluicePond, ← e1, ← e2, ← e3.1, ← e3.2, ← e4]

theorem sluice_sound : sluice.Sound [sluiceSpring, sluiceGate, sluiceMill, sluicePond] := by
  refine ⟨by decide +kernel, ?_, ?_, ⟨?_, ?_, ?_, ?_, ?_, ?_⟩, ?_, complete_of (by decide +kernel) (by decide +kernel)⟩
  · intro b d h
    simp only [sluice, List.mem_cons, Prod.mk.injEq, List.not_mem_nil, or_false] at h
    obtain ⟨_, rfl⟩ := h
    refine ⟨_, rfl, by simp, ?_, ?_⟩
    · intro i a hi
      rcases i with _ | _ | _ | _ | i <;> simp at hi
      all_goals (subst hi; simp [Connection.into])
    · intro i a b hi hi'
      rcases i with _ | _ | _ | _ | i <;> simp at hi hi'
      all_goals (subst hi; simp [Connection.out])
  · intro b i h hh hd
    rcases sluice_hops hh with ⟨_, _, rfl⟩ | ⟨_, _, rfl⟩ | ⟨_, _, rfl⟩ | ⟨_, _, rfl⟩ <;> simp [sluiceSpring, sluiceGate, sluiceMill, sluicePond, sluice, Map.keys] at hd ⊢
  · intro b i h hh
    rcases sluice_hops hh with ⟨_, _, rfl⟩ | ⟨_, _, rfl⟩ | ⟨_, _, rfl⟩ | ⟨_, _, rfl⟩ <;> simp [Config.Runnable, Hop.from, Hop.to, sluiceSpring, sluiceGate, sluiceMill, sluicePond, sluice, Map.get, List.lookup]
  · intro b i h hh
    rcases sluice_hops hh with ⟨_, _, rfl⟩ | ⟨_, _, rfl⟩ | ⟨_, _, rfl⟩ | ⟨_, _, rfl⟩ <;> simp [sluiceSpring, sluiceGate, sluiceMill, sluicePond]
  · intro b i h hh
    rcases sluice_hops hh with ⟨_, _, rfl⟩ | ⟨_, _, rfl⟩ | ⟨_, _, rfl⟩ | ⟨_, _, rfl⟩ <;> simp [sluiceSpring, sluiceGate, sluiceMill, sluicePond]
  · intro b i h hh
    rcases sluice_hops hh with ⟨_, _, rfl⟩ | ⟨_, _, rfl⟩ | ⟨_, _, rfl⟩ | ⟨_, _, rfl⟩ <;> simp [sluiceSpring, sluiceGate, sluiceMill, sluicePond]
  · intro b i h b' i' h' hh hh'
    rcases sluice_hops hh with ⟨_, _, rfl⟩ | ⟨_, _, rfl⟩ | ⟨_, _, rfl⟩ | ⟨_, _, rfl⟩ <;> rcases sluice_hops hh' with ⟨_, _, rfl⟩ | ⟨_, _, rfl⟩ | ⟨_, _, rfl⟩ | ⟨_, _, rfl⟩ <;> simp [sluiceSpring, sluiceGate, sluiceMill, sluicePond]
  · intro b i h k hh
    rcases sluice_hops hh with ⟨_, _, rfl⟩ | ⟨_, _, rfl⟩ | ⟨_, _, rfl⟩ | ⟨_, _, rfl⟩ <;> intros <;> rfl
  · intro h
    constructor
    · intro hh
      simp only [List.mem_cons, List.not_mem_nil, or_false] at hh
      rcases hh with rfl | rfl | rfl | rfl
      · exact ⟨_, _, sluice_spring⟩
      · exact ⟨_, _, sluice_gate⟩
      · exact ⟨_, _, sluice_mill⟩
      · exact ⟨_, _, sluice_pond⟩
    · rintro ⟨b, i, hh⟩
      rcases sluice_hops hh with ⟨_, _, rfl⟩ | ⟨_, _, rfl⟩ | ⟨_, _, rfl⟩ | ⟨_, _, rfl⟩ <;> simp

def sluiceWaiter : Waiter := match manipulate id id id sluice with
  | some (c', _) => ((getWaiter c').ok?).getD Waiter.new
  | none => Waiter.new
theorem sluice_made : ∃ c' printed, manipulate id id id sluice = some (c', printed) ∧ getWaiter c' = .ok sluiceWaiter ∧ c'.connection.length = 5 := by
  have h4 : (manipulate id id id sluice).map (fun x => x.1.connection.length) = some 5 := by decide +kernel
  cases h : manipulate id id id sluice with
  | none => exact absurd (show (manipulate id id id sluice).isSome = true by decide +kernel) (by simp [h])
  | some x =>
    rw [h] at h4
    refine ⟨x.1, x.2, rfl, ?_, by simpa using h4⟩
    have h1 : sluiceWaiter = ((getWaiter x.1).ok?).getD Waiter.new := by simp only [sluiceWaiter, h]
    have h2 : ((manipulate id id id sluice).bind fun x => (getWaiter x.1).ok?).isSome = true := by decide +kernel
    rw [h] at h2
    simp only [Option.bind_some] at h2
    rw [h1]
    cases h3 : getWaiter x.1 with
    | ok w => rfl
    | err e => rw [h3] at h2; cases h2
    | panic => rw [h3] at h2; cases h2
def sluiceReady : List Capture × Waiter := match sluiceWaiter.regulatorSettings [("gate".toList, ⟨0, 1, ["pond".toList]⟩)] with
  | .ok x => x
  | _ => ([], Waiter.new)
theorem sluice_prepared : sluiceWaiter.regulatorSettings [("gate".toList, ⟨0, 1, ["pond".toList]⟩)] = .ok (sluiceReady.1, sluiceReady.2) := by decide +kernel
theorem sluice_steers : sluiceReady.1 = [⟨0, 1, "gate".toList, ["pond".toList]⟩] := by decide +kernel

/-- A program that counts every byte up but ends its lines where they ended. -/
def milled : Bytes → Bytes := List.map fun b => if b = 10 then 10 else b + 1
theorem milled_mono (x y : Bytes) (h : x <+: y) : milled x <+: milled y := h.map _
def sluiceProgs : Str → Program := fun _ => filterBy milled true
theorem sluice_first : (sluiceProgs "mill".toList).Filters milled := filterBy_filters fun _ => milled_mono

/-- One line per hop, as many as it likes in a buffer, and as many requests as a manager likes to make. -/
def sluiceCaps : Caps := fun k ch => if k = .data then (if ch < 5 then some 1 else none) else if k = .ctl then none else some 8
def sluiceText : Bytes := [1, 10, 2, 10, 3, 10]
def sluiceFeed : Feed := fun h => if h = 6 then [[1, 10], [2, 10], [3, 10]] else []
/-- The whole run. Pipes hold two bytes. -/
def sluiceAll : List Happening := sluiceReady.2.worldDrive sluiceReady.1 sluiceCaps 2 sluiceProgs sluiceFeed (([12, 12, 12, 18, 18, 18, 1, 1, 37, 1, 37, 2, 2, 2, 25, 25, 25, 29, 36, 29, 36, 29, 36, 29, 36, 29, 36, 29, 36, 12, 18, 12, 18, 1, 12, 18, 1, 37, 12, 1, 37, 2, 12, 2, 2, 25, 26,
  26, 26, 30, 30, 29, 36, 29, 36, 29, 36, 29, 36, 29, 36, 29, 36, 18, 25, 26, 18, 25, 26, 18, 1, 26, 30, 18, 1, 37, 30, 18, 1, 37, 2, 18, 2, 18, 1, 2, 25, 18, 1, 25, 26, 1, 37, 25,
  26, 37, 2, 26, 30, 2, 25, 30, 2, 25, 4, 25, 26, 4, 6, 25, 26, 4, 6, 25, 26, 30, 6, 25, 26, 30, 25, 26, 30, 26, 26, 29, 36, 29, 36, 29, 36, 29, 36, 29, 36, 29, 36, 29, 36, 29, 36,
  29, 36, 29, 36, 29, 36, 29, 36, 29, 36] : List Nat).filterMap fun k => (sluiceReady.2.everybody sluiceReady.1)[k]?)
theorem sluice_runs : sluiceReady.2.WorldRun sluiceReady.1 sluiceCaps 2 sluiceProgs sluiceAll := Waiter.worldDrive_runs _ _

/-- The manager asks the regulator to wait and to go on. -/
example : ((coreOf sluiceAll).filterMap fun x => match x.1, x.2.q with
    | .manager _, .send .ctl _ _ => some true
    | .part (.regulator, _) .main, .recv .ctl _ => some false
    | _, _ => none) = [true, true, false] := by decide +kernel

theorem sluice_launches : ∀ x, sluiceReady.2.comps.get (.launch, x) ≠ none → x = "mill".toList := by
  intro x hx
  obtain ⟨y, hy⟩ := Option.ne_none_iff_exists'.mp hx
  have hk : ∀ z ∈ sluiceReady.2.comps, z.1.1 = .launch → z.1.2 = "mill".toList := by decide +kernel
  exact hk ((.launch, x), y) (Table.get_mem hy) rfl
theorem sluice_over : sluiceReady.2.AllOver sluiceReady.1 sluiceAll := by
  have h : Exited (historyOf "mill".toList sluiceAll) := by decide +kernel
  refine ⟨Waiter.overNow_sound (by decide +kernel), fun x hx => ?_⟩
  rw [sluice_launches x hx]
  exact h
theorem sluice_calm : ∀ i, ∀ f ∈ acts (proj i (coreOf sluiceAll)), f.trouble = false := sluice_runs.core.calm (by decide +kernel)
theorem sluice_until (n : Nat) : ∃ u, coreOf sluiceAll = coreOf (soFar (fun n => sluiceAll[n]?) n) ++ u := by
  refine ⟨coreOf (sluiceAll.drop n), ?_⟩
  rw [soFar_list, ← coreOf_append, List.take_append_drop]
theorem sluice_supplies : ∀ b i g, sluice.HopOf b i g → g.src.ty = .faucet → sluiceReady.2.Supplies (coreOf sluiceAll) g sluiceText := by
  intro b i g hh hg
  rcases sluice_hops hh with ⟨_, _, rfl⟩ | ⟨_, _, rfl⟩ | ⟨_, _, rfl⟩ | ⟨_, _, rfl⟩
  · exact Or.inl ⟨6, [[1, 10], [2, 10], [3, 10]], by decide +kernel, by decide, by decide +kernel, by unfold ReadsFrom; decide +kernel⟩
  · cases hg
  · cases hg
  · cases hg

theorem sluice_into {h : Hop} (hh : h ∈ [sluiceSpring, sluiceGate, sluiceMill, sluicePond]) :
    sluice.Into h.dst [("m".toList, if h.dst.name = "gate".toList then 0 else if h.dst.name = "mill".toList then 1 else if h.dst.name = "pond".toList then 2 else 3)] := by
  refine ⟨by simp, fun b i => ?_⟩
  simp only [List.mem_cons, List.not_mem_nil, or_false] at hh
  constructor
  · intro hm
    simp only [List.mem_cons, List.not_mem_nil, or_false] at hm
    rcases hh with rfl | rfl | rfl | rfl
    · cases hm; exact ⟨_, sluice_spring, rfl⟩
    · cases hm; exact ⟨_, sluice_gate, rfl⟩
    · cases hm; exact ⟨_, sluice_mill, rfl⟩
    · cases hm; exact ⟨_, sluice_pond, rfl⟩
  · rintro ⟨g, hg, e⟩
    rcases hh with rfl | rfl | rfl | rfl <;> rcases sluice_hops hg with ⟨rfl, rfl, rfl⟩ | ⟨rfl, rfl, rfl⟩ | ⟨rfl, rfl, rfl⟩ | ⟨rfl, rfl, rfl⟩ <;> first | (cases e; done) | decide +kernel
theorem sluice_gives : sluice.Gives sluiceProgs (fun _ => sluiceText) sluiceMill (milled sluiceText) :=
  .program sluice_mill rfl rfl sluice_first sluice_gate rfl (sluice_into (by simp))
    (.through sluice_gate (by decide) (by decide) (sluice_into (h := sluiceSpring) (by simp)) (by simp) (.stream sluice_spring (Or.inl rfl) .none) .none) (.file sluice_spring rfl)
def sluiceRank : CompRef → Nat := fun r => match r.1 with
  | .faucet => 0
  | .regulator => 1
  | .launch => 2
  | .buffer => 3
  | _ => 4
theorem sluice_free : NoWayBack [sluiceSpring, sluiceGate, sluiceMill, sluicePond] := C85_components (noReturn sluiceRank (by
  have : ∀ h ∈ [sluiceSpring, sluiceGate, sluiceMill, sluicePond], sluiceRank h.from < sluiceRank h.to := by decide +kernel
  rintro a b ⟨h, hm, rfl, rfl⟩
  exact this h hm))
def sluiceOrder : Who → Nat
  | .part (.faucet, _) _ => 0
  | .part (.regulator, _) _ => 1
  | .part (.launch, _) .input => 2
  | .part (.launch, _) _ => 3
  | .part (.buffer, _) _ => 4
  | _ => 5
theorem sluice_unbraided : Unbraided [sluiceSpring, sluiceGate, sluiceMill, sluicePond] sluiceReady.1 := by
  refine .of_rank sluiceOrder ?_ ?_
  · have h1 : ∀ h ∈ [sluiceSpring, sluiceGate, sluiceMill, sluicePond], sluiceOrder h.writer < sluiceOrder h.reader := by decide +kernel
    have h2 : ∀ h ∈ [sluiceSpring, sluiceGate, sluiceMill, sluicePond], h.src.ty = .launch → sluiceOrder (.part h.from .input) < sluiceOrder h.writer := by decide +kernel
    intro a b h
    cases h with
    | hop hm _ => exact h1 _ hm
    | program hm hl _ => exact h2 _ hm hl
  · rw [sluice_steers]; decide +kernel

/-- The pipeline comes to its end having written what its program makes of the file, whatever the order in which things happen; here, one order that neglects nobody. -/
example : ∃ n, bytesIn (3 * sluiceReady.2.idOf sluicePond.to) (proj (.part (.drain, "sea".toList) .main) (coreOf (soFar (fun n => sluiceAll[n]?) n))) = [2, 10, 3, 10, 4, 10] := by
  obtain ⟨c', printed, h1, h2, h3⟩ := sluice_made
  obtain ⟨n, _, _, h⟩ := C95_unlimited (perm := id) (perm' := id) (spyOrder := id) sluice_sound (fun _ => .refl _) (fun _ => .refl _) (fun _ => .refl _) h1 h2 sluice_prepared sluice_free
    sluice_unbraided (by rw [sluice_steers]; decide) (cap := sluiceCaps) (fun k ch => by unfold sluiceCaps; split <;> split <;> simp) (fun ch hch => by
      have : ¬ ch < 5 := by omega
      simp [sluiceCaps, this])
    (fun ch => by simp [sluiceCaps]) (by decide) (sluice_over.fair sluice_runs) (fun x hx => sluice_launches x hx ▸ sluice_first.reads) (fun x hx => filterBy_finite fun _ => milled_mono)
    (fun n i _ f hm => sluice_calm i f (by
      obtain ⟨u, hu⟩ := sluice_until n
      rw [hu, proj_append, acts_append]; exact List.mem_append_left _ hm))
    (B := fun _ => sluiceText) (fun n b i g hh hg => by
      obtain ⟨u, hu⟩ := sluice_until n
      exact (hu ▸ sluice_supplies b i g hh hg).before)
  refine ⟨n, ?_⟩
  have e2 : milled sluiceText = [2, 10, 3, 10, 4, 10] := by decide
  rw [← e2]
  exact h (h := sluicePond) sluice_pond rfl (by decide +kernel) (sluice_into (by simp))
    (.through sluice_pond (by decide) (by decide) (sluice_into (h := sluiceMill) (by simp)) (by simp) (.stream sluice_mill (Or.inr rfl) .none) .none) sluice_gives

/-- A loop comes to rest; where there is no manager, none is kept waiting. -/
example : ∃ N, ∀ n, N ≤ n → (∃ st, execAll noriaCaps Store.init ((coreOf (soFar noriaSchedule n)).map Prod.snd) = some st ∧ noriaWaiter.AtRest [] noriaCaps 3 noriaProgs st (soFar noriaSchedule n)) ∧
    noria.Balances (fun _ => noriaStep) (fun _ => noriaText) (linesRead (soFar noriaSchedule n)) := by
  obtain ⟨printed, h1, h2⟩ := noria_made
  rcases C95_rests noria_sound (fun _ => .refl _) (fun _ => .refl _) (fun _ => .refl _) h1 h2 (order := []) rfl noria_free (unbraided_nil.mpr noria_buffered) (by simp) noria_caps noria_inner (by decide) noria_fair
    (fun _ _ => liner_finite _) (fun n i _ => (noria_parts' n).1 i) noria_straight (fun x _ => liner_lineByLine noria_whole) (fun n => (noria_parts' n).2) noria_text noria_plan with ⟨N, hN⟩ | h
  · exact ⟨N, fun n hn => ⟨(hN n hn).1, (hN n hn).2.1⟩⟩
  · obtain ⟨r, n, st, hn⟩ := h
    have := (hn n (Nat.le_refl _)).2
    simp [Waiter.Unheard, Waiter.sys] at this

end Verif
