import Verif.Props.WorldDoze
import Verif.Props.WorldSolveExample
import Verif.Lemmas.WorldAsleep
/-!
# C91: examples
-/
namespace Verif

/-! ## Programs that go through their input line by line -/

/-- Prints certain lines for each line it reads, in that order, on both outputs, and ends when its input does. -/
def liner (f : Port → Bytes → List Bytes) : Program := fun l =>
  let due := fun p => ((wholeLines (takenIn l)).flatMap (f p)).flatten
  if (putOut .out l).length < (due .out).length ∧ .refused .out ∉ l then .write .out ((due .out).drop (putOut .out l).length)
  else if (putOut .err l).length < (due .err).length ∧ .refused .err ∉ l then .write .err ((due .err).drop (putOut .err l).length)
  else if .sawEnd ∈ l then .exit (some 0)
  else .read

/-! ## A loop with a buffer -/

def noria : Config where
  faucet := [("tap".toList, "a.txt".toList)]
  drain := [("sink".toList, "b.txt".toList)]
  regulator := []
  launch := [("wheel".toList, ⟨some "awk".toList, none, [], []⟩)]
  connection := [("a".toList, .conns [.start .faucet "tap".toList .out none, .middle .junction "fork".toList ⟨.terminate, 0⟩ .out none, .middle .launch "wheel".toList ⟨.terminate, 0⟩ .out none,
      .end .drain "sink".toList ⟨.terminate, 0⟩ none]),
    ("b".toList, .conns [.start .launch "wheel".toList .err none, .middle .buffer "pool".toList ⟨.terminate, 0⟩ .out none, .end .junction "fork".toList ⟨.terminate, 0⟩ none])]

def noriaTap : Hop := ⟨⟨.faucet, "tap".toList, .out⟩, none, ⟨.junction, "fork".toList⟩, ⟨.terminate, 0⟩, none⟩
def noriaFork : Hop := ⟨⟨.junction, "fork".toList, .out⟩, none, ⟨.launch, "wheel".toList⟩, ⟨.terminate, 0⟩, none⟩
def noriaSink : Hop := ⟨⟨.launch, "wheel".toList, .out⟩, none, ⟨.drain, "sink".toList⟩, ⟨.terminate, 0⟩, none⟩
def noriaPool : Hop := ⟨⟨.launch, "wheel".toList, .err⟩, none, ⟨.buffer, "pool".toList⟩, ⟨.terminate, 0⟩, none⟩
def noriaBack : Hop := ⟨⟨.buffer, "pool".toList, .out⟩, none, ⟨.junction, "fork".toList⟩, ⟨.terminate, 0⟩, none⟩
def noriaHops : List Hop := [noriaTap, noriaFork, noriaSink, noriaPool, noriaBack]

def noriaReady : Config := ((manipulate id id id noria).map Prod.fst).getD noria
def noriaWaiter : Waiter := ((getWaiter noriaReady).ok?).getD Waiter.new
/-- All channels of the configuration hold one message; those within buffers any number. -/
def noriaCaps : Caps := fun k ch => if k = .data then (if ch < noriaReady.connection.length then some 1 else none) else some 8
/-- A line that begins with 0 goes to the output, one that begins with a small number back, with one less at its beginning. -/
def noriaStep : Port → Bytes → List Bytes
  | .out, 0 :: l => [0 :: l]
  | .err, n :: l => if 0 < n ∧ n < 10 then [(n - 1) :: l] else []
  | _, _ => []
def noriaText : Bytes := [2, 10, 1, 10]
def noriaFeed : Feed := fun h => if h = 0 then [[2, 10], [1, 10]] else []

theorem noria_hops {b i h} (hh : noria.HopOf b i h) :
    (b = "a".toList ∧ i = 0 ∧ h = noriaTap) ∨ (b = "a".toList ∧ i = 1 ∧ h = noriaFork) ∨ (b = "a".toList ∧ i = 2 ∧ h = noriaSink) ∨ (b = "b".toList ∧ i = 0 ∧ h = noriaPool) ∨ (b = "b".toList ∧ i = 1 ∧ h = noriaBack) := by
  obtain ⟨d, cs, hm, hd, x, y, hx, hy, e1, e2, e3, e4⟩ := hh
  obtain ⟨s, st, t, inp, dst⟩ := h
  simp only [noria, List.mem_cons, Prod.mk.injEq, List.not_mem_nil, or_false] at hm
  rcases hm with ⟨rfl, rfl⟩ | ⟨rfl, rfl⟩
  all_goals
    simp only [DConn.Means] at hd
    subst hd
    rcases i with _ | _ | _ | i <;> simp at hx hy
    all_goals
      subst hx hy
      simp [Connection.out, Connection.into, Connection.setName] at e1 e2 e3 e4
      simp [noriaTap, noriaFork, noriaSink, noriaPool, noriaBack, ← e1, ← e2, ← e3.1, ← e3.2, ← e4]
theorem noria_tap : noria.HopOf "a".toList 0 noriaTap := ⟨_, _, List.mem_cons_self, rfl, _, _, rfl, rfl, rfl, rfl, rfl, rfl⟩
theorem noria_fork : noria.HopOf "a".toList 1 noriaFork := ⟨_, _, List.mem_cons_self, rfl, _, _, rfl, rfl, rfl, rfl, rfl, rfl⟩
theorem noria_sink : noria.HopOf "a".toList 2 noriaSink := ⟨_, _, List.mem_cons_self, rfl, _, _, rfl, rfl, rfl, rfl, rfl, rfl⟩
theorem noria_pool : noria.HopOf "b".toList 0 noriaPool := ⟨_, _, List.mem_cons_of_mem _ List.mem_cons_self, rfl, _, _, rfl, rfl, rfl, rfl, rfl, rfl⟩
theorem noria_back : noria.HopOf "b".toList 1 noriaBack := ⟨_, _, List.mem_cons_of_mem _ List.mem_cons_self, rfl, _, _, rfl, rfl, rfl, rfl, rfl, rfl⟩

theorem noria_sound : noria.Sound noriaHops := by
  refine ⟨by decide +kernel, ?_, ?_, ⟨?_, ?_, ?_, ?_, ?_, ?_⟩, ?_, complete_of (by decide +kernel) (by decide +kernel)⟩
  · intro b d h
    simp only [noria, List.mem_cons, Prod.mk.injEq, List.not_mem_nil, or_false] at h
    rcases h with ⟨_, rfl⟩ | ⟨_, rfl⟩ <;>
    · refine ⟨_, rfl, by simp, ?_, ?_⟩
      · intro i a hi
        rcases i with _ | _ | _ | i <;> simp at hi
        all_goals (subst hi; simp [Connection.into])
      · intro i a b hi hi'
        rcases i with _ | _ | _ | i <;> simp at hi hi'
        all_goals (subst hi; simp [Connection.out])
  · intro b i h hh hd
    rcases noria_hops hh with ⟨_, _, rfl⟩ | ⟨_, _, rfl⟩ | ⟨_, _, rfl⟩ | ⟨_, _, rfl⟩ | ⟨_, _, rfl⟩ <;> simp [noriaTap, noriaFork, noriaSink, noriaPool, noriaBack, noria, Map.keys] at hd ⊢
  · intro b i h hh
    rcases noria_hops hh with ⟨_, _, rfl⟩ | ⟨_, _, rfl⟩ | ⟨_, _, rfl⟩ | ⟨_, _, rfl⟩ | ⟨_, _, rfl⟩ <;> simp [Config.Runnable, Hop.from, Hop.to, noriaTap, noriaFork, noriaSink, noriaPool, noriaBack, noria, Map.get, List.lookup]
  · intro b i h hh
    rcases noria_hops hh with ⟨_, _, rfl⟩ | ⟨_, _, rfl⟩ | ⟨_, _, rfl⟩ | ⟨_, _, rfl⟩ | ⟨_, _, rfl⟩ <;> simp [noriaTap, noriaFork, noriaSink, noriaPool, noriaBack]
  · intro b i h hh
    rcases noria_hops hh with ⟨_, _, rfl⟩ | ⟨_, _, rfl⟩ | ⟨_, _, rfl⟩ | ⟨_, _, rfl⟩ | ⟨_, _, rfl⟩ <;> simp [noriaTap, noriaFork, noriaSink, noriaPool, noriaBack]
  · intro b i h hh
    rcases noria_hops hh with ⟨_, _, rfl⟩ | ⟨_, _, rfl⟩ | ⟨_, _, rfl⟩ | ⟨_, _, rfl⟩ | ⟨_, _, rfl⟩ <;> simp [noriaTap, noriaFork, noriaSink, noriaPool, noriaBack]
  · intro b i h b' i' h' hh hh'
    rcases noria_hops hh with ⟨_, _, rfl⟩ | ⟨_, _, rfl⟩ | ⟨_, _, rfl⟩ | ⟨_, _, rfl⟩ | ⟨_, _, rfl⟩ <;> rcases noria_hops hh' with ⟨_, _, rfl⟩ | ⟨_, _, rfl⟩ | ⟨_, _, rfl⟩ | ⟨_, _, rfl⟩ | ⟨_, _, rfl⟩ <;> simp [noriaTap, noriaFork, noriaSink, noriaPool, noriaBack]
  · intro b i h k hh
    rcases noria_hops hh with ⟨_, _, rfl⟩ | ⟨_, _, rfl⟩ | ⟨_, _, rfl⟩ | ⟨_, _, rfl⟩ | ⟨_, _, rfl⟩ <;> intros <;> first | rfl | (simp_all [noriaTap, noriaFork, noriaSink, noriaPool, noriaBack]; done)
  · intro h
    constructor
    · intro hh
      simp only [noriaHops, List.mem_cons, List.not_mem_nil, or_false] at hh
      rcases hh with rfl | rfl | rfl | rfl | rfl
      · exact ⟨_, _, noria_tap⟩
      · exact ⟨_, _, noria_fork⟩
      · exact ⟨_, _, noria_sink⟩
      · exact ⟨_, _, noria_pool⟩
      · exact ⟨_, _, noria_back⟩
    · rintro ⟨b, i, hh⟩
      rcases noria_hops hh with ⟨_, _, rfl⟩ | ⟨_, _, rfl⟩ | ⟨_, _, rfl⟩ | ⟨_, _, rfl⟩ | ⟨_, _, rfl⟩ <;> simp [noriaHops]

theorem noria_made : ∃ printed, manipulate id id id noria = some (noriaReady, printed) ∧ getWaiter noriaReady = .ok noriaWaiter := by
  cases h : manipulate id id id noria with
  | none => exact absurd (show (manipulate id id id noria).isSome = true by decide +kernel) (by simp [h])
  | some x =>
    have h0 : noriaReady = x.1 := by simp [noriaReady, h]
    have h2 : ((getWaiter noriaReady).ok?).isSome = true := by decide +kernel
    refine ⟨x.2, by rw [h0], ?_⟩
    unfold noriaWaiter
    cases h3 : getWaiter noriaReady with
    | ok w => rfl
    | err e => rw [h3] at h2; cases h2
    | panic => rw [h3] at h2; cases h2

theorem noria_buffered : LoopsBuffered noriaHops := by
  let rank : Who → Nat
    | .part (.buffer, _) .output => 0
    | .part (.faucet, _) _ => 0
    | .part (.junction, _) _ => 1
    | .part (.launch, _) .input => 2
    | .part (.launch, _) _ => 3
    | _ => 4
  refine noReturn rank ?_
  intro a b h
  cases h with
  | hop h1 h2 => exact (show ∀ h ∈ noriaHops, ¬ h.isExit → rank h.writer < rank h.reader by decide +kernel) _ h1 h2
  | program h1 h2 h3 => exact (show ∀ h ∈ noriaHops, h.src.ty = .launch → ¬ h.isExit → rank (.part h.from .input) < rank h.writer by decide +kernel) _ h1 h2 h3

/-- Everybody has passed on everything: a check. -/
def Waiter.passedNow (w : Waiter) (τ : List (Who × Ev)) : Bool :=
  (w.everyone []).all fun i => match w.node i with
    | none => true
    | some n => n.targets.all fun t => decide (acceptedBy t (proj i τ) = received (proj i τ))
theorem Waiter.still_sound {w : Waiter} {cap : Caps} {room : Nat} {prog : Str → Program} {st : Store} {T : List Happening} (h : ¬ w.Lively [] cap room prog st T) (hp : w.passedNow (coreOf T) = true) :
    ¬ w.Stirs [] cap room prog st T := by
  rintro ⟨a, ha, hs⟩
  refine h ⟨a, ha, fun i e hi hr => hs i e hi ⟨hr, fun n hn t ht => ?_⟩⟩
  have := List.all_eq_true.mp hp i (sys_everyone (by rw [sys_node hn]; simp))
  rw [hn] at this
  exact of_decide_eq_true (List.all_eq_true.mp this t ht)

def noriaProgs : Str → Program := fun _ => liner noriaStep
/-- One after the other, whoever can do something; the counter of the buffer in the end only. Pipes hold three bytes. -/
def noriaAll : List Happening := noriaWaiter.worldDrive [] noriaCaps 3 noriaProgs noriaFeed (([0, 6, 12, 0, 6, 12, 0, 6, 12, 6, 12, 0, 6, 12, 0, 6, 12, 19, 0, 6, 12, 19, 42, 6, 12, 19, 42, 6, 12, 21, 6, 12, 19, 21, 6, 12, 19, 21, 31, 42, 6, 12, 19, 31, 32, 42, 6, 12, 21,
  31, 32, 6, 12, 21, 32, 6, 12, 21, 31, 6, 12, 31, 32, 6, 12, 31, 32, 6, 12, 19, 32, 6, 12, 19, 42, 6, 12, 19, 42, 6, 12, 21, 6, 12, 19, 21, 6, 12, 19, 21, 31, 42, 6, 12, 19, 31,
  32, 42, 6, 12, 20, 31, 32, 6, 12, 20, 32, 6, 12, 20, 24, 6, 12, 24, 6, 12, 6, 12, 19, 6, 12, 19, 42, 6, 12, 19, 42, 6, 12, 20, 6, 12, 20, 6, 12, 20, 24, 6, 12, 24, 35, 35, 35, 35,
  35, 35, 35, 35] : List Nat).filterMap fun k => (noriaWaiter.everybody [])[k]?)
def noriaRest : Store := (execAll noriaCaps Store.init ((coreOf noriaAll).map Prod.snd)).getD Store.init

theorem noria_runs : noriaWaiter.WorldRun [] noriaCaps 3 noriaProgs noriaAll := Waiter.worldDrive_runs _ _
theorem noria_store : execAll noriaCaps Store.init ((coreOf noriaAll).map Prod.snd) = some noriaRest := by
  obtain ⟨st, h⟩ := Option.isSome_iff_exists.mp noria_runs.core.exec.chans
  unfold noriaRest
  rw [h]; rfl
theorem noria_calm : ∀ i, ∀ f ∈ acts (proj i (coreOf noriaAll)), f.trouble = false := noria_runs.core.calm (by decide +kernel)
theorem noria_asleep : ¬ noriaWaiter.Lively [] noriaCaps 3 noriaProgs noriaRest noriaAll := Waiter.asleep_sound noria_runs noria_store (by decide +kernel)
theorem noria_still : ¬ noriaWaiter.Stirs [] noriaCaps 3 noriaProgs noriaRest noriaAll := Waiter.still_sound noria_asleep (by decide +kernel)
theorem noria_rest : noriaWaiter.AtRest [] noriaCaps 3 noriaProgs noriaRest noriaAll := by
  refine ⟨noria_still, (by rintro r ⟨⟨t, h1, _⟩, _⟩; cases h1), ?_⟩
  rintro r ⟨⟨t, h1, _⟩, _⟩
  cases hk : noriaWaiter.comps.get (.regulator, r) with
  | none => simp [Waiter.sys, hk] at h1
  | some k => exact absurd rfl ((show ∀ z ∈ noriaWaiter.comps, z.1.1 ≠ .regulator by decide +kernel) _ (Table.get_mem hk))
theorem noria_supplies : ∀ b i g, noria.HopOf b i g → g.src.ty = .faucet → noriaWaiter.Supplies (coreOf noriaAll) g noriaText := by
  intro b i g hh hg
  rcases noria_hops hh with ⟨_, _, rfl⟩ | ⟨_, _, rfl⟩ | ⟨_, _, rfl⟩ | ⟨_, _, rfl⟩ | ⟨_, _, rfl⟩
  · exact Or.inl ⟨0, [noriaText], by decide +kernel, by decide, by decide +kernel, by unfold ReadsFrom; decide +kernel⟩
  all_goals cases hg

theorem noria_into_wheel : noria.Into ⟨.launch, "wheel".toList⟩ [("a".toList, 1)] := by
  refine ⟨by decide, fun b i => ⟨fun h => ?_, ?_⟩⟩
  · simp at h; obtain ⟨rfl, rfl⟩ := h; exact ⟨_, noria_fork, rfl⟩
  · rintro ⟨h, hh, e⟩; rcases noria_hops hh with ⟨rfl, rfl, rfl⟩ | ⟨rfl, rfl, rfl⟩ | ⟨rfl, rfl, rfl⟩ | ⟨rfl, rfl, rfl⟩ | ⟨rfl, rfl, rfl⟩ <;> first | (simp; done) | (cases e)
theorem noria_into_fork : noria.Into ⟨.junction, "fork".toList⟩ [("a".toList, 0), ("b".toList, 1)] := by
  refine ⟨by decide, fun b i => ⟨fun h => ?_, ?_⟩⟩
  · simp at h; rcases h with ⟨rfl, rfl⟩ | ⟨rfl, rfl⟩
    · exact ⟨_, noria_tap, rfl⟩
    · exact ⟨_, noria_back, rfl⟩
  · rintro ⟨h, hh, e⟩; rcases noria_hops hh with ⟨rfl, rfl, rfl⟩ | ⟨rfl, rfl, rfl⟩ | ⟨rfl, rfl, rfl⟩ | ⟨rfl, rfl, rfl⟩ | ⟨rfl, rfl, rfl⟩ <;> first | (simp; done) | (cases e)
theorem noria_into_pool : noria.Into ⟨.buffer, "pool".toList⟩ [("b".toList, 0)] := by
  refine ⟨by decide, fun b i => ⟨fun h => ?_, ?_⟩⟩
  · simp at h; obtain ⟨rfl, rfl⟩ := h; exact ⟨_, noria_pool, rfl⟩
  · rintro ⟨h, hh, e⟩; rcases noria_hops hh with ⟨rfl, rfl, rfl⟩ | ⟨rfl, rfl, rfl⟩ | ⟨rfl, rfl, rfl⟩ | ⟨rfl, rfl, rfl⟩ | ⟨rfl, rfl, rfl⟩ <;> first | (simp; done) | (cases e)
theorem noria_into_sink : noria.Into ⟨.drain, "sink".toList⟩ [("a".toList, 2)] := by
  refine ⟨by decide, fun b i => ⟨fun h => ?_, ?_⟩⟩
  · simp at h; obtain ⟨rfl, rfl⟩ := h; exact ⟨_, noria_sink, rfl⟩
  · rintro ⟨h, hh, e⟩; rcases noria_hops hh with ⟨rfl, rfl, rfl⟩ | ⟨rfl, rfl, rfl⟩ | ⟨rfl, rfl, rfl⟩ | ⟨rfl, rfl, rfl⟩ | ⟨rfl, rfl, rfl⟩ <;> first | (simp; done) | (cases e)
/-- What reaches the program comes from the file and from itself. -/
theorem noria_brings : noria.Brings [("a".toList, 1)] [noriaTap, noriaPool] :=
  .through noria_fork (by decide) (by decide) noria_into_fork (by simp)
    (.stream noria_tap (Or.inl rfl) (.through noria_back (by decide) (by decide) noria_into_pool (by simp) (.stream noria_pool (Or.inr rfl) .none) .none)) .none
theorem noria_brings_sink : noria.Brings [("a".toList, 2)] [noriaSink] := .stream noria_sink (Or.inr rfl) .none
theorem noria_caps (k : Kind) (ch : Nat) : noriaCaps k ch ≠ some 0 := by
  unfold noriaCaps
  split
  · split <;> simp
  · simp
theorem noria_inner : ∀ ch, noriaReady.connection.length ≤ ch → noriaCaps .data ch = none := by
  intro ch h
  unfold noriaCaps
  rw [if_pos rfl, if_neg (by omega)]

/-- The lines of the file have gone round until nothing was left of them, and the program now waits for more, for ever. -/
example : takenIn (historyOf "wheel".toList noriaAll) = [2, 10, 1, 10, 1, 10, 0, 10, 0, 10] ∧ putOut .err (historyOf "wheel".toList noriaAll) = [1, 10, 0, 10, 0, 10] := by decide +kernel

/-- It has read what was in the file and what it has sent back itself, in some mixture. -/
example : noriaProgs "wheel".toList (historyOf "wheel".toList noriaAll) = .read ∧
    ∃ lss ms, EachTells (fun _ => noriaText) noriaAll [noriaTap, noriaPool] lss ∧ Mix lss ms ∧ takenIn (historyOf "wheel".toList noriaAll) = ms.flatten := by
  obtain ⟨printed, h1, h2⟩ := noria_made
  exact C91_read noria_sound (fun _ => .refl _) (fun _ => .refl _) (fun _ => .refl _) h1 h2 (order := []) rfl noria_buffered noria_caps noria_inner (by decide) noria_runs noria_store noria_calm noria_rest
    noria_fork rfl noria_into_wheel noria_brings noria_supplies (by decide +kernel)

/-- And what it has printed has arrived in the drain. -/
example : bytesIn (3 * noriaWaiter.idOf noriaSink.to) (proj noriaSink.reader (coreOf noriaAll)) = [0, 10, 0, 10] ∧
    ∃ lss ms, EachTells (fun _ => noriaText) noriaAll [noriaSink] lss ∧ Mix lss ms ∧ bytesIn (3 * noriaWaiter.idOf noriaSink.to) (proj noriaSink.reader (coreOf noriaAll)) = ms.flatten := by
  obtain ⟨printed, h1, h2⟩ := noria_made
  exact ⟨by decide +kernel, C91_written noria_sound (fun _ => .refl _) (fun _ => .refl _) (fun _ => .refl _) h1 h2 (order := []) rfl noria_buffered noria_caps noria_inner (by decide) noria_runs noria_store noria_calm
    noria_rest noria_sink rfl (by decide +kernel) noria_into_sink noria_brings_sink noria_supplies⟩


end Verif
