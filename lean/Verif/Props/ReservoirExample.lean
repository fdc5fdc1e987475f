import Verif.Props.Reservoir
/-!
# Property C84, the other half: without flow control there is no bound
-/
namespace Verif

/-- A round again and again. -/
theorem rounds_again {σ ρ : Type} {body : σ → Prog (σ ⊕ ρ)} {t : List Ev} {P : σ → Prop} (h : ∀ s, P s → ∃ s', (body s).Runs t (.inl s') ∧ P s') (N : Nat) :
    ∀ s, P s → ∃ s', LoopRounds body s (List.replicate N t).flatten s' := by
  induction N with
  | zero => exact fun s _ => ⟨s, .nil⟩
  | succ N ih =>
    intro s hs
    obtain ⟨s1, h1, h2⟩ := h s hs
    obtain ⟨s2, h3⟩ := ih s1 h2
    exact ⟨s2, by rw [List.replicate_succ, List.flatten_cons]; exact .next h1 h3⟩

theorem proj_again {ι : Type} [DecidableEq ι] (i : ι) (ρ : List (ι × Ev)) (N : Nat) : proj i (List.replicate N ρ).flatten = (List.replicate N (proj i ρ)).flatten := by
  induction N with
  | zero => rfl
  | succ N ih => rw [List.replicate_succ, List.replicate_succ, List.flatten_cons, List.flatten_cons, proj_append, ih]

theorem execAll_again {cap : Caps} {es : List Ev} {P : Store → Prop} (h : ∀ st, P st → ∃ st', execAll cap st es = some st' ∧ P st') (N : Nat) :
    ∀ st, P st → ∃ st', execAll cap st (List.replicate N es).flatten = some st' := by
  induction N with
  | zero => exact fun st _ => ⟨st, rfl⟩
  | succ N ih =>
    intro st hs
    obtain ⟨s1, h1, h2⟩ := h st hs
    obtain ⟨s2, h3⟩ := ih s1 h2
    exact ⟨s2, by rw [List.replicate_succ, List.flatten_cons, execAll_append, h1]; exact h3⟩

namespace Example

def poolIn : Hop := ⟨⟨.faucet, "spring".toList, .out⟩, none, ⟨.buffer, "pool".toList⟩, ⟨.terminate, 0⟩, none⟩
def poolOut : Hop := ⟨⟨.buffer, "pool".toList, .out⟩, none, ⟨.drain, "lake".toList⟩, ⟨.terminate, 0⟩, none⟩
/-- A file, a buffer, a file. -/
def pool : List (Str × Hop) := [("m_1".toList, poolIn), ("m_2".toList, poolOut)]
def poolConfig : Config where
  faucet := [("spring".toList, "-".toList)]
  regulator := []
  drain := []
  launch := []
  connection := hopSets pool
def poolWaiter : Waiter := ((getWaiter poolConfig).ok?).getD Waiter.new
def poolCaps : Caps := realCaps (pool.map (·.2))
def poolSpring : Who := .part (.faucet, "spring".toList) .main
def poolEnter : Who := .part (.buffer, "pool".toList) .input
def poolCount : Who := .part (.buffer, "pool".toList) .count
theorem pool_built : getWaiter poolConfig = .ok poolWaiter := by decide +kernel
theorem pool_complete : Complete (pool.map (·.2)) := complete_of (by decide +kernel) (by decide +kernel)

/-- One line more. -/
def poolRound : List (Who × Ev) := poolWaiter.drive [] poolCaps (fun _ => [[7, 10]]) (.code 0)
  [poolSpring, poolSpring, poolEnter, poolEnter, poolEnter, poolCount, poolCount, poolCount]
def poolRun (N : Nat) : List (Who × Ev) := (List.replicate N poolRound).flatten

theorem poolRound_eq : poolRound = [(poolSpring, ⟨.streamRead 0, .line [7, 10]⟩), (poolSpring, ⟨.send .data 0 [7, 10], true⟩),
    (poolEnter, ⟨.recv .data 0, some [7, 10]⟩), (poolEnter, ⟨.send .data 3 [7, 10], true⟩), (poolEnter, ⟨.send .mon 2 (.wrote 0), true⟩),
    (poolCount, ⟨.tryRecv .mon 2, .got (.wrote 0)⟩), (poolCount, ⟨.tryRecv .mon 3, .empty⟩), (poolCount, ⟨.stat .mon 2, (true, false)⟩)] := by decide +kernel

theorem pool_spring : poolWaiter.sys [] poolSpring = some (regulatorTask (.stream ⟨0, 1⟩ 0) (.sender ⟨0, some .out, 1, .terminate⟩ 0) none none) := by
  have h : poolWaiter.comps.get (.faucet, "spring".toList) = some (.faucet "-".toList (some ⟨0, .out, 1, .terminate, 0, 8⟩)) := by decide +kernel
  have hi : poolWaiter.idOf (.faucet, "spring".toList) = 0 := by decide +kernel
  simp only [poolSpring, Waiter.sys, h, Comp.node, hi]
  rfl
theorem pool_comp : poolWaiter.comps.get (.buffer, "pool".toList) = some (.buffer (some ⟨0, 1, 0⟩) (some ⟨1, .out, 2, .terminate, 1, 8⟩) false) := by decide +kernel
theorem pool_id : poolWaiter.idOf (.buffer, "pool".toList) = 1 := by decide +kernel
theorem pool_chans : poolWaiter.chans = 2 := by decide +kernel
theorem pool_enter : poolWaiter.sys [] poolEnter = some (relayTask (.receiver ⟨0, 1⟩ 0) { written := some 2 } none (.sender ⟨0, none, 0, .terminate⟩ 3)) := by
  simp only [poolEnter, Waiter.sys, pool_comp, Comp.node, pool_id, pool_chans]
  rfl
theorem pool_count : poolWaiter.sys [] poolCount = some (totalTask none 2 3) := by
  simp only [poolCount, Waiter.sys, pool_comp, Comp.node, Comp.other, pool_id]
  rfl

theorem spring_round (n : Nat) : ((regulatorTask (.stream ⟨0, 1⟩ 0) (.sender ⟨0, some .out, 1, .terminate⟩ 0) none none).body n).Runs
    [⟨.streamRead 0, .line [7, 10]⟩, ⟨.send .data 0 [7, 10], true⟩] (.inl (n + 1)) := ⟨_, _, rfl, _, _, rfl, rfl, rfl⟩
theorem enter_round (n : Nat) : ((relayTask (.receiver ⟨0, 1⟩ 0) { written := some 2 } none (.sender ⟨0, none, 0, .terminate⟩ 3)).body n).Runs
    [⟨.recv .data 0, some [7, 10]⟩, ⟨.send .data 3 [7, 10], true⟩, ⟨.send .mon 2 (.wrote 0), true⟩] (.inl (n + 1)) := ⟨_, _, rfl, _, _, rfl, _, _, rfl, rfl, rfl⟩
theorem count_round_again (s : Total) : ∃ s', ((totalTask none 2 3).body s).Runs
    [⟨.tryRecv .mon 2, .got (.wrote 0)⟩, ⟨.tryRecv .mon 3, .empty⟩, ⟨.stat .mon 2, (true, false)⟩] (.inl s') := ⟨_, _, _, rfl, _, _, rfl, _, _, rfl, rfl, rfl⟩

/-- All is empty but the inside of the buffer. -/
structure PoolStore (st : Store) : Prop where
  hop : st .data 0 = {}
  inner : (st .data 3).closed = false
  mIn : st .mon 2 = {}
  mOut : st .mon 3 = {}

theorem pool_store {st : Store} (h : PoolStore st) : ∃ st', execAll poolCaps st (poolRound.map Prod.snd) = some st' ∧ PoolStore st' := by
  rw [poolRound_eq]
  obtain ⟨h1, h2, h3, h4⟩ := h
  have c1 : poolCaps .data 0 = some 8 := rfl
  have c2 : poolCaps .data 3 = none := rfl
  have c3 : poolCaps .mon 2 = some 8 := rfl
  simp [execAll, exec, Store.set, h1, h2, h3, h4, c1, c2, c3, hasRoom]
  constructor <;> simp [Store.set, h4]

/-- Every number of lines can be in the buffer. -/
theorem pool_runs (N : Nat) : poolWaiter.Run [] poolCaps (poolRun N) := by
  have who : ∀ x ∈ poolRun N, x.1 = poolSpring ∨ x.1 = poolEnter ∨ x.1 = poolCount := by
    intro x hx
    unfold poolRun at hx
    obtain ⟨l, hl, hx⟩ := List.mem_flatten.mp hx
    obtain rfl := List.eq_of_mem_replicate hl
    rw [poolRound_eq] at hx
    simp at hx
    rcases hx with rfl | rfl | rfl | rfl | rfl | rfl | rfl | rfl <;> simp
  refine ⟨⟨?_, ?_⟩, ?_, ?_⟩
  · obtain ⟨st, hst⟩ := execAll_again (P := PoolStore) (fun st h => pool_store h) N Store.init ⟨rfl, rfl, rfl, rfl⟩
    have : (poolRun N).map Prod.snd = (List.replicate N (poolRound.map Prod.snd)).flatten := by
      unfold poolRun
      rw [List.map_flatten, List.map_replicate]
    rw [this, hst]
    rfl
  · intro i t ht
    have lp : ∀ {σ ρ : Type} {body : σ → Prog (σ ⊕ ρ)} {s s' : σ} {tr : List Ev}, LoopRounds body s tr s' → LoopPartial body s tr :=
      fun h => ⟨_, _, [], h, Prog.partial_nil _, by simp⟩
    by_cases h1 : i = poolSpring
    · subst h1
      rw [pool_spring] at ht
      obtain rfl := Option.some.inj ht
      have hp : proj poolSpring poolRound = [⟨.streamRead 0, .line [7, 10]⟩, ⟨.send .data 0 [7, 10], true⟩] := by rw [poolRound_eq]; decide +kernel
      obtain ⟨s', h⟩ := rounds_again (P := fun _ => True) (fun n _ => ⟨_, spring_round n, trivial⟩) N 0 trivial
      left
      unfold poolRun
      rw [proj_again, hp]
      exact lp h
    · by_cases h2 : i = poolEnter
      · subst h2
        rw [pool_enter] at ht
        obtain rfl := Option.some.inj ht
        have hp : proj poolEnter poolRound = [⟨.recv .data 0, some [7, 10]⟩, ⟨.send .data 3 [7, 10], true⟩, ⟨.send .mon 2 (.wrote 0), true⟩] := by rw [poolRound_eq]; decide +kernel
        obtain ⟨s', h⟩ := rounds_again (P := fun _ => True) (fun n _ => ⟨_, enter_round n, trivial⟩) N 0 trivial
        left
        unfold poolRun
        rw [proj_again, hp]
        exact lp h
      · by_cases h3 : i = poolCount
        · subst h3
          rw [pool_count] at ht
          obtain rfl := Option.some.inj ht
          have hp : proj poolCount poolRound = [⟨.tryRecv .mon 2, .got (.wrote 0)⟩, ⟨.tryRecv .mon 3, .empty⟩, ⟨.stat .mon 2, (true, false)⟩] := by rw [poolRound_eq]; decide +kernel
          obtain ⟨s', h⟩ := rounds_again (P := fun _ => True) (fun n _ => by obtain ⟨s', h⟩ := count_round_again n; exact ⟨s', h, trivial⟩) N (totalTask none 2 3).init trivial
          left
          unfold poolRun
          rw [proj_again, hp]
          exact lp h
        · have : proj i (poolRun N) = [] := by
            unfold proj
            rw [List.filterMap_eq_nil_iff]
            intro x hx
            rw [if_neg]
            intro h0
            subst h0
            rcases who x hx with h | h | h
            · exact h1 h
            · exact h2 h
            · exact h3 h
          rw [this]
          exact Or.inl (lp .nil)
  · intro x hx
    rcases who x hx with h | h | h
    · rw [h, pool_spring]; simp
    · rw [h, pool_enter]; simp
    · rw [h, pool_count]; simp
  · intro τ₁ τ₂ r e h
    have := who (.part r .exit, e) (by rw [h]; simp)
    simp [poolSpring, poolEnter, poolCount] at this

theorem pool_in (N : Nat) : (received (proj poolEnter (poolRun N))).length = N := by
  unfold poolRun
  rw [proj_again]
  have hp : proj poolEnter poolRound = [⟨.recv .data 0, some [7, 10]⟩, ⟨.send .data 3 [7, 10], true⟩, ⟨.send .mon 2 (.wrote 0), true⟩] := by rw [poolRound_eq]; decide +kernel
  rw [hp]
  induction N with
  | zero => rfl
  | succ N ih =>
    rw [List.replicate_succ, List.flatten_cons, received_append, List.length_append, ih]
    have : received [(⟨.recv .data 0, some [7, 10]⟩ : Ev), ⟨.send .data 3 [7, 10], true⟩, ⟨.send .mon 2 (.wrote 0), true⟩] = [[7, 10]] := rfl
    rw [this, List.length_singleton]
    omega

end Example

/-- **C84** Without flow control there is no bound: a buffer can hold any number of messages. -/
theorem C84_unbounded : ∃ (c : Config) (R : Map Hop) (w : Waiter) (x : Str), c.connection = hopSets R ∧ getWaiter c = .ok w ∧ w.regulatorSettings [] = .ok ([], w) ∧
    Complete (R.map (·.2)) ∧ Mentioned (R.map (·.2)) (.buffer, x) ∧
    ∀ N, ∃ τ, w.Run [] (realCaps (R.map (·.2))) τ ∧ (received (proj (.part (.buffer, x) .input) τ)).length = N ∧ received (proj (.part (.buffer, x) .output) τ) = [] := by
  refine ⟨Example.poolConfig, Example.pool, Example.poolWaiter, "pool".toList, rfl, Example.pool_built, rfl, Example.pool_complete, ?_, fun N => ⟨Example.poolRun N, Example.pool_runs N, Example.pool_in N, ?_⟩⟩
  · exact ⟨Example.poolIn, by simp [Example.pool], Or.inr rfl⟩
  · have hp : proj (.part (.buffer, "pool".toList) .output) Example.poolRound = [] := by rw [Example.poolRound_eq]; decide +kernel
    unfold Example.poolRun
    rw [proj_again, hp]
    have : (List.replicate N ([] : List Ev)).flatten = [] := by simp
    rw [this]; rfl

namespace Example

def damIn : Hop := ⟨⟨.faucet, "spring".toList, .out⟩, none, ⟨.regulator, "gate".toList⟩, ⟨.terminate, 0⟩, none⟩
def damMid : Hop := ⟨⟨.regulator, "gate".toList, .out⟩, none, ⟨.buffer, "pool".toList⟩, ⟨.terminate, 0⟩, none⟩
def damOut : Hop := ⟨⟨.buffer, "pool".toList, .out⟩, none, ⟨.drain, "lake".toList⟩, ⟨.terminate, 0⟩, none⟩
/-- A file, a regulator, a buffer, a file. -/
def dam : List (Str × Hop) := [("m_1".toList, damIn), ("m_2".toList, damMid), ("m_3".toList, damOut)]
def damConfig : Config where
  faucet := [("spring".toList, "-".toList)]
  regulator := [("gate".toList, ⟨some (1, 3), ["pool".toList]⟩)]
  drain := []
  launch := []
  connection := hopSets dam
def damWaiter : Waiter := ((getWaiter damConfig).ok?).getD Waiter.new
def damReady : List Capture × Waiter := match damWaiter.regulatorSettings [("gate".toList, ⟨1, 3, ["pool".toList]⟩)] with
  | .ok x => x
  | _ => ([], Waiter.new)
def damCaps : Caps := realCaps (dam.map (·.2))
theorem dam_built : getWaiter damConfig = .ok damWaiter := by decide +kernel
theorem dam_prepared : damWaiter.regulatorSettings [("gate".toList, ⟨1, 3, ["pool".toList]⟩)] = .ok (damReady.1, damReady.2) := by decide +kernel
theorem dam_complete : Complete (dam.map (·.2)) := complete_of (by decide +kernel) (by decide +kernel)
/-- Forty lines are read, nothing leaves the buffer, the manager comes late. -/
def damTrace : List (Who × Ev) :=
  let spring : Who := .part (.faucet, "spring".toList) .main
  let gate : Who := .part (.regulator, "gate".toList) .main
  let enter : Who := .part (.buffer, "pool".toList) .input
  let count : Who := .part (.buffer, "pool".toList) .count
  let flow := [spring, spring, gate, gate, gate, enter, enter, enter]
  damReady.2.drive damReady.1 damCaps (fun _ => List.replicate 40 [7, 10]) (.code 0)
    ((List.replicate 20 (flow ++ [count, count, count, count, count])).flatten ++
      (List.replicate 20 (flow ++ [.manager "gate".toList, .manager "gate".toList, .manager "gate".toList, count, count, count, count, count])).flatten)
theorem dam_runs : damReady.2.Run damReady.1 damCaps damTrace := Waiter.runs_sound (by decide +kernel)
def damCapture : Capture := ⟨1, 3, "gate".toList, ["pool".toList]⟩
theorem dam_capture : damCapture ∈ damReady.1 := by decide +kernel
theorem dam_along : Along (dam.map (·.2)) [.regulator] [1] 8 := by
  have h := Along.hop (hs := dam.map (·.2)) (via := [.regulator]) (a := 1) (h := damMid) rfl
  exact h
theorem dam_in : (received (proj (.part (.buffer, "pool".toList) .input) damTrace)).length = 23 := by decide +kernel
theorem dam_out : received (proj (.part (.buffer, "pool".toList) .output) damTrace) = [] := by decide +kernel

/-- The hypotheses of `C84_bounded` are met. -/
example : 23 ≤ 0 + max 3 (1 + 1) + 8 + 29 := by
  have := C84_bounded (c := damConfig) (R := dam) rfl dam_built dam_prepared dam_complete dam_runs dam_capture (x := "pool".toList) (by decide +kernel) (b := 1) (g := damMid) (h := damMid)
    dam_along rfl rfl rfl rfl rfl
  rw [dam_in, dam_out] at this
  exact this

/-- The moment the request is made. -/
theorem dam_split : damTrace = damTrace.take 216 ++ (.manager damCapture.regulator, ⟨.send .ctl (damReady.2.idOf (.regulator, damCapture.regulator)) (), true⟩) :: damTrace.drop 217 := by
  have h : damTrace[216]? = some (.manager damCapture.regulator, ⟨.send .ctl (damReady.2.idOf (.regulator, damCapture.regulator)) (), true⟩) := by decide +kernel
  obtain ⟨hl, h⟩ := List.getElem?_eq_some_iff.1 h
  rw [← h, List.getElem_cons_drop, List.take_append_drop]

/-- Those of `C84_paused`, too. -/
example : (offers (proj (.part (.regulator, damCapture.regulator) .main) (damTrace.drop 217))).length ≤ 1 :=
  C84_paused (c := damConfig) (R := dam) rfl dam_built dam_prepared dam_complete dam_capture (by rw [← dam_split]; exact dam_runs) (by decide +kernel) (by decide +kernel)

end Example

/-- **C84** Flow control does not keep a buffer below the high watermark: here it holds twenty messages more. -/
theorem C84_exceeded : ∃ (c : Config) (R : Map Hop) (w w' : Waiter) (order : List (Str × Watch)) (cs : List Capture) (a : Capture) (x : Str) (τ : List (Who × Ev)),
    c.connection = hopSets R ∧ getWaiter c = .ok w ∧ w.regulatorSettings order = .ok (cs, w') ∧ Complete (R.map (·.2)) ∧ a ∈ cs ∧ x ∈ a.buffers ∧ a.low < a.high ∧
    w'.Run cs (realCaps (R.map (·.2))) τ ∧
    (received (proj (.part (.buffer, x) .input) τ)).length = (received (proj (.part (.buffer, x) .output) τ)).length + a.high + 20 :=
  ⟨Example.damConfig, Example.dam, Example.damWaiter, Example.damReady.2, _, Example.damReady.1, Example.damCapture, "pool".toList, Example.damTrace, rfl, Example.dam_built,
    Example.dam_prepared, Example.dam_complete, Example.dam_capture, by decide +kernel, by decide, Example.dam_runs, by rw [Example.dam_in, Example.dam_out]; rfl⟩

end Verif
