import Verif.Props.ExitCode
import Verif.Props.RuntimeExample
import Verif.Props.EndingsExample
/-!
# Success although not everything was delivered, and other instances of C75
-/
namespace Verif

/-- Two lines for a program that only wants to see the first. -/
def sink : Config where
  faucet := [("tap".toList, "-".toList)]
  drain := []
  regulator := []
  launch := [("head".toList, ⟨some "head".toList, none, [], []⟩)]
  connection := [("a".toList, .conns [.start .faucet "tap".toList .out none, .end .launch "head".toList ⟨.terminate, 0⟩ none])]
def sinkHop : Hop := ⟨⟨.faucet, "tap".toList, .out⟩, none, ⟨.launch, "head".toList⟩, ⟨.terminate, 0⟩, none⟩

theorem sink_hops {b i h} (hh : sink.HopOf b i h) : b = "a".toList ∧ i = 0 ∧ h = sinkHop := by
  obtain ⟨d, cs, hm, hd, x, y, hx, hy, e1, e2, e3, e4⟩ := hh
  obtain ⟨s, st, t, inp, dst⟩ := h
  simp only [sink, List.mem_cons, Prod.mk.injEq, List.not_mem_nil, or_false] at hm
  obtain ⟨rfl, rfl⟩ := hm
  simp only [DConn.Means] at hd
  subst hd
  rcases i with _ | i <;> simp at hx hy
  subst hx hy
  simp [Connection.out, Connection.into, Connection.setName] at e1 e2 e3 e4
  simp [sinkHop, ← e1, ← e2, ← e3.1, ← e3.2, ← e4]
theorem sink_hop : sink.HopOf "a".toList 0 sinkHop := ⟨_, _, List.mem_cons_self, rfl, _, _, rfl, rfl, rfl, rfl, rfl, rfl⟩

theorem sink_sound : sink.Sound [sinkHop] := by
  refine ⟨by decide +kernel, ?_, ?_, ⟨?_, ?_, ?_, ?_, ?_, ?_⟩, ?_, complete_of (by decide +kernel) (by decide +kernel)⟩
  · intro b d h
    simp only [sink, List.mem_cons, Prod.mk.injEq, List.not_mem_nil, or_false] at h
    obtain ⟨_, rfl⟩ := h
    refine ⟨_, rfl, by simp, ?_, ?_⟩
    · intro i a hi
      rcases i with _ | i <;> simp at hi
      all_goals (subst hi; simp [Connection.into])
    · intro i a b hi hi'
      rcases i with _ | i <;> simp at hi hi'
      all_goals (subst hi; simp [Connection.out])
  · intro b i h hh hd
    obtain ⟨_, _, rfl⟩ := sink_hops hh
    simp [sinkHop] at hd
  · intro b i h hh
    obtain ⟨_, _, rfl⟩ := sink_hops hh
    simp [Config.Runnable, Hop.from, Hop.to, sink, sinkHop, Map.get, List.lookup]
  · intro b i h hh
    obtain ⟨_, _, rfl⟩ := sink_hops hh
    simp [sinkHop]
  · intro b i h hh
    obtain ⟨_, _, rfl⟩ := sink_hops hh
    simp [sinkHop]
  · intro b i h hh
    obtain ⟨_, _, rfl⟩ := sink_hops hh
    simp [sinkHop]
  · intro b i h b' i' h' hh
    obtain ⟨_, _, rfl⟩ := sink_hops hh
    simp [sinkHop]
  · intro b i h k hh
    obtain ⟨_, _, rfl⟩ := sink_hops hh
    intros; rfl
  · intro h
    constructor
    · intro hh
      obtain rfl := List.mem_singleton.mp hh
      exact ⟨_, _, sink_hop⟩
    · rintro ⟨b, i, hh⟩
      obtain ⟨_, _, rfl⟩ := sink_hops hh
      simp

def sinkMap : Map Hop := [("a_1".toList, sinkHop)]
def sinkMade : Config := { sink with connection := hopSets sinkMap }
theorem sink_made : manipulate id id id sink = some (sinkMade, []) := by decide +kernel
def sinkWaiter : Waiter := ((getWaiter sinkMade).ok?).getD Waiter.new
theorem sink_built : getWaiter sinkMade = .ok sinkWaiter := by decide +kernel
theorem sink_prepared : sinkWaiter.regulatorSettings [] = .ok ([], sinkWaiter) := by decide +kernel
theorem sink_complete : Complete (sinkMap.map (·.2)) := complete_of (by decide +kernel) (by decide +kernel)

/-- As `Waiter.turn`, but writing to programs finds the pipe broken. -/
def sinkTurn (i : Who) (τ : List (Who × Ev)) : List (Who × Ev) :=
  match sinkWaiter.sys [] i, execAll (realCaps (sinkMap.map (·.2))) Store.init (τ.map Prod.snd) with
  | some t, some st => match t.replay (proj i τ) with
    | some (.inr (.ioWrite h d)) => τ ++ [(i, ⟨.ioWrite h d, .brokenPipe⟩)]
    | some (.inr q) => match answer (realCaps (sinkMap.map (·.2))) st (fun h => if h = 0 then [[1, 10], [2, 10]] else []) (readsOf τ) .err q with
      | some r => τ ++ [(i, ⟨q, r⟩)]
      | none => τ
    | some (.inl (_, rest)) => match (dropEvs t.drops)[rest.length]? with
      | some e => τ ++ [(i, e)]
      | none => τ
    | none => τ
  | _, _ => τ

/-- First the faucet reads and sends everything, then the program gets something. -/
def sinkTrace : List (Who × Ev) :=
  (List.replicate 12 (Who.part (.faucet, "tap".toList) .main) ++ List.replicate 12 (Who.part (.launch, "head".toList) .input)).foldl (fun τ i => sinkTurn i τ) []

theorem sink_runs : sinkWaiter.Run [] (realCaps (sinkMap.map (·.2))) sinkTrace := Waiter.runs_sound (by decide +kernel)
theorem sink_over : sinkWaiter.Over [] sinkTrace := Waiter.overNow_sound (by decide +kernel)

theorem no_bad {w : Waiter} {cs : List Capture} : w.sysWith cs (fun _ => false) = w.sys cs := by
  funext i
  have : w.unopened (fun _ => false) i = none := by
    cases i with
    | manager => rfl
    | part r p =>
      cases p <;> simp only [Waiter.unopened]
      cases w.comps.get r <;> simp
  rw [Waiter.sysWith, this]; rfl

theorem Waiter.Run.plain {w : Waiter} {cs : List Capture} {cap : Caps} {τ : List (Who × Ev)} (h : w.Run cs cap τ) : w.RunWith cs (fun _ => false) cap τ :=
  ⟨by rw [no_bad]; exact h.exec, by rw [no_bad]; exact h.known, by rw [no_bad]; exact h.exits⟩

theorem Waiter.Over.plain {w : Waiter} {cs : List Capture} {τ : List (Who × Ev)} (h : w.Over cs τ) : w.OverWith cs (fun _ => false) τ := by
  unfold Waiter.OverWith; rw [no_bad]; exact h

/-- Nothing went wrong, but that a program closed its input. -/
def softly (x : Who × Ev) : Bool := !(act x.2).fails || (match x.1, act x.2 with
  | .part (.launch, _) _, .offer (.handle _) _ (.closed _) => true
  | _, _ => false)

theorem softly_sound {c : Config} {hs : List Hop} {τ : List (Who × Ev)} (h : ∀ x ∈ τ, softly x = true) (r : CompRef) : ¬ c.Breaks hs (fun _ => false) τ r := by
  rintro (⟨_, h⟩ | ⟨p, f, hf, hff⟩)
  · cases h
  · obtain ⟨e, he, rfl⟩ := List.mem_map.mp hf
    have := h _ (mem_proj.mp he)
    simp only [softly, fails_of_fatal hff, Bool.not_true, Bool.false_or] at this
    split at this
    · next h1 h2 =>
      cases h1
      rw [h2] at hff
      simp [Act.fatal, StopsAt] at hff
    · cases this

/-- A count that is not there gives nothing. -/
theorem no_counts {τ : List (Who × Ev)} (h : ∀ x ∈ τ, (match x.1 with | .part _ .count => false | _ => true) = true) (r : CompRef) : proj (.part r .count) τ = [] := by
  cases hp : proj (.part r .count) τ with
  | nil => rfl
  | cons e l =>
    have := h _ (mem_proj.mp (show e ∈ proj (.part r .count) τ by rw [hp]; simp))
    cases this

theorem total_nothing {sender : Option Nat} {mIn mOut : Nat} {x : TotalEnd} : ¬ (totalTask sender mIn mOut).Gives [] x := by
  rintro ⟨t1, _, h⟩
  have h := congrArg List.length h
  simp [totalTask, dropEvs] at h

theorem sink_returns : ∃ n, sinkWaiter.Returns [] (fun _ => false) sinkTrace (some (.ok n)) := by
  obtain ⟨out, h⟩ := C75_returns (bad := fun _ => false) sink_over.plain (by simp) (fun r m x _ hx => by
    rw [no_counts (by decide +kernel)] at hx
    exact absurd hx total_nothing)
  obtain ⟨n, hn⟩ := (C75_outcome (R := sinkMap) rfl sink_built sink_prepared sink_complete sink_runs.plain h).1.mpr fun r _ => softly_sound (by decide +kernel) r
  exact ⟨n, hn ▸ h⟩

/-- **C75, refuted** A run can be a success, all files having been opened and read and nothing having broken, although not everything was delivered: a program has closed its input early. -/
theorem C75_refuted : ∃ (c c' : Config) (hs : List Hop) (w w' : Waiter) (cs : List Capture) (cap : Caps) (τ : List (Who × Ev)) (n : Nat),
    c.Sound hs ∧ manipulate id id id c = some (c', []) ∧ getWaiter c' = .ok w ∧ w.regulatorSettings [] = .ok (cs, w') ∧ w'.RunWith cs (fun _ => false) cap τ ∧
    w'.Returns cs (fun _ => false) τ (some (.ok n)) ∧ ¬ c.Delivers τ := by
  obtain ⟨n, hn⟩ := sink_returns
  refine ⟨sink, sinkMade, [sinkHop], sinkWaiter, sinkWaiter, [], _, sinkTrace, n, sink_sound, sink_made, sink_built, sink_prepared, sink_runs.plain, hn, ?_⟩
  rintro ⟨over, h1, _, h3⟩
  have h4 := h1 _ _ _ sink_hop (by decide)
  have h5 := (h3 _ _ _ [("a".toList, 0)] sink_hop ⟨by decide, fun b i => by
    constructor
    · intro h
      obtain ⟨rfl, rfl⟩ := Prod.mk.inj (List.mem_singleton.mp h)
      exact ⟨_, sink_hop, rfl⟩
    · rintro ⟨h, hh, _⟩
      obtain ⟨rfl, rfl, _⟩ := sink_hops hh
      simp⟩).perm.length_eq
  simp only [List.map_cons, List.map_nil, List.flatten_cons, List.flatten_nil, List.append_nil, h4] at h5
  exact absurd h5 (by decide +kernel)

/-! The six components of `mill` (Props/RuntimeExample.lean) end well. -/

example {out} (h : millReady.2.Returns millReady.1 (fun _ => false) millTrace out) : ∃ n, out = some (.ok n) :=
  C75_clean (R := mill) rfl mill_built mill_prepared mill_complete mill_runs.plain h (fun _ _ h => by cases h.2) mill_calm

example {x} (h : sinkWaiter.Gives (fun _ => false) sinkTrace (.launch, "head".toList) x) : ¬ ∃ e, x = .error e :=
  fun he => softly_sound (by decide +kernel) _ ((C75_component (R := sinkMap) rfl sink_built sink_prepared sink_complete sink_runs.plain h).mp he)

/-! A command that runs a configuration of two connection sets, whose components all end well. -/

theorem twoAll_returns : ∃ n, twoWaiter.Returns [] (fun _ => false) twoAll (some (.ok n)) := by
  obtain ⟨out, h⟩ := C75_returns (bad := fun _ => false) twoAll_over.plain (by simp) (fun r m x _ hx => by
    rw [no_counts (by decide +kernel)] at hx
    exact absurd hx total_nothing)
  obtain ⟨c', printed, h1, h2⟩ := two_made
  obtain ⟨M, R, R', S, E, T, drain', printed', q1, P, _⟩ := (twoPipes_sound).laid (perm := id) (perm' := id) (spyOrder := id) (fun _ => .refl _) (fun _ => .refl _) fun _ => .refl _
  rw [h1] at q1
  cases q1
  obtain ⟨n, hn⟩ := C75_clean (R := R') (order := []) rfl h2 rfl (P.complete (twoPipes_sound).hops (twoPipes_sound).complete) twoAll_runs.plain h (fun _ _ h => by cases h.2) twoAll_calm
  exact ⟨n, hn ▸ h⟩

/-- Starts that waiter as above; any other goes on for ever. -/
noncomputable def twoStart (v : Waiter) : Started := open Classical in if v = twoWaiter then .ended (.ok twoAll_returns.choose) else .never

theorem twoStart_starts (v : Waiter) : v.Starts (twoStart v) := by
  unfold twoStart
  split
  · next h =>
    subst h
    exact ⟨[], (by rw [show twoWaiter.settings = [] by decide +kernel]), _, _, _, twoAll_runs.plain, twoAll_returns.choose_spec⟩
  · trivial

theorem two_finds : Finds plainLibrary (given (twoPipes 0 5)) .yaml "-".toList (twoPipes 0 5) :=
  finds_again plain_faithful (twoPipes_proper 0 5 (by unfold FitsI; omega) (by unfold FitsI; omega)) _ _

theorem two_succeeds : (pa2 plainLibrary plainOrders twoStart (given (twoPipes 0 5)) processLine).Succeeds [quoteSet plainLibrary.quote (twoPipes 0 5).drain.keys] := by
  obtain ⟨c1, _, k1, k2⟩ := two_made
  have hm : manipulate id id id (twoPipes 0 5) ≠ none := by rw [k1]; simp
  have hl : ((manipulate id id id (twoPipes 0 5)).bind fun x => (lint x.1).map (·.2)) = some [] := by decide +kernel
  rcases C74_process (start := twoStart) plainOrders_complete processLine_asks two_finds with ⟨h, _⟩ | ⟨_, c', h1, h2⟩
  · exact absurd ((C35_aborts (twoPipes 0 5) (two_finds.proper.connection.nodup) (spyOrder := id) (fun _ => .refl _) fun _ => .refl _).2.mpr h) hm
  · have h1 : manipulate id id id (twoPipes 0 5) = some (c', (twoPipes 0 5).drain.keys) := h1
    rw [h1] at hl k1
    obtain rfl := (Prod.mk.inj (Option.some.inj k1)).1
    simp only [Option.bind_some] at hl
    obtain ⟨ws, h3, h4⟩ := lint_always c'
    rw [h3] at hl
    simp at hl
    subst hl
    have hs : twoStart twoWaiter = .ended (.ok twoAll_returns.choose) := if_pos rfl
    rcases h2 with ⟨h, _⟩ | ⟨_, ⟨e, h, _⟩ | ⟨v, hv, h⟩⟩
    · exact absurd ((ready_iff c').mpr fun w hw => by simpa using (h4 w).mpr hw.1) h
    · rw [k2] at h; cases h
    · rw [k2] at hv
      cases hv
      rw [hs] at h
      rcases h with ⟨_, h⟩ | ⟨_, h, _⟩ | ⟨h, _⟩ | ⟨h, _⟩
      · exact h
      · cases h
      · cases h
      · cases h

theorem twoAll_heeded : Heeded twoAll := fun x _ _ _ h => by
  have := twoAll_calm _ _ h
  simp [Act.trouble] at this

/-- Each of the hypotheses of `C75_delivered` is met. -/
example : (twoPipes 0 5).Delivers twoAll := by
  obtain ⟨c', printed, h1, h2⟩ := two_made
  obtain ⟨n, h⟩ := twoAll_returns
  exact C75_delivered (order := []) (cs := []) twoPipes_sound (fun _ => .refl _) (fun _ => .refl _) (fun _ => .refl _) h1 h2 rfl twoAll_runs.plain h rfl twoAll_heeded

/-- And of `C75_zero`. -/
example : ∃ c' printed, manipulate id id id (twoPipes 0 5) = some (c', printed) ∧ ∃ v, getWaiter c' = .ok v ∧ ∃ order cs v' bad cap τ, v.regulatorSettings order = .ok (cs, v') ∧
    v'.RunWith cs bad cap τ ∧ v'.OverWith cs bad τ := by
  obtain ⟨c', _, v, order, cs, v', bad, cap, τ, h1, _, h2, h3, h4, h5, _⟩ := C75_zero plainOrders_complete processLine_asks two_finds twoPipes_sound twoStart_starts two_succeeds
  exact ⟨c', _, h1, v, h2, order, cs, v', bad, cap, τ, h3, h4, h5⟩

end Verif
