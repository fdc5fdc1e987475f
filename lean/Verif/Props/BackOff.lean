import Verif.Lemmas.JunctionInv
/-!
# Property C26: idle waiting is bounded
-/
namespace Verif

/-- A user of a `BackOff`: any sequence of waits (`true`) and resets (`false`). Collects what the waits
return. -/
def useBackOff : List Bool → BackOff → Prog (BackOff × List (Option Nat))
  | [], b => pure (b, [])
  | true :: ops, b => do
    let (b, r) ← b.wait
    let (b, rs) ← useBackOff ops b
    pure (b, r :: rs)
  | false :: ops, b => useBackOff ops b.reset.1

/-- How many waits follow the last reset, and for each wait the number of waits before it since the last
reset. -/
def waitsBefore : Nat → List Bool → List Nat
  | _, [] => []
  | k, true :: ops => k :: waitsBefore (k + 1) ops
  | _, false :: ops => waitsBefore 0 ops

/-- The lengths of the waits in milliseconds. -/
def sleeps (tr : List Ev) : List Nat := (acts tr).filterMap fun | .sleep n => some n | _ => none

@[simp] theorem sleeps_append (a b : List Ev) : sleeps (a ++ b) = sleeps a ++ sleeps b := by simp [sleeps]

private theorem use_from {ops : List Bool} {b b' : BackOff} {rs tr} (k : Nat) (hb : b.count = min k 51)
    (h : (useBackOff ops b).Runs tr (b', rs)) :
    sleeps tr = (waitsBefore k ops).map (fun i => min i 51 * min i 51) ∧
    rs = (waitsBefore k ops).map (fun i => some (min i 50)) := by
  induction ops generalizing b k tr rs with
  | nil => simp [useBackOff] at h; simp [h, waitsBefore, sleeps]
  | cons o ops ih =>
    cases o with
    | false =>
      simp only [useBackOff] at h
      exact ih 0 rfl h
    | true =>
      simp only [useBackOff] at h
      rw [Prog.runs_bind] at h
      obtain ⟨t1, ⟨b1, r1⟩, t2, rfl, h1, h2⟩ := h
      rw [Prog.runs_bind] at h2
      obtain ⟨t3, ⟨b2, r2⟩, t4, rfl, h3, h4⟩ := h2
      simp at h4
      obtain ⟨rfl, rfl, rfl⟩ := h4
      unfold BackOff.wait at h1
      rw [Prog.runs_bind] at h1
      obtain ⟨t5, u, t6, rfl, h5, h6⟩ := h1
      rw [Prog.runs_req] at h5
      simp at h6
      obtain ⟨rfl, hb1, hr1⟩ := h6
      subst h5
      have hb1c : b1.count = min (k + 1) 51 := by
        rw [hb1]; split
        · simp only [hb]; omega
        · omega
      obtain ⟨i1, i2⟩ := ih (k + 1) hb1c h3
      constructor
      · simp only [List.append_nil, sleeps_append, i1, waitsBefore, List.map_cons]
        simp [sleeps, act, hb]
      · rw [i2]
        simp only [waitsBefore, List.map_cons]
        congr 1
        rw [← hb1] at hr1
        rw [hr1, if_pos (by omega)]
        congr 1; omega

/-- **C26.** Whatever the sequence of waits and resets of a new back-off: the wait that comes `i` waits
after the last reset lasts `min(i, 51)²` milliseconds, so the waits get longer, never exceed 2601 ms
and start again from 0 ms after a reset; and each returns `min(i, 50)`: the subtraction in its result
never underflows. -/
theorem C26_back_off {ops : List Bool} {b tr rs} (h : (useBackOff ops BackOff.new).Runs tr (b, rs)) :
    sleeps tr = (waitsBefore 0 ops).map (fun i => min i 51 * min i 51) ∧
    rs = (waitsBefore 0 ops).map (fun i => some (min i 50)) ∧
    (∀ n ∈ sleeps tr, n ≤ 2601) ∧ none ∉ rs := by
  obtain ⟨h1, h2⟩ := use_from 0 rfl h
  refine ⟨h1, h2, ?_, ?_⟩
  · intro n hn
    rw [h1, List.mem_map] at hn
    obtain ⟨i, _, rfl⟩ := hn
    have : min i 51 ≤ 51 := Nat.min_le_right _ _
    exact Nat.le_trans (Nat.mul_le_mul this this) (by decide)
  · rw [h2]; simp

example : (useBackOff [true, true, false, true] BackOff.new).Runs
    [⟨.sleep 0, ()⟩, ⟨.sleep 1, ()⟩, ⟨.sleep 0, ()⟩] (⟨1⟩, [some 0, some 1, some 0]) :=
  ⟨(), _, rfl, (), _, rfl, (), _, rfl, rfl, rfl⟩

/-- **C26** for a junction. After any number of passes the back-off has a count of at most 51 and every wait
so far was at most 2601 ms; the next pass sleeps (once, at its end, `count²` ms, then counting one more) only if
nothing at all was received in it, and otherwise resets the count. -/
theorem C26_junction {inputs pushs spy tr s} (hs : AllSenders pushs)
    (h : LoopRounds (junctionBody pushs spy) (junctionInit inputs) tr s) :
    s.backOff.count ≤ 51 ∧ (∀ n ∈ sleeps tr, n ≤ 2601) ∧
    ∀ tr2 s', (junctionBody pushs spy s).Runs tr2 (.inl s') →
      ((received tr2).length + endings tr2 = 0 ∧ sleeps tr2 = [s.backOff.count * s.backOff.count] ∧
        s'.backOff.count = min (s.backOff.count + 1) 51) ∨
      (0 < (received tr2).length + endings tr2 ∧ sleeps tr2 = [] ∧ s'.backOff.count = 0) := by
  have nosleep : ∀ {ws : List Poll}, (∀ w ∈ ws, PollRun pushs spy w) → sleeps (pollTrace ws) = [] := by
    intro ws hall
    unfold sleeps
    rw [List.filterMap_eq_nil_iff]
    intro a ha
    obtain ⟨w, hw, hm⟩ := mem_acts_pollTrace ha
    have q : ∀ {rest : List Act}, (∀ a ∈ rest, a.isQuiet = false) → ∀ n, Act.sleep n ∉ rest := by
      intro rest hq n hn
      simpa [Act.isQuiet] using hq _ hn
    cases a with
    | sleep n =>
      exfalso
      rcases poll_shape (hall w hw) with ⟨s', hs', ha, _⟩ | ⟨s', d', rest, hs', ha, hq, _⟩ | ⟨s', rest, hs', ha, hq, _⟩ | ⟨h0, _⟩
      · rw [ha] at hm; simp at hm
      · rw [ha] at hm; simp at hm; exact q hq n hm
      · rw [ha] at hm; simp at hm; exact q hq n hm
      · rw [h0] at hm; simp at hm
    | _ => rfl
  have one : ∀ {s : JState} {tr2 s'}, s.backOff.count ≤ 51 → (junctionBody pushs spy s).Runs tr2 (.inl s') →
      ((received tr2).length + endings tr2 = 0 ∧ sleeps tr2 = [s.backOff.count * s.backOff.count] ∧
        s'.backOff.count = min (s.backOff.count + 1) 51) ∨
      (0 < (received tr2).length + endings tr2 ∧ sleeps tr2 = [] ∧ s'.backOff.count = 0) := by
    intro s tr2 s' hc hb
    obtain ⟨k, ws1, ws2, tail, rfl, hp, hend⟩ := junctionBody_inv hb hs
    have hin := inert_of_tail hs hend
    rcases hend with ⟨_, _, _, h, _⟩ | ⟨hok, hk, ⟨s1, hx, hs1, _, hs2, htail⟩ | ⟨_, h, _⟩⟩
    · simp at h
    · simp at hx; subst hx
      obtain ⟨hokall, hrun⟩ := pass_ok hp hok
      have hh := heard_pollTrace hrun hokall
      have h0 : ws1.countP Poll.isRead = 0 := by
        rw [List.countP_eq_zero]; intro w hw; simp [Poll.isRead, hp.skipped w hw]
      rw [List.countP_append, h0, Nat.zero_add] at hh
      unfold heard at hh
      have ht : (received tail).length = 0 ∧ endings tail = 0 := by
        obtain ⟨t1, _, _, _, _, t2⟩ := hin.proj
        simp [t1, t2]
      have hall : (received (pollTrace (ws1 ++ ws2) ++ tail)).length + endings (pollTrace (ws1 ++ ws2) ++ tail) =
          ws2.countP Poll.isRead := by
        rw [received_append, endings_append, List.length_append]; omega
      rcases htail with ⟨rfl, ha, hb'⟩ | ⟨hne, ha, hb'⟩
      · left
        refine ⟨by rw [hall]; rfl, ?_, ?_⟩
        · rw [sleeps_append, nosleep hrun]
          simp [sleeps, ha]
        · rw [hb']; omega
      · right
        refine ⟨?_, ?_, hb'⟩
        · rw [hall]
          rcases hk with ⟨_, w, hw, hr⟩ | ⟨_, h⟩
          · exact List.countP_pos_iff.mpr ⟨w, hw, hr⟩
          · exact absurd h hne
        · rw [sleeps_append, nosleep hrun]
          unfold sleeps
          rw [ha, List.nil_append, List.filterMap_eq_nil_iff]
          intro a ha'
          unfold finActs at ha'
          rw [List.mem_flatMap] at ha'
          obtain ⟨p, _, ha'⟩ := ha'
          obtain ⟨k, c, rfl⟩ := dropActs_close ha'
          rfl
    · simp at h
  have inv : ∀ {s0 tr s}, LoopRounds (junctionBody pushs spy) s0 tr s → s0.backOff.count ≤ 51 →
      s.backOff.count ≤ 51 ∧ (∀ n ∈ sleeps tr, n ≤ 2601) := by
    intro s0 tr s h
    induction h with
    | nil => intro h; exact ⟨h, by simp [sleeps]⟩
    | next hb _ ih =>
      intro h0
      have hsq := Nat.mul_le_mul h0 h0
      rcases one h0 hb with ⟨_, h2, h3⟩ | ⟨_, h2, h3⟩
      · obtain ⟨i1, i2⟩ := ih (by omega)
        refine ⟨i1, ?_⟩
        intro n hn
        rw [sleeps_append, h2, List.mem_append] at hn
        rcases hn with hn | hn
        · simp at hn; omega
        · exact i2 n hn
      · obtain ⟨i1, i2⟩ := ih (by omega)
        refine ⟨i1, ?_⟩
        intro n hn
        rw [sleeps_append, h2, List.nil_append] at hn
        exact i2 n hn
  obtain ⟨i1, i2⟩ := inv h (by simp [junctionInit, BackOff.new])
  exact ⟨i1, i2, fun tr2 s' hb => one i1 hb⟩

/-- Two idle passes. -/
example : LoopRounds (junctionBody [.sender ⟨3, some .out, 4, .terminate⟩ 9] none) (junctionInit [(.receiver ⟨1, 3⟩ 1, 0)])
    ([⟨.tryRecv .data 1, .empty⟩, ⟨.sleep 0, ()⟩] ++ ([⟨.tryRecv .data 1, .empty⟩, ⟨.sleep 1, ()⟩] ++ []))
    ⟨[[.receiver ⟨1, 3⟩ 1]], ⟨2⟩, 0⟩ := by
  refine .next (s' := ⟨[[.receiver ⟨1, 3⟩ 1]], ⟨1⟩, 0⟩) ?_ (.next ?_ .nil)
  · exact ⟨.empty, _, rfl, (), _, rfl, rfl, rfl⟩
  · exact ⟨.empty, _, rfl, (), _, rfl, rfl, rfl⟩

end Verif
