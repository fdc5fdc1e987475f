import Verif.Lemmas.Only
import Verif.Lemmas.Replay
/-!
# Property C22: flow control and a buffer's willingness to accept
-/
namespace Verif

namespace C22

/-- The channels of the buffer: input 0, output 2, unbounded 1, notifications 0 and 1, size reports 0. -/
def ch : BufferChans := ⟨0, 1, 0, 1, some 0, none⟩
def out : Push := .sender ⟨2, some .out, 3, .terminate⟩ 2

/-- A buffer (tasks 1, 2, 3), its flow manager (4, watermarks 0 and 1) and the regulator it controls (5, input
channel 3, output channel 4). Everything else is environment. -/
def sys : Nat → Option Task
  | 1 => some (bufferIn ch ⟨1, 2⟩ out)
  | 2 => some (bufferOut ch out)
  | 3 => some (bufferCount ch)
  | 4 => some (managerTask 0 1 0 [0])
  | 5 => some (regulatorTask (.receiver ⟨4, 5⟩ 3) (.sender ⟨5, some .out, 6, .terminate⟩ 4) none (some 0))
  | _ => none

/-- Capacities as in the code. -/
def cap : Caps := fun k c => if k = .data ∧ c = 1 then none else if k = .ctl then some 1 else some 8

def msg : Bytes := [120]
/-- The environment puts a message into the input. -/
def feed : Step Nat := .ev 0 ⟨.send .data 0 msg, true⟩
/-- The input half takes a message and reports it. -/
def take : List (Step Nat) := [.ev 1 ⟨.recv .data 0, some msg⟩, .ev 1 ⟨.send .data 1 msg, true⟩, .ev 1 ⟨.send .mon 0 (.wrote 0), true⟩]
/-- The output half passes a message on; the environment takes it. -/
def pass : List (Step Nat) := [.ev 2 ⟨.recv .data 1, some msg⟩, .ev 2 ⟨.send .mon 1 (.read 0), true⟩, .ev 2 ⟨.send .data 2 msg, true⟩]
/-- The count sleeps. -/
def wake (ms : Nat) : Step Nat := .ev 3 ⟨.sleep ms, ()⟩
/-- The count finds nothing, sleeps no time, finds nothing (and sleeps). -/
def look : List (Step Nat) := [.ev 3 ⟨.tryRecv .mon 0, .empty⟩, .ev 3 ⟨.tryRecv .mon 1, .empty⟩, .ev 3 ⟨.stat .mon 0, (true, false)⟩, wake 0,
  .ev 3 ⟨.tryRecv .mon 0, .empty⟩, .ev 3 ⟨.tryRecv .mon 1, .empty⟩, .ev 3 ⟨.stat .mon 0, (true, false)⟩]
/-- The count notices an arrival and reports size `n`. -/
def count (n : Nat) : List (Step Nat) := [.ev 3 ⟨.tryRecv .mon 0, .got (.wrote 0)⟩, .ev 3 ⟨.tryRecv .mon 1, .empty⟩, .ev 3 ⟨.send .size 0 n, true⟩,
  .ev 3 ⟨.stat .mon 0, (true, false)⟩]

/-- One message comes and goes: the size does not change. -/
def through : List (Step Nat) := feed :: take ++ [.turn] ++ pass ++ [.turn, wake 1] ++
  [.ev 3 ⟨.tryRecv .mon 0, .got (.wrote 0)⟩, .ev 3 ⟨.tryRecv .mon 1, .got (.read 0)⟩, .ev 3 ⟨.stat .mon 0, (true, false)⟩] ++ look ++ [.turn]

/-- The script. Eight messages fill the output. The ninth is stuck in the output half. The tenth makes size 1: the manager asks for
a pause. The environment takes a message out of the output, size is 0 again: the manager wants to ask for a resume. Then size reports until their
channel is full, then notifications until theirs is full, then messages until the input is full. -/
def steps : List (Step Nat) :=
  [.turn, .turn] ++ look ++ [.turn] ++ (List.replicate 8 through).flatten ++
  (feed :: take ++ [.turn] ++ pass.take 2 ++ [.turn, wake 1] ++
    [.ev 3 ⟨.tryRecv .mon 0, .got (.wrote 0)⟩, .ev 3 ⟨.tryRecv .mon 1, .got (.read 0)⟩, .ev 3 ⟨.stat .mon 0, (true, false)⟩] ++ look ++ [.turn]) ++
  (feed :: take ++ [.turn, .turn, wake 1] ++ count 1 ++ look ++ [.turn]) ++
  [.ev 4 ⟨.tryRecv .size 0, .got (1 : Nat)⟩, .ev 4 ⟨.send .ctl 0 (), true⟩, .ev 0 ⟨.recv .data 2, some msg⟩] ++
  ([.turn] ++ pass.drop 2 ++ pass.take 2 ++ [.turn, wake 1] ++
    [.ev 3 ⟨.tryRecv .mon 0, .empty⟩, .ev 3 ⟨.tryRecv .mon 1, .got (.read 0)⟩, .ev 3 ⟨.send .size 0 (0 : Nat), true⟩,
     .ev 3 ⟨.stat .mon 0, (true, false)⟩] ++ look ++ [.turn]) ++
  [.ev 4 ⟨.tryRecv .size 0, .got (0 : Nat)⟩] ++
  ((List.range 8).flatMap fun i => feed :: take ++ [.turn, .turn, wake 1] ++ count (i + 1) ++ look ++ [.turn]) ++
  (feed :: take ++ [.turn, .turn, wake 1] ++ [.ev 3 ⟨.tryRecv .mon 0, .got (.wrote 0)⟩, .ev 3 ⟨.tryRecv .mon 1, .empty⟩, .turn]) ++
  ((List.range 8).flatMap fun _ => feed :: take) ++
  (feed :: take.take 2 ++ [.turn, .turn, .turn]) ++ List.replicate 8 feed

def trace : List (Nat × Ev) := steps.filterMap Step.event

/-- What each task is waiting for. -/
def stuck : Nat → Option (Req × Kind × Nat)
  | 1 => some (.send .mon 0 (.wrote 0), .mon, 0)
  | 3 => some (.send .size 0 (9 : Nat), .size, 0)
  | 4 => some (.send .ctl 0 (), .ctl, 0)
  | 5 => some (.recv .data 3, .data, 3)
  | _ => none

/-- The buffer's activities, joined. -/
def joined : List (Nat × Task) := [(1, bufferIn ch ⟨1, 2⟩ out), (2, bufferOut ch out), (3, bufferCount ch)]

set_option maxRecDepth 100000 in
theorem store : ∃ st k, Polled cap joined trace k ∧ execAll cap Store.init (trace.map Prod.snd) = some st ∧
    ((st .mon 0).q.length = 8 ∧ (st .mon 0).closed = false) ∧ ((st .size 0).q.length = 8 ∧ (st .size 0).closed = false) ∧
    ((st .ctl 0).q.length = 1 ∧ (st .ctl 0).closed = false) ∧ ((st .data 3).q.length = 0 ∧ (st .data 3).closed = false) ∧
    (st .data 0).q.length = 8 := by
  have h : (script cap joined steps [] Store.init 0).any (fun (st, _) =>
      ((st .mon 0).q.length == 8 && !(st .mon 0).closed) && ((st .size 0).q.length == 8 && !(st .size 0).closed) &&
      ((st .ctl 0).q.length == 1 && !(st .ctl 0).closed) && ((st .data 3).q.length == 0 && !(st .data 3).closed) &&
      (st .data 0).q.length == 8) = true := by decide +kernel
  cases hx : script cap joined steps [] Store.init 0 with
  | none => rw [hx] at h; simp at h
  | some x =>
    obtain ⟨st, k⟩ := x
    rw [hx] at h
    simp at h
    have ⟨hP, hst⟩ := script_sound (τ := []) rfl .start hx
    exact ⟨st, k, hP, hst, by simp [h], by simp [h], by simp [h], by simp [h], by simp [h]⟩

theorem input_awaits : (bufferIn ch ⟨1, 2⟩ out).Awaits (proj 1 trace) (.send .mon 0 (.wrote 0)) :=
  Task.waits_awaits (by decide +kernel)
theorem count_awaits : (bufferCount ch).Awaits (proj 3 trace) (.send .size 0 (9 : Nat)) :=
  Task.waits_awaits (by decide +kernel)
theorem manager_awaits : (managerTask 0 1 0 [0]).Awaits (proj 4 trace) (.send .ctl 0 ()) :=
  Task.waits_awaits (by decide +kernel)
theorem output_partial : (bufferOut ch out).Partial (proj 2 trace) :=
  Task.checks_partial (by decide +kernel)

theorem idle_awaits : (regulatorTask (.receiver ⟨4, 5⟩ 3) (.sender ⟨5, some .out, 6, .terminate⟩ 4) none (some 0)).Awaits (proj 5 trace) (.recv .data 3) :=
  Task.waits_awaits (by decide +kernel)

attribute [irreducible] trace

theorem full_impossible {st : Store} {k : Kind} {c n : Nat} (v : k.Payload) (h1 : (st k c).q.length = n) (h2 : (st k c).closed = false)
    (h3 : cap k c = some n) : Impossible cap st (.send k c v) := by
  intro r
  cases r with
  | true => simp [exec, h2, h1, h3, hasRoom]
  | false => simp [exec, h2]

end C22

open C22 in
/-- **C22** is false of the code. There is an execution (one where the buffer's activities are polled as in the code) of a buffer, the manager that watches it and the
regulator it controls, after which, as long as nothing arrives for the regulator, the buffer never takes another
message and nothing more can be put into its input: whatever its environment does (which leaves the channels between
these tasks alone, and takes nothing out of the buffer's input). The regulator, idle, has not looked at the pause request; the resume request
does not fit behind it; the manager no longer takes size reports; the count no longer takes notifications; the input half is blocked. -/
theorem C22_refuted :
    ∃ τ k, Execution cap sys τ ∧ Polled cap joined τ k ∧ ∀ τ', Execution cap sys (τ ++ τ') →
      (∀ x ∈ τ', sys x.1 = none → x.2.q.on ≠ some (.mon, 0) ∧ x.2.q.on ≠ some (.size, 0) ∧ x.2.q.on ≠ some (.ctl, 0) ∧
        x.2.q.on ≠ some (.data, 3) ∧ gotOf .data 0 x.2 = none) →
      (∀ x ∈ τ', x.1 ≠ 1) ∧ sentOn .data 0 (τ'.map Prod.snd) = [] := by
  obtain ⟨st, k, hP, hst, ⟨m1, m2⟩, ⟨s1, s2⟩, ⟨c1, c2⟩, ⟨d1, d2⟩, f1⟩ := store
  refine ⟨trace, k, ⟨by rw [hst]; rfl, ?_⟩, hP, ?_⟩
  · intro i t hi
    match i, hi with
    | 1, hi => simp [sys] at hi; subst hi; exact input_awaits.partial
    | 2, hi => simp [sys] at hi; subst hi; exact output_partial
    | 3, hi => simp [sys] at hi; subst hi; exact count_awaits.partial
    | 4, hi => simp [sys] at hi; subst hi; exact manager_awaits.partial
    | 5, hi => simp [sys] at hi; subst hi; exact idle_awaits.partial
  · intro τ' hE henv
    have hout : ∀ x ∈ τ', x.1 = 2 → x.2.q.on ≠ some (.mon, 0) ∧ x.2.q.on ≠ some (.size, 0) ∧ x.2.q.on ≠ some (.ctl, 0) ∧
        x.2.q.on ≠ some (.data, 3) ∧ x.2.q.on ≠ some (.data, 0) := by
      intro x hx h2
      have ht := hE.tasks 2 _ rfl
      have := relayTask_only ht x.2 (mem_proj.mpr (by rw [← h2]; simp [hx]))
      refine ⟨?_, ?_, ?_, ?_, ?_⟩ <;> intro ho <;> have := this _ ho <;> simp [relayChans, Pull.owned, Push.owned, C22.out, ch] at this
    obtain ⟨hfr, st', hst', hsame⟩ := frozen stuck hst (by
      intro i q k c hi
      match i, hi with
      | 1, hi => simp [stuck] at hi; obtain ⟨rfl, rfl, rfl⟩ := hi; exact ⟨⟨_, rfl, input_awaits⟩, rfl, full_impossible _ m1 m2 rfl⟩
      | 3, hi => simp [stuck] at hi; obtain ⟨rfl, rfl, rfl⟩ := hi; exact ⟨⟨_, rfl, count_awaits⟩, rfl, full_impossible _ s1 s2 rfl⟩
      | 4, hi => simp [stuck] at hi; obtain ⟨rfl, rfl, rfl⟩ := hi; exact ⟨⟨_, rfl, manager_awaits⟩, rfl, full_impossible _ c1 c2 rfl⟩
      | 5, hi =>
        simp [stuck] at hi; obtain ⟨rfl, rfl, rfl⟩ := hi
        refine ⟨⟨_, rfl, idle_awaits⟩, rfl, ?_⟩
        intro r
        have hq := List.eq_nil_of_length_eq_zero d1
        cases r <;> simp [exec, hq, d2]) hE (by
      intro x hx hn i q k c hi
      have h4 : x.2.q.on ≠ some (.mon, 0) ∧ x.2.q.on ≠ some (.size, 0) ∧ x.2.q.on ≠ some (.ctl, 0) ∧ x.2.q.on ≠ some (.data, 3) := by
        by_cases h2 : x.1 = 2
        · have := hout x hx h2; exact ⟨this.1, this.2.1, this.2.2.1, this.2.2.2.1⟩
        · have : sys x.1 = none := by
            generalize x.1 = n at hn h2
            match n, hn, h2 with
            | 0, _, _ => rfl
            | 2, _, h2 => exact absurd rfl h2
            | n + 6, _, _ => rfl
          have := henv x hx this
          exact ⟨this.1, this.2.1, this.2.2.1, this.2.2.2.1⟩
      match i, hi with
      | 1, hi => simp [stuck] at hi; obtain ⟨_, rfl, rfl⟩ := hi; exact h4.1
      | 3, hi => simp [stuck] at hi; obtain ⟨_, rfl, rfl⟩ := hi; exact h4.2.1
      | 4, hi => simp [stuck] at hi; obtain ⟨_, rfl, rfl⟩ := hi; exact h4.2.2.1
      | 5, hi => simp [stuck] at hi; obtain ⟨_, rfl, rfl⟩ := hi; exact h4.2.2.2)
    refine ⟨?_, ?_⟩
    · intro x hx h1
      have := hfr x hx; rw [h1] at this; simp [stuck] at this
    · have hgot : gotOn .data 0 (τ'.map Prod.snd) = [] := by
        unfold gotOn; rw [List.filterMap_eq_nil_iff]
        intro e he
        obtain ⟨x, hx, rfl⟩ := List.mem_map.mp he
        by_cases h2 : x.1 = 2
        · cases hg : gotOf .data 0 x.2 with
          | none => rfl
          | some v => exact absurd (on_of_got hg) (hout x hx h2).2.2.2.2
        · have : sys x.1 = none := by
            have hn := hfr x hx
            generalize x.1 = n at hn h2
            match n, hn, h2 with
            | 0, _, _ => rfl
            | 2, _, h2 => exact absurd rfl h2
            | n + 6, _, _ => rfl
          exact (henv x hx this).2.2.2.2
      have hf := fifo hst' .data 0
      rw [hgot, List.nil_append] at hf
      have hroom := room_le hst' .data 0 (n := 8) rfl (by omega)
      have := congrArg List.length hf
      rw [List.length_append, f1] at this
      exact List.eq_nil_of_length_eq_zero (by omega)

/-- The requests of the count of a buffer that is not monitored. -/
theorem unmonitored_only {mIn mOut : Nat} (s : Total) : (totalBody none mIn mOut s).Only fun q =>
    (∃ k c, q = .tryRecv k c) ∨ (∃ k c, q = .stat k c) ∨ ∃ ms, q = .sleep ms := by
  have rest : ∀ b m n l, (totalRest none mIn mOut b m n l).Only fun q =>
      (∃ k c, q = .tryRecv k c) ∨ (∃ k c, q = .stat k c) ∨ ∃ ms, q = .sleep ms := by
    intro b m n l
    unfold totalRest
    refine Prog.Only.bind (Prog.only_pure _) fun x => ?_
    obtain ⟨x1, x2⟩ := x
    show Prog.Only _ (if x2 = false then _ else _)
    split
    · exact Prog.only_pure _
    · refine Prog.Only.bind (Prog.only_req (Or.inr (Or.inl ⟨_, _, rfl⟩))) fun y => ?_
      refine Prog.Only.bind ?_ fun z => ?_
      · split
        · exact Prog.only_req (Or.inr (Or.inl ⟨_, _, rfl⟩))
        · exact Prog.only_pure _
      · obtain ⟨z1, z2⟩ := z
        show Prog.Only _ (if (y.1 && y.2 && z1 && z2) = true then _ else _)
        split
        · exact Prog.only_pure _
        · split
          · exact Prog.only_pure _
          · exact Prog.Only.bind (Prog.Only.bind (Prog.only_req (Or.inr (Or.inr ⟨_, rfl⟩))) fun _ => Prog.only_pure _) fun _ => Prog.only_pure _
  unfold totalBody
  refine Prog.Only.bind (Prog.only_req (Or.inl ⟨_, _, rfl⟩)) fun x => ?_
  have second : ∀ size moved, Prog.Only (fun q => (∃ k c, q = .tryRecv k c) ∨ (∃ k c, q = .stat k c) ∨ ∃ ms, q = .sleep ms)
      (req (.tryRecv .mon mOut) >>= fun y => match y with
        | .got (.wrote _) => pure (.inr .wrongMessage)
        | .got (.read _) => if size = 0 then pure (.inr .underflow) else totalRest none mIn mOut s.backOff true (size - 1) s.last
        | _ => totalRest none mIn mOut s.backOff moved size s.last) := by
    intro size moved
    refine Prog.Only.bind (Prog.only_req (Or.inl ⟨_, _, rfl⟩)) fun y => ?_
    cases y with
    | got m => cases m with
      | wrote => exact Prog.only_pure _
      | read =>
        show Prog.Only _ (if size = 0 then _ else _)
        split
        · exact Prog.only_pure _
        · exact rest _ _ _ _
    | empty => exact rest _ _ _ _
    | closed => exact rest _ _ _ _
  cases x with
  | got m => cases m with
    | wrote => exact second (s.size + 1) true
    | read => exact Prog.only_pure _
  | empty => exact second s.size false
  | closed => exact second s.size false

/-- **C22**, what is left of it: the count of a buffer that is not monitored never waits for anybody, so the notifications of
its relays are taken out in due course. Missing, since false (`C22_refuted`): the same for a monitored buffer. -/
theorem C22_unmonitored_partial {mIn mOut cap st tr q} (h : (totalTask none mIn mOut).Awaits tr q) :
    ∃ r st', exec cap st ⟨q, r⟩ = some st' := by
  rcases Task.only_awaits (t := totalTask none mIn mOut) unmonitored_only h with ⟨k, c, rfl⟩ | ⟨k, c, rfl⟩ | ⟨ms, rfl⟩
  · cases hq : (st k c).q with
    | nil => cases hc : (st k c).closed with
      | false => exact ⟨.empty, st, by simp [exec, hq, hc]⟩
      | true => exact ⟨.closed, st, by simp [exec, hq, hc]⟩
    | cons v l => exact ⟨.got v, st.set k c { q := l, closed := (st k c).closed }, by simp [exec, hq]⟩
  · exact ⟨((st k c).q.isEmpty, (st k c).closed), st, by simp [exec]⟩
  · exact ⟨(), st, rfl⟩

end Verif
