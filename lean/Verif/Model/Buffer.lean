import Verif.Model.Tasks
import Verif.Model.BackOff
/-!
# `/repo/src/buffer.rs`

A buffer joins three activities: two relays (`motion`) with an unbounded channel between them, and
`total_in_buffer`, which keeps count of what the relays report. Here they are three tasks. The `join`
polls them in order, which is more restrictive than independent tasks; see `PollOrder`.
-/
namespace Verif

/-- buffer.rs:115-118: the variables of `total_in_buffer` between two rounds. -/
structure Total where
  size : Nat
  last : Nat
  backOff : BackOff
  deriving Repr, DecidableEq

/-- How `total_in_buffer` ends: normally with the final size; with an error when the receiver of the size reports is
gone; by `panic!` on an unexpected notification; by overflow in `size -= 1`. -/
inductive TotalEnd where
  | done (size : Nat)
  | sendError
  | wrongMessage
  | underflow
  deriving Repr, DecidableEq

/-- buffer.rs:147-152: reporting the size when it has changed; `false` for the error. -/
def reportSize (sender : Option Nat) (size last : Nat) : Prog (Nat × Bool) :=
  match sender with
  | some c => if last ≠ size then do
      let ok ← req (.send .size c size)
      pure (size, ok)
    else pure (last, true)
  | none => pure (last, true)

/-- buffer.rs:147-165: the second half of a round, `moved` being `buffer_movement`. The four status checks do not suspend; those
of one channel are one request. -/
def totalRest (sender : Option Nat) (mIn mOut : Nat) (backOff : BackOff) (moved : Bool) (size last : Nat) : Prog (Total ⊕ TotalEnd) := do
  let (last, ok) ← reportSize sender size last
  if ok = false then pure (.inr .sendError)
  else do
    let (e, c) ← req (.stat .mon mIn)
    let (e', c') ← (if e && c then req (.stat .mon mOut) else pure (false, false) : Prog (Bool × Bool))
    if e && c && e' && c' then pure (.inr (.done size))
    else if moved then pure (.inl ⟨size, last, backOff.reset.1⟩)
    else do
      let (b, _) ← backOff.wait
      pure (.inl ⟨size, last, b⟩)

/-- buffer.rs:119-167: one round of the `loop` of `total_in_buffer`. -/
def totalBody (sender : Option Nat) (mIn mOut : Nat) (s : Total) : Prog (Total ⊕ TotalEnd) := do
  match ← req (.tryRecv .mon mIn) with
  | .got (.read _) => pure (.inr .wrongMessage)
  | inp => do
    let size := match inp with
      | .got _ => s.size + 1
      | _ => s.size
    let moved := match inp with
      | .got _ => true
      | _ => false
    match ← req (.tryRecv .mon mOut) with
    | .got (.wrote _) => pure (.inr .wrongMessage)
    | .got (.read _) =>
      if size = 0 then pure (.inr .underflow)
      else totalRest sender mIn mOut s.backOff true (size - 1) s.last
    | _ => totalRest sender mIn mOut s.backOff moved size s.last

/-- buffer.rs:114 `total_in_buffer` takes its channel ends by value. -/
def totalTask (sender : Option Nat) (mIn mOut : Nat) : Task where
  σ := Total
  ρ := TotalEnd
  body := totalBody sender mIn mOut
  init := ⟨0, 0, BackOff.new⟩
  drops := (sender.map fun c => (Kind.size, c)).toList ++ [(.mon, mIn), (.mon, mOut)]

/-- The channels a buffer makes or is given: input, the unbounded one (buffer.rs:83), notifications (84-85), size
reports, spying. -/
structure BufferChans where
  input : Nat
  inner : Nat
  mIn : Nat
  mOut : Nat
  size : Option Nat
  spy : Option Nat

/-- buffer.rs:90-93, 99-104: the first relay. Its output has the pipe variation of the buffer's output. -/
def bufferIn (ch : BufferChans) (j : PullJourney) (out : Push) : Task :=
  relayTask (.receiver j ch.input) { written := some ch.mIn } none (.sender ⟨0, none, 0, out.breakable⟩ ch.inner)

/-- buffer.rs:94-97, 105-110: the second relay. -/
def bufferOut (ch : BufferChans) (out : Push) : Task :=
  relayTask (.receiver ⟨0, 0⟩ ch.inner) { read := some ch.mOut } ch.spy out

/-- buffer.rs:170-172 -/
def bufferCount (ch : BufferChans) : Task := totalTask ch.size ch.mIn ch.mOut

end Verif
