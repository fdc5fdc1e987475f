import Verif.Model.Prog
/-!
# Moving messages: `/repo/src/motion.rs`

Not modelled: `Pull::Mock` and `Push::IoMock` (test doubles), the `Instant`s inside errors.
`Pull::{CmdStdout,CmdStderr,Stdin,File}` are one constructor `stream`, `Push::{Sender,IoSender}` one
constructor `sender`, `Push::{CmdStdin,Stdout,Stderr,File}` one constructor `io`: the code treats the
members of each group alike.
-/
namespace Verif

/-- motion.rs:110-114 -/
structure PullJourney where
  src : Nat
  dst : Nat
  deriving Repr, DecidableEq

/-- motion.rs:90-96 -/
structure Journey where
  src : Nat
  srcPort : Option OutputPort
  dst : Nat
  breakable : Breakable
  deriving Repr, DecidableEq

/-- motion.rs:121-130 -/
inductive Pull where
  | none
  | receiver (j : PullJourney) (c : Nat)
  | stream (j : PullJourney) (h : Nat)
  deriving Repr, DecidableEq

/-- motion.rs:149-159 -/
inductive Push where
  | none
  | sender (j : Journey) (c : Nat)
  | io (j : Journey) (h : Nat)
  deriving Repr, DecidableEq

/-- motion.rs:133-145 `Pull::journey` -/
def Pull.journey : Pull → Option PullJourney
  | .none => Option.none
  | .receiver j _ => some j
  | .stream j _ => some j

/-- motion.rs:161-175 `Push::journey` -/
def Push.journey : Push → Option Journey
  | .none => Option.none
  | .sender j _ => some j
  | .io j _ => some j

/-- motion.rs:177-181 -/
inductive ClosedReason where
  | brokenPipe | channelClosed
  deriving Repr, DecidableEq

/-- motion.rs:183-198 `MotionError`, with an extra constructor for `panic!`. -/
inductive MErr where
  | readIO (j : PullJourney) (e : Nat)
  | closeIO (j : Journey)
  | openIO (j : PullJourney)
  | writeIO (j : Journey) (e : Nat) (d : Bytes)
  | recv (j : Journey)
  | send (j : Journey) (d : Bytes)
  | outputClosed (j : Journey) (why : ClosedReason) (d : Bytes)
  | monitorRead (src : Nat)
  | monitorWrite (j : PullJourney)
  | spyWrite (m : SpyMsg)
  | launchSpawn
  | noneError
  | panic
  deriving Repr, DecidableEq

/-- `async fn .. -> MotionResult<α>` (motion.rs:317). -/
abbrev M (α : Type) := ExceptT MErr Prog α

/-- Issue one request inside `M`. -/
def ask (q : Req) : M q.Resp := ExceptT.lift (req q)

/-- A complete run of an `async fn` returning a `MotionResult`. -/
def MRuns {α : Type} (p : M α) (tr : List Ev) (r : Except MErr α) : Prop := Prog.Runs p.run tr r

/-- An unfinished run. -/
def MPartial {α : Type} (p : M α) (tr : List Ev) : Prop := Prog.Partial p.run tr

/-- motion.rs:385-417 `motion_read`. -/
def motionRead : Pull → Bool → M IOW
  | .none, false => pure .finished
  | .receiver _ c, false => do
    match ← ask (.recv .data c) with
    | some d => pure (.data d)
    | Option.none => pure .finished
  | .receiver _ c, true => do
    match ← ask (.tryRecv .data c) with
    | .got d => pure (.data d)
    | .empty => pure .skipped
    | .closed => pure .finished
  | .stream j h, false => do
    match ← ask (.streamRead h) with
    | .line d => pure (.data d)
    | .eof => pure .finished
    | .err e => throw (.readIO j e)
  | .none, true => throw .panic
  | .stream _ _, true => throw .panic

/-- motion.rs:420-444 `motion_write`. -/
def motionWrite : Push → Bytes → M Unit
  | .none, _ => pure ()
  | .sender j c, d => do
    if ← ask (.send .data c d) then pure ()
    else throw (.outputClosed j .channelClosed d)
  | .io j h, d => do
    match ← ask (.ioWrite h d) with
    | .ok => pure ()
    | .brokenPipe => throw (.outputClosed j .brokenPipe d)
    | .other e => throw (.writeIO j e d)

/-- motion.rs:447-464 `motion_close`. -/
def motionClose : Push → M Unit
  | .none => pure ()
  | .sender _ c => ask (.close .data c)
  | .io j h => do
    if ← ask (.ioFlush h) then pure () else throw (.closeIO j)

/-- motion.rs:467-483 `MotionNotifications`: the channels to notify, if any. -/
structure Notifications where
  read : Option Nat := Option.none
  written : Option Nat := Option.none
  deriving Repr, DecidableEq

/-- motion.rs:485-489 `MotionWorkerResult`. -/
structure WorkerResult where
  finished : Bool
  read : Bool
  deriving Repr, DecidableEq

/-- motion.rs:498 and 517: the pipe variation of a push, `Terminate` without a journey. -/
def Push.breakable (p : Push) : Breakable :=
  match p.journey with
  | some j => j.breakable
  | Option.none => .terminate

/-- motion.rs:517-532: offer the message to one push; `n` is `unfinished_push_count`. -/
def writeOne (data : IOW) (p : Push) (n : Nat) : M Nat :=
  match data with
  | .finished => pure n
  | .skipped => pure n
  | .data d =>
    match p.breakable with
    | .terminate => do motionWrite p d; pure n
    | b =>
      tryCatch (do motionWrite p d; pure n) (fun e =>
        match e with
        | .outputClosed _ _ _ => pure (if b = .finish then n - 1 else n)
        | e => throw e)

/-- motion.rs:534-543: the spy record for one push. -/
def spyOne (spy : Option Nat) (data : IOW) (p : Push) : M Unit :=
  match spy, p.journey with
  | some c, some ⟨src, some port, dst, _⟩ => do
    let m : SpyMsg := { src := src, dst := dst, srcPort := port, msg := data }
    if ← ask (.send .spy c m) then pure () else throw (.spyWrite m)
  | _, _ => pure ()

/-- motion.rs:516-545: the `for push in pushs` loop. -/
def pushAll (data : IOW) (spy : Option Nat) : List Push → Nat → M Nat
  | [], n => pure n
  | p :: ps, n => do
    let n' ← writeOne data p n
    spyOne spy data p
    pushAll data spy ps n'

/-- motion.rs:497-510: the read notification. The `unwrap_or_else(panic)` concerns a pull without
journey, `Pull::None`. -/
def notifyRead (mon : Notifications) (pull : Pull) : M Unit :=
  match mon.read with
  | some c => do
    if ← ask (.send .mon c (.read 0)) then pure ()
    else match pull.journey with
      | some j => throw (.monitorRead j.src)
      | Option.none => throw .panic
  | Option.none => pure ()

/-- motion.rs:547-554: the written notification. -/
def notifyWritten (mon : Notifications) (pull : Pull) : M Unit :=
  match mon.written with
  | some c => do
    if ← ask (.send .mon c (.wrote 0)) then pure ()
    else match pull.journey with
      | some j => throw (.monitorWrite j)
      | Option.none => throw .panic
  | Option.none => pure ()

/-- motion.rs:490-561 `motion_worker`. -/
def motionWorker (pull : Pull) (mon : Notifications) (pushs : List Push) (spy : Option Nat)
    (doTry : Bool) : M WorkerResult := do
  let data ← motionRead pull doTry
  if data = .skipped then
    pure { finished := false, read := false }
  else do
    notifyRead mon pull
    let wasFinished := decide (data = .finished)
    let unfinished ← pushAll data spy pushs pushs.length
    notifyWritten mon pull
    if unfinished = 0 then pure { finished := true, read := true }
    else pure { finished := wasFinished, read := true }

/-- motion.rs:574-579: closing the outputs and notification channels at the end of `motion`. -/
def closeAll : List Push → M Unit
  | [] => pure ()
  | p :: ps => do
    motionClose p
    closeAll ps

def closeMon : Option Nat → M Unit
  | some c => ask (.close .mon c)
  | Option.none => pure ()

/-- motion.rs:564-585 `motion`, one round of its `loop`; the state is `read_count`. -/
def motionBody (pull : Pull) (mon : Notifications) (spy : Option Nat) (push : Push) (readCount : Nat) :
    Prog (Nat ⊕ Except MErr Nat) := do
  let r ← (do
    let r ← motionWorker pull mon [push] spy false
    let readCount := if r.read then readCount + 1 else readCount
    if r.finished then do
      closeAll [push]
      closeMon mon.read
      closeMon mon.written
      pure (Sum.inr (α := Nat) readCount)
    else pure (Sum.inl readCount) : M (Nat ⊕ Nat))
  match r with
  | .ok (.inl n) => pure (.inl n)
  | .ok (.inr n) => pure (.inr (.ok n))
  | .error e => pure (.inr (.error e))

end Verif
