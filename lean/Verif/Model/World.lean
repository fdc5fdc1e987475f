import Verif.Model.Runtime
import Verif.Model.Source
/-!
# Programs and the pipes to them

The surroundings of `Launch::start` (launch.rs:152-208): the program runs as a process of its own, each of its connected streams is a pipe (`Stdio::piped()`), each other one is
`Stdio::null()`. This is not code of the repository but what it relies on. A pipe holds a limited number of bytes. `write_all` of a message may go into the pipe bit by bit, and the program may read
some of it before the write is complete; reading a line may take several `read`s. A program is anything that, depending on what has happened to it so far, wants to read, to write, to close one of its streams,
to go on without any of that, or to end. It waits for nothing but its pipes. There are no signals: writing into a pipe that nobody reads is refused, and the program goes on.
-/
namespace Verif

/-- The two streams a program prints to. -/
inductive Port where
  | out | err
  deriving Repr, DecidableEq

def Port.piece : Port → Piece
  | .out => .output
  | .err => .error

/-- What happens to a program. -/
inductive PEv where
  /-- it has read some bytes -/
  | took (d : Bytes)
  /-- it has read the end of its input, or has tried to read what it has closed -/
  | sawEnd
  /-- it has written some bytes -/
  | put (p : Port) (d : Bytes)
  /-- it could not write because nobody reads, or because it has closed that stream -/
  | refused (p : Port)
  | shutIn
  | shut (p : Port)
  | thought
  /-- it ends, with an exit code or killed -/
  | exit (c : Option Int)
  deriving Repr, DecidableEq

/-- What a program wants to do next. -/
inductive Wish where
  | read
  | write (p : Port) (d : Bytes)
  | shutIn
  | shut (p : Port)
  | think
  | exit (c : Option Int)
  deriving Repr, DecidableEq

/-- A program: what it wants, after all that has happened to it. -/
abbrev Program := List PEv → Wish

/-- The outcomes of a wish. A write may be partial. -/
inductive Wish.Allows : Wish → PEv → Prop
  | took {d : Bytes} : d ≠ [] → Wish.Allows .read (.took d)
  | sawEnd : Wish.Allows .read .sawEnd
  | put {p : Port} {d m : Bytes} : d <+: m → (m ≠ [] → d ≠ []) → Wish.Allows (.write p m) (.put p d)
  | refused {p : Port} {m : Bytes} : Wish.Allows (.write p m) (.refused p)
  | shutIn : Wish.Allows .shutIn .shutIn
  | shut {p : Port} : Wish.Allows (.shut p) (.shut p)
  | think : Wish.Allows .think .thought
  | exit {c : Option Int} : Wish.Allows (.exit c) (.exit c)

/-- A program has ended. -/
def Exited (l : List PEv) : Prop := ∃ c, .exit c ∈ l

/-- A program reads no more. -/
def ShutIn (l : List PEv) : Prop := .shutIn ∈ l ∨ Exited l

/-- A program writes no more. -/
def Shut (p : Port) (l : List PEv) : Prop := .shut p ∈ l ∨ Exited l

/-- The bytes a program has read. -/
def takenIn (l : List PEv) : Bytes := l.flatMap fun
  | .took d => d
  | _ => []

/-- The bytes a program has written. -/
def putOut (p : Port) (l : List PEv) : Bytes := l.flatMap fun
  | .put q d => if q = p then d else []
  | _ => []

/-- All that can happen: an activity makes a step, a part of the message that is being written to a program enters the pipe, a part of what a program has written is read from the pipe, or something happens to a
program. -/
inductive Happening where
  | core (i : Who) (e : Ev)
  | feed (x : Str) (d : Bytes)
  | draw (x : Str) (p : Port) (d : Bytes)
  | prog (x : Str) (e : PEv)

/-- The steps of the activities. -/
def coreOf (T : List Happening) : List (Who × Ev) := T.filterMap fun
  | .core i e => some (i, e)
  | _ => none

/-- What has happened to a program. -/
def historyOf (x : Str) (T : List Happening) : List PEv := T.filterMap fun
  | .prog y e => if y = x then some e else none
  | _ => none

/-- What has gone into the pipe to a program. -/
def fedTo (x : Str) (T : List Happening) : Bytes := T.flatMap fun
  | .feed y d => if y = x then d else []
  | _ => []

/-- The chunks read from a program. -/
def drawnFrom (x : Str) (p : Port) (T : List Happening) : List Bytes := T.filterMap fun
  | .draw y q d => if y = x ∧ q = p then some d else none
  | _ => none

/-- What is in the pipe to a program. -/
def inPipe (x : Str) (T : List Happening) : Bytes := (fedTo x T).drop (takenIn (historyOf x T)).length

/-- What is in the pipe from a program. -/
def outPipe (x : Str) (p : Port) (T : List Happening) : Bytes := (putOut p (historyOf x T)).drop (drawnFrom x p T).flatten.length

/-- launch.rs:197, 213, 229: a relay of a launch has ended, or there is none. When it has, its end of the pipe is closed (it is dropped with the `Push` or `Pull`). -/
def Waiter.RelayOver (w : Waiter) (cs : List Capture) (τ : List (Who × Ev)) (x : Str) (p : Piece) : Prop :=
  ∀ t, w.sys cs (.part (.launch, x) p) = some t → t.Done (proj (.part (.launch, x) p) τ)

/-- The bytes of whole messages that a program has been given. -/
def Waiter.given (w : Waiter) (T : List Happening) (x : Str) : Bytes :=
  (acceptedBy (.handle (childOf (w.idOf (.launch, x))).stdin) (proj (.part (.launch, x) .input) (coreOf T))).flatten

/-- What of the message that is being written has already gone into the pipe. -/
def Waiter.begun (w : Waiter) (T : List Happening) (x : Str) : Bytes := (fedTo x T).drop (w.given T x).length

/-- The stream of a port. -/
def Waiter.portOf (w : Waiter) (x : Str) : Port → Nat
  | .out => (childOf (w.idOf (.launch, x))).stdout
  | .err => (childOf (w.idOf (.launch, x))).stderr

/-- launch.rs:236-245: `ExitStatus::code` is `None` for a process that was killed. -/
def statusOf : Option Int → StatusRes
  | some n => .code n
  | none => .killed

/-- What pipes and programs answer to an activity. motion.rs:387-413, 454-470; launch.rs:235 -/
structure Waiter.Answered (w : Waiter) (T : List Happening) (i : Who) (e : Ev) : Prop where
  /-- A write is complete when all of the message is in the pipe; it fails when the program reads no more. -/
  write : ∀ x h d r, i = .part (.launch, x) .input → e = ⟨.ioWrite h d, r⟩ → r = .ok ∧ w.begun T x = d ∨ r = .brokenPipe ∧ ShutIn (historyOf x T)
  /-- There is nothing to flush. -/
  flush : ∀ x h r, i = .part (.launch, x) .input → e = ⟨.ioFlush h, r⟩ → r = true
  /-- A line is read when it has come completely, or when there is nothing more to come. -/
  read : ∀ x p h r, i = .part (.launch, x) p.piece → e = ⟨.streamRead h, r⟩ → ReadsFrom h (drawnFrom x p T) (proj i (coreOf T) ++ [e]) ∧
    ((∃ d, r = .line (d ++ [10])) ∨ Shut p (historyOf x T) ∧ outPipe x p T = [])
  /-- The exit status is known when the program has ended. -/
  status : ∀ x r, i = .part (.launch, x) .exit → e = ⟨.status, r⟩ → ∃ c, .exit c ∈ historyOf x T ∧ r = statusOf c

/-- What a program can read and write. -/
def Waiter.Serves (w : Waiter) (cs : List Capture) (room : Nat) (T : List Happening) (x : Str) : PEv → Prop
  | .took d => ¬ ShutIn (historyOf x T) ∧ d <+: inPipe x T
  | .sawEnd => ShutIn (historyOf x T) ∨ inPipe x T = [] ∧ w.RelayOver cs (coreOf T) x .input
  | .put p d => ¬ Shut p (historyOf x T) ∧
      (w.sys cs (.part (.launch, x) p.piece) = none ∨ ¬ w.RelayOver cs (coreOf T) x p.piece ∧ (outPipe x p T).length + d.length ≤ room)
  | .refused p => Shut p (historyOf x T) ∨ w.sys cs (.part (.launch, x) p.piece) ≠ none ∧ w.RelayOver cs (coreOf T) x p.piece
  | _ => True

/-- What can happen next, pipes having room for `room` bytes, the program of launch `x` being `prog x`. -/
inductive Waiter.Next (w : Waiter) (cs : List Capture) (cap : Caps) (room : Nat) (prog : Str → Program) (T : List Happening) : Happening → Prop
  | core {i : Who} {e : Ev} : w.Run cs cap (coreOf T ++ [(i, e)]) → w.Answered T i e → w.Next cs cap room prog T (.core i e)
  | feed {x : Str} {d m : Bytes} {t : Task} {h : Nat} : w.sys cs (.part (.launch, x) .input) = some t → t.Awaits (proj (.part (.launch, x) .input) (coreOf T)) (.ioWrite h m) →
      w.begun T x ++ d <+: m → d ≠ [] → ¬ ShutIn (historyOf x T) → (inPipe x T).length + d.length ≤ room → w.Next cs cap room prog T (.feed x d)
  | draw {x : Str} {p : Port} {d : Bytes} {t : Task} {h : Nat} : w.sys cs (.part (.launch, x) p.piece) = some t → t.Awaits (proj (.part (.launch, x) p.piece) (coreOf T)) (.streamRead h) →
      d <+: outPipe x p T → d ≠ [] → w.Next cs cap room prog T (.draw x p d)
  | prog {x : Str} {e : PEv} : w.comps.get (.launch, x) ≠ none → ¬ Exited (historyOf x T) → (prog x (historyOf x T)).Allows e → w.Serves cs room T x e →
      w.Next cs cap room prog T (.prog x e)

/-- What can happen after `start`, programs and pipes included. -/
inductive Waiter.WorldRun (w : Waiter) (cs : List Capture) (cap : Caps) (room : Nat) (prog : Str → Program) : List Happening → Prop
  | start : w.WorldRun cs cap room prog []
  | next {T : List Happening} {a : Happening} : w.WorldRun cs cap room prog T → w.Next cs cap room prog T a → w.WorldRun cs cap room prog (T ++ [a])

end Verif
