import Verif.Model.Split
/-!
# Asynchronous code as programs over requests

An `async fn` of the Rust program is modelled by a `Prog`: a tree that issues a request to a channel
or to the operating system and continues with the response, or returns. Nothing is assumed here
about which responses come back: `Prog.Runs p tr a` says that `p`, given the responses recorded in
`tr`, returns `a`; theorems quantify over all `tr`, hence over everything other tasks can do while
this one is suspended.
-/
namespace Verif

/-- connectable.rs `Breakable` (the pipe variations C, F and T). -/
inductive Breakable where
  | consume | finish | terminate
  deriving Repr, DecidableEq

/-- connectable.rs `OutputPort`. -/
inductive OutputPort where
  | err | out | exit
  deriving Repr, DecidableEq

/-- motion.rs:17-21 `MonitorMessage`; the payload is always 0 in the code. -/
inductive MonMsg where
  | read (n : Nat)
  | wrote (n : Nat)
  deriving Repr, DecidableEq

/-- motion.rs:75-81 `SpyMessage`. -/
structure SpyMsg where
  src : Nat
  dst : Nat
  srcPort : OutputPort
  msg : IOW
  deriving Repr, DecidableEq

/-- The kinds of channels in the program: data pipes, regulator/faucet control, occupancy
notifications inside a buffer, spying, and buffer size reports. -/
inductive Kind where
  | data | ctl | mon | spy | size
  deriving Repr, DecidableEq

/-- What a channel of each kind carries. -/
@[reducible] def Kind.Payload : Kind → Type
  | .data => Bytes
  | .ctl => Unit
  | .mon => MonMsg
  | .spy => SpyMsg
  | .size => Nat

/-- Result of `try_recv` (async-channel). -/
inductive TryRes (α : Type) where
  | got (v : α)
  | empty
  | closed
  deriving Repr, DecidableEq

/-- Result of writing to a file, terminal or child process; motion.rs:422-427 distinguishes
`BrokenPipe` from the rest. -/
inductive IoRes where
  | ok
  | brokenPipe
  | other (e : Nat)
  deriving Repr, DecidableEq

/-- Result of reading one message from a byte stream; see `readStream` in `Verif.Model.Split`. -/
inductive StreamRes where
  | line (d : Bytes)
  | eof
  | err (e : Nat)
  deriving Repr, DecidableEq

/-- Result of `child.status()` (launch.rs): failed, exited with a code, or killed. -/
inductive StatusRes where
  | err
  | code (n : Int)
  | killed
  deriving Repr, DecidableEq

/-- Requests a task can make. Channels and I/O handles are numbered. -/
inductive Req where
  /-- `rd.recv().await` -/
  | recv (k : Kind) (c : Nat)
  /-- `rd.try_recv()` -/
  | tryRecv (k : Kind) (c : Nat)
  /-- `wr.send(v).await` -/
  | send (k : Kind) (c : Nat) (v : k.Payload)
  /-- `close()`, and dropping an end of a channel -/
  | close (k : Kind) (c : Nat)
  /-- `rd.is_empty()` and `rd.is_closed()` -/
  | stat (k : Kind) (c : Nat)
  /-- one framed message from a byte stream -/
  | streamRead (h : Nat)
  /-- `wr.write_all(..).await` -/
  | ioWrite (h : Nat) (d : Bytes)
  /-- `wr.flush().await` -/
  | ioFlush (h : Nat)
  /-- `task::sleep` -/
  | sleep (ms : Nat)
  /-- `child.status().await` -/
  | status

/-- The response to each request. `recv`: `none` when closed and drained; `send`: `false` when closed;
`stat`: empty?, closed?; `ioFlush`: `false` on error. -/
@[reducible] def Req.Resp : Req → Type
  | .recv k _ => Option k.Payload
  | .tryRecv k _ => TryRes k.Payload
  | .send _ _ _ => Bool
  | .close _ _ => Unit
  | .stat _ _ => Bool × Bool
  | .streamRead _ => StreamRes
  | .ioWrite _ _ => IoRes
  | .ioFlush _ => Bool
  | .sleep _ => Unit
  | .status => StatusRes

/-- A request together with the response it got. -/
structure Ev where
  q : Req
  r : q.Resp

inductive Prog (α : Type) : Type where
  | ret (a : α)
  | op (q : Req) (k : q.Resp → Prog α)

namespace Prog

def bind {α β : Type} : Prog α → (α → Prog β) → Prog β
  | ret a, f => f a
  | op q k, f => op q (fun r => bind (k r) f)

instance : Monad Prog where
  pure := ret
  bind := bind

/-- `p`, given the responses recorded in the trace, returns `b`. -/
def Runs {α : Type} : Prog α → List Ev → α → Prop
  | ret a, tr, b => tr = [] ∧ b = a
  | op q k, tr, b => ∃ r tr', tr = ⟨q, r⟩ :: tr' ∧ Runs (k r) tr' b

/-- The trace of an unfinished (or just finished) run of `p`. -/
def Partial {α : Type} : Prog α → List Ev → Prop
  | _, [] => True
  | ret _, _ :: _ => False
  | op q k, e :: tr => ∃ r, e = ⟨q, r⟩ ∧ Partial (k r) tr

end Prog

/-- Issue one request. -/
def req (q : Req) : Prog q.Resp := .op q .ret

/-- A loop (`loop { .. }`): `body s` either goes round again with a new state or leaves with a result. -/
inductive LoopRuns {σ ρ : Type} (body : σ → Prog (σ ⊕ ρ)) : σ → List Ev → ρ → Prop
  | stop {s tr r} : (body s).Runs tr (.inr r) → LoopRuns body s tr r
  | next {s s' tr tr' r} : (body s).Runs tr (.inl s') → LoopRuns body s' tr' r →
      LoopRuns body s (tr ++ tr') r

/-- Some number of complete rounds of a loop. -/
inductive LoopRounds {σ ρ : Type} (body : σ → Prog (σ ⊕ ρ)) : σ → List Ev → σ → Prop
  | nil {s} : LoopRounds body s [] s
  | next {s s' s'' tr tr'} : (body s).Runs tr (.inl s') → LoopRounds body s' tr' s'' →
      LoopRounds body s (tr ++ tr') s''

/-- The traces of all unfinished runs of a loop: some complete rounds and a part of one more. -/
def LoopPartial {σ ρ : Type} (body : σ → Prog (σ ⊕ ρ)) (s : σ) (tr : List Ev) : Prop :=
  ∃ s' tr₁ tr₂, LoopRounds body s tr₁ s' ∧ (body s').Partial tr₂ ∧ tr = tr₁ ++ tr₂

end Verif
