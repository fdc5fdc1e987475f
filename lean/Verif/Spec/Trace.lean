import Verif.Model.Motion
/-!
# Specification: what an observer sees of a run

A plain, non-dependent view of the events of a trace, and projections of traces used to state the
properties of the data-moving code.
-/
namespace Verif

/-- One end of a pipe: a channel or an I/O handle. -/
inductive End where
  | chan (c : Nat)
  | handle (h : Nat)
  deriving Repr, DecidableEq

/-- What became of a write. -/
inductive WOut where
  | ok
  | closed (why : ClosedReason)
  | other (e : Nat)
  deriving Repr, DecidableEq

/-- What an observer sees of one event. -/
inductive Act where
  /-- a message was received -/
  | got (s : End) (d : Bytes)
  /-- an input reported its end -/
  | ended (s : End)
  /-- an input was polled and had nothing -/
  | empty (s : End)
  | readErr (h : Nat) (e : Nat)
  /-- a message was written, with this outcome -/
  | offer (t : End) (d : Bytes) (w : WOut)
  | spy (c : Nat) (m : SpyMsg) (ok : Bool)
  | mon (c : Nat) (m : MonMsg) (ok : Bool)
  | close (k : Kind) (c : Nat)
  | flush (h : Nat) (ok : Bool)
  | sleep (ms : Nat)
  /-- a control request was looked for: found, not there, or channel closed -/
  | ctlTry (c : Nat) (r : TryRes Unit)
  /-- a control request was waited for: came, or channel closed -/
  | ctlWait (c : Nat) (r : Option Unit)
  | other
  deriving Repr, DecidableEq

def act : Ev → Act
  | ⟨.recv .data c, some d⟩ => .got (.chan c) d
  | ⟨.recv .data c, none⟩ => .ended (.chan c)
  | ⟨.tryRecv .data c, .got d⟩ => .got (.chan c) d
  | ⟨.tryRecv .data c, .closed⟩ => .ended (.chan c)
  | ⟨.tryRecv .data c, .empty⟩ => .empty (.chan c)
  | ⟨.streamRead h, .line d⟩ => .got (.handle h) d
  | ⟨.streamRead h, .eof⟩ => .ended (.handle h)
  | ⟨.streamRead h, .err e⟩ => .readErr h e
  | ⟨.send .data c d, b⟩ => .offer (.chan c) d (if b = true then .ok else .closed .channelClosed)
  | ⟨.ioWrite h d, .ok⟩ => .offer (.handle h) d .ok
  | ⟨.ioWrite h d, .brokenPipe⟩ => .offer (.handle h) d (.closed .brokenPipe)
  | ⟨.ioWrite h d, .other e⟩ => .offer (.handle h) d (.other e)
  | ⟨.send .spy c m, b⟩ => .spy c m b
  | ⟨.send .mon c m, b⟩ => .mon c m b
  | ⟨.close k c, _⟩ => .close k c
  | ⟨.ioFlush h, b⟩ => .flush h b
  | ⟨.sleep n, _⟩ => .sleep n
  | ⟨.tryRecv .ctl c, r⟩ => .ctlTry c r
  | ⟨.recv .ctl c, r⟩ => .ctlWait c r
  | _ => .other

def acts (tr : List Ev) : List Act := tr.map act

/-- The messages received, in order. -/
def received (tr : List Ev) : List Bytes :=
  (acts tr).filterMap fun | .got _ d => some d | _ => none

/-- The messages received from one input, in order. -/
def receivedFrom (s : End) (tr : List Ev) : List Bytes :=
  (acts tr).filterMap fun | .got s' d => if s' = s then some d else none | _ => none

/-- How many times some input reported its end. -/
def endings (tr : List Ev) : Nat :=
  (acts tr).countP fun | .ended _ => true | _ => false

structure Offer where
  to : End
  d : Bytes
  w : WOut
  deriving Repr, DecidableEq

/-- All writes, in order, with their outcomes. -/
def offers (tr : List Ev) : List Offer :=
  (acts tr).filterMap fun | .offer t d w => some ⟨t, d, w⟩ | _ => none

/-- The messages written to one output, in order, whatever the outcome. -/
def offeredTo (t : End) (tr : List Ev) : List Bytes :=
  (offers tr).filterMap fun o => if o.to = t then some o.d else none

/-- The messages accepted by one output, in order. -/
def acceptedBy (t : End) (tr : List Ev) : List Bytes :=
  (offers tr).filterMap fun o => if o.to = t ∧ o.w = .ok then some o.d else none

/-- The spy records sent, in order. -/
def spied (tr : List Ev) : List SpyMsg :=
  (acts tr).filterMap fun | .spy _ m _ => some m | _ => none

/-- The notifications sent on channel `c`, in order. -/
def notified (c : Nat) (tr : List Ev) : List MonMsg :=
  (acts tr).filterMap fun | .mon c' m _ => if c' = c then some m else none | _ => none

/-- The channels closed, in order. -/
def closings (tr : List Ev) : List (Kind × Nat) :=
  (acts tr).filterMap fun | .close k c => some (k, c) | _ => none

/-- Where a push writes to. -/
def Push.target : Push → Option End
  | .none => Option.none
  | .sender _ c => some (.chan c)
  | .io _ h => some (.handle h)

/-- Where a pull reads from. -/
def Pull.source : Pull → Option End
  | .none => Option.none
  | .receiver _ c => some (.chan c)
  | .stream _ h => some (.handle h)

/-- Give each output the outcome of its write; an unconnected output always accepts. The list ends
where the outcomes do. -/
def outcomes : List Push → List WOut → List (Push × WOut)
  | [], _ => []
  | .none :: ps, ws => (.none, .ok) :: outcomes ps ws
  | _ :: _, [] => []
  | p :: ps, w :: ws => (p, w) :: outcomes ps ws

end Verif
