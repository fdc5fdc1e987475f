import Verif.Model.Manip
/-!
# `waiter.rs`: from a configuration to connected components

Components hold the ends of the channels they were given. A channel is known by the number it got when it was made (`bounded` makes one that is different from all others) and its
capacity. The `HashMap`s by component type are one table whose keys are type and name. What running a component does is modelled elsewhere.
-/
namespace Verif

/-- `HashMap<κ, α>` -/
abbrev Table (κ α : Type) := List (κ × α)

section
variable {κ α : Type} [DecidableEq κ]

def Table.get : Table κ α → κ → Option α
  | [], _ => none
  | (k, v) :: m, x => if k = x then some v else Table.get m x

/-- `insert(k, v)` -/
def Table.put (k : κ) (v : α) : Table κ α → Table κ α
  | [] => [(k, v)]
  | (k', v') :: m => if k' = k then (k, v) :: m else (k', v') :: Table.put k v m

/-- `entry(k).or_insert(v)` -/
def Table.orInsert (k : κ) (v : α) (m : Table κ α) : Table κ α := if (m.get k).isSome then m else m.put k v
end

/-- Type and name of a component. -/
abbrev CompRef := ComponentType × Str

/-- motion.rs:93-98 `Journey`, with the channel of `Push::IoSender`. -/
structure PushEnd where
  src : Nat
  port : OutputPort
  dst : Nat
  breakable : Breakable
  chan : Nat
  cap : Nat
  deriving Repr, DecidableEq

/-- motion.rs:113-116 `PullJourney`, with the channel of `Pull::Receiver`. -/
structure PullEnd where
  src : Nat
  dst : Nat
  chan : Nat
  deriving Repr, DecidableEq

/-- connectable.rs:60-64 -/
inductive AddOutputError
  | alreadyAllocated (p : OutputPort)
  | unsupportedPort (p : OutputPort)
  deriving Repr, DecidableEq

/-- connectable.rs:66-71 -/
inductive AddInputError
  | alreadyAllocated
  | unsupportedPriority (p : Int)
  | unsupportedForControl
  deriving Repr, DecidableEq

/-- The fields set before the start, of faucet.rs:18-26, launch.rs:22-41, junction.rs:20-28, buffer.rs:23-28, drain.rs:16-20 and regulator.rs:15-21.
Of the launch, what `Launch::new` is given (launch.rs:107-127). A control, and a size monitor, is only whether it was handed out. -/
inductive Comp
  | faucet (source : Str) (stdout : Option PushEnd)
  | launch (id : Nat) (env : Option (Map Str)) (path : Option Str) (command : Str) (arg : Option (List Str))
      (stdin : Option PullEnd) (stdout stderr exit : Option PushEnd)
  | junction (inputs : List (PullEnd × Int)) (outputs : List PushEnd)
  | buffer (stdin : Option PullEnd) (stdout : Option PushEnd) (monitored : Bool)
  | drain (destination : Str) (stdin : Option PullEnd)
  | regulator (stdin : Option PullEnd) (stdout : Option PushEnd) (controlled : Bool)
  deriving Repr, DecidableEq

/-- `Connectable::add_output`: faucet.rs:64-76, launch.rs:53-79, junction.rs:145-149, buffer.rs:33-38, drain.rs:37-39, regulator.rs:63-74.
`chan` is the number of the channel it makes. -/
def Comp.addOutput (port : OutputPort) (breakable : Breakable) (src dst chan : Nat) : Comp → Except AddOutputError Comp
  | .faucet s out =>
    if port ≠ .out then .error (.unsupportedPort port)
    else if out.isSome then .error (.alreadyAllocated port)
    else .ok (.faucet s (some ⟨src, port, dst, breakable, chan, 8⟩))
  | .launch id env path cmd arg inp out err exit => match port with
    | .err =>
      if err.isSome then .error (.alreadyAllocated .err)
      else .ok (.launch id env path cmd arg inp out (some ⟨src, port, dst, breakable, chan, 1⟩) exit)
    | .exit =>
      if exit.isSome then .error (.alreadyAllocated .exit)
      else .ok (.launch id env path cmd arg inp out err (some ⟨src, port, dst, breakable, chan, 1⟩))
    | .out =>
      if out.isSome then .error (.alreadyAllocated .out)
      else .ok (.launch id env path cmd arg inp (some ⟨src, port, dst, breakable, chan, 1⟩) err exit)
  | .junction ins outs => .ok (.junction ins (outs ++ [⟨src, .out, dst, breakable, chan, 8⟩]))
  | .buffer inp out mon =>
    if out.isSome then .error (.alreadyAllocated port)
    else .ok (.buffer inp (some ⟨src, port, dst, breakable, chan, 8⟩) mon)
  | .drain .. => .error (.unsupportedPort port)
  | .regulator inp out ctl =>
    if port ≠ .out then .error (.unsupportedPort port)
    else if out.isSome then .error (.alreadyAllocated port)
    else .ok (.regulator inp (some ⟨src, port, dst, breakable, chan, 8⟩) ctl)

/-- `Connectable::add_input`: faucet.rs:78-80, launch.rs:83-92, junction.rs:151-154, buffer.rs:40-49, drain.rs:41-50, regulator.rs:76-85 -/
def Comp.addInput (pull : PullEnd) (priority : Int) : Comp → Except AddInputError Comp
  | .faucet .. => .error .unsupportedForControl
  | .launch id env path cmd arg inp out err exit =>
    if priority ≠ 0 then .error (.unsupportedPriority priority)
    else if inp.isSome then .error .alreadyAllocated
    else .ok (.launch id env path cmd arg (some pull) out err exit)
  | .junction ins outs => .ok (.junction (ins ++ [(pull, priority)]) outs)
  | .buffer inp out mon =>
    if priority ≠ 0 then .error (.unsupportedPriority priority)
    else if inp.isSome then .error .alreadyAllocated
    else .ok (.buffer (some pull) out mon)
  | .drain d inp =>
    if priority ≠ 0 then .error (.unsupportedPriority priority)
    else if inp.isSome then .error .alreadyAllocated
    else .ok (.drain d (some pull))
  | .regulator inp out ctl =>
    if priority ≠ 0 then .error (.unsupportedPriority priority)
    else if inp.isSome then .error .alreadyAllocated
    else .ok (.regulator (some pull) out ctl)

/-- waiter.rs:20-25 `FaucetSettings` -/
structure Watch where
  low : Nat
  high : Nat
  buffers : List Str
  deriving Repr, DecidableEq

/-- waiter.rs:102-113. The table from identities back to components is an `Option` that is only emptied after everything is built. `chans` counts the channels made. -/
structure Waiter where
  comps : Table CompRef Comp
  settings : Map Watch
  id : Nat
  ids : Table CompRef Nat
  names : Table Nat CompRef
  chans : Nat
  deriving Repr, DecidableEq

/-- waiter.rs:173-193 `Waiter::new` -/
def Waiter.new : Waiter := ⟨[], [], 0, [], [], 0⟩

/-- waiter.rs:196-207 `incr_id` -/
def Waiter.incrId (w : Waiter) (r : CompRef) : Nat × Waiter :=
  (w.id, { w with names := w.names.put w.id r, ids := w.ids.orInsert r w.id, id := w.id + 1 })

/-- waiter.rs:210-212 `get_id` -/
def Waiter.getId (w : Waiter) (r : CompRef) : Option Nat := w.ids.get r

/-- The identity of a component that has one. -/
def Waiter.idOf (w : Waiter) (r : CompRef) : Nat := (w.getId r).getD 0

/-- connectable.rs:80-86 `ConnectableError` -/
inductive ConnectableError
  | addInput (id : Nat) (e : AddInputError)
  | addOutput (id : Nat) (e : AddOutputError)
  | couldNotFindSource (id : Nat)
  | couldNotFindDestination (id : Nat)
  deriving Repr, DecidableEq

/-- A component under an identity, with its type and name. -/
def Waiter.compOf (w : Waiter) (id : Nat) : Option (CompRef × Comp) :=
  match w.names.get id with
  | none => none
  | some r => match w.comps.get r with
    | none => none
    | some c => some (r, c)

/-- waiter.rs:215-244 `get_src_pull` -/
def Waiter.getSrcPull (w : Waiter) (src dst : Nat) (port : OutputPort) (breakable : Breakable) : Except ConnectableError (PullEnd × Waiter) :=
  match w.compOf src with
  | none => .error (.couldNotFindSource src)
  | some (r, c) => match c.addOutput port breakable src dst w.chans with
    | .error e => .error (.addOutput src e)
    | .ok c' => .ok (⟨src, dst, w.chans⟩, { w with comps := w.comps.put r c', chans := w.chans + 1 })

/-- The second half of `join` -/
def Waiter.giveInput (w : Waiter) (dst : Nat) (pull : PullEnd) (priority : Int) : Except ConnectableError Waiter :=
  match w.compOf dst with
  | none => .error (.couldNotFindDestination dst)
  | some (r, c) => match c.addInput pull priority with
    | .error e => .error (.addInput dst e)
    | .ok c' => .ok { w with comps := w.comps.put r c' }

/-- waiter.rs:253-286 `join` -/
def Waiter.join (w : Waiter) (src : Nat) (port : OutputPort) (dst : Nat) (input : InputPort) : Except ConnectableError Waiter :=
  match w.getSrcPull src dst port input.breakable with
  | .error e => .error e
  | .ok (pull, w') => w'.giveInput dst pull input.priority

/-- waiter.rs:312-324 `configure_regulator`; the answer is not looked at by the caller. -/
def Waiter.configureRegulator (w : Waiter) (name : Str) (buffers : List Str) (low high : Nat) : Waiter :=
  if buffers.all (fun b => (w.comps.get (.buffer, b)).isSome) && (w.comps.get (.regulator, name)).isSome
  then { w with settings := w.settings.put name ⟨low, high, buffers⟩ } else w

/-- The errors of `get_waiter`, which it writes as strings (`WireError.text`). -/
inductive WireError
  | noCommand (launch : Str)
  | noLaunchConfig (launch : Str)
  | addInput (r : CompRef) (e : AddInputError)
  | addOutput (r : CompRef) (e : AddOutputError)
  | missingSource (id : Nat)
  | missingDestination (id : Nat)
  deriving Repr, DecidableEq

/-- An abort is `panic`. -/
inductive Built (α : Type)
  | ok (a : α)
  | err (e : WireError)
  | panic
  deriving Repr, DecidableEq

/-- waiter.rs:506-513: `Launch::new` as it is called -/
def newLaunch (id : Nat) (cfg : LaunchConfig) (cmd : Str) : Comp :=
  .launch id (if cfg.env.isEmpty then none else some cfg.env) cfg.path cmd (if cfg.arg.isEmpty then none else some cfg.arg) none none none none

/-- waiter.rs:474-520 `constructor`; the launches are those whose configuration was not yet taken out. -/
def construct (c : Config) (launches : Map LaunchConfig) (w : Waiter) (r : CompRef) : Built (Nat × Waiter × Map LaunchConfig) :=
  match w.incrId r with
  | (id, w) => match r.1 with
    | .faucet => .ok (id, { w with comps := w.comps.put r (.faucet ((c.faucet.get r.2).getD []) none) }, launches)
    | .drain => .ok (id, { w with comps := w.comps.put r (.drain ((c.drain.get r.2).getD []) none) }, launches)
    | .regulator => .ok (id, { w with comps := w.comps.put r (.regulator none none false) }, launches)
    | .buffer => .ok (id, { w with comps := w.comps.put r (.buffer none none false) }, launches)
    | .junction => .ok (id, { w with comps := w.comps.put r (.junction [] []) }, launches)
    | .launch => match launches.get r.2 with
      | none => .err (.noLaunchConfig r.2)
      | some cfg => match cfg.command with
        | none => .err (.noCommand r.2)
        | some cmd => .ok (id, { w with comps := w.comps.put r (newLaunch id cfg cmd) }, launches.erase r.2)

/-- waiter.rs:433-454 `get_create_spec`: the ports. -/
def Connection.inputPort : Connection → Option InputPort
  | .middle _ _ i _ _ => some i
  | .start .. => none
  | .end _ _ i _ => some i

def Connection.outputPort : Connection → Option OutputPort
  | .middle _ _ _ o _ => some o
  | .start _ _ o _ => some o
  | .end .. => none

/-- waiter.rs:544-566: the error of `join`, by name -/
def wireError (w : Waiter) : ConnectableError → WireError
  | .addInput id e => match w.names.get id with
    | some r => .addInput r e
    | none => .missingDestination id
  | .addOutput id e => match w.names.get id with
    | some r => .addOutput r e
    | none => .missingSource id
  | .couldNotFindSource id => .missingSource id
  | .couldNotFindDestination id => .missingDestination id

/-- The state of the loop of `get_waiter` (waiter.rs:523-576). -/
structure WireState where
  waiter : Waiter
  launches : Map LaunchConfig
  last : Option (Nat × OutputPort)

/-- waiter.rs:528-537 -/
def findOrConstruct (c : Config) (s : WireState) (r : CompRef) : Built (Nat × Waiter × Map LaunchConfig) :=
  match s.waiter.getId r with
  | some id => .ok (id, s.waiter, s.launches)
  | none => construct c s.launches s.waiter r

/-- waiter.rs:539-570: joining to what came before -/
def joinLast (w : Waiter) (last : Option (Nat × OutputPort)) (dst : Nat) (input : Option InputPort) : Built Waiter :=
  match last with
  | none => .ok w
  | some (src, port) => match input with
    | none => .panic
    | some i => match w.join src port dst i with
      | .ok w => .ok w
      | .error e => .err (wireError w e)

/-- waiter.rs:572-575 -/
def nextLast (dst : Nat) : Option OutputPort → Option (Nat × OutputPort)
  | some p => some (dst, p)
  | none => none

/-- One round of the loop, waiter.rs:524-576. -/
def wireStep (c : Config) (s : WireState) (x : Connection) : Built WireState :=
  match findOrConstruct c s (x.ty, x.name) with
  | .err e => .err e
  | .panic => .panic
  | .ok (dst, w, launches) => match joinLast w s.last dst x.inputPort with
    | .err e => .err e
    | .panic => .panic
    | .ok w => .ok ⟨w, launches, nextLast dst x.outputPort⟩

def wireAll (c : Config) : WireState → List Connection → Built WireState
  | s, [] => .ok s
  | s, x :: xs => match wireStep c s x with
    | .ok s => wireAll c s xs
    | .err e => .err e
    | .panic => .panic

/-- waiter.rs:459-470: all connections, none for the abort on a connection string. -/
def allConnections : Map DConn → Option (List Connection)
  | [] => some []
  | (_, .join _) :: _ => none
  | (_, .conns l) :: m => match allConnections m with
    | none => none
    | some r => some (l ++ r)

/-- waiter.rs:578-582, one regulator -/
def configureOne (w : Waiter) (x : Str × RegulatorConfig) : Waiter :=
  match x.2.buffered with
  | none => w
  | some b => w.configureRegulator x.1 x.2.monitored b.1 b.2

/-- waiter.rs:457-586 `get_waiter` -/
def getWaiter (c : Config) : Built Waiter :=
  match allConnections c.connection with
  | none => .panic
  | some l => match wireAll c ⟨Waiter.new, c.launch, none⟩ l with
    | .err e => .err e
    | .panic => .panic
    | .ok s => .ok (c.regulator.foldl configureOne s.waiter)

end Verif
