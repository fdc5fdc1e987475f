import Verif.Model.Maps
import Verif.Model.Parser
/-!
# `/repo/src/config.rs` lines 67-110, 198-599: the configuration, editing it, and lint
-/
namespace Verif

/-- config.rs:67-76 -/
structure LaunchConfig where
  command : Option Str
  path : Option Str
  env : Map Str
  arg : List Str
  deriving Repr, DecidableEq

/-- config.rs:93-98 -/
structure RegulatorConfig where
  buffered : Option (Nat × Nat)
  monitored : List Str
  deriving Repr, DecidableEq

/-- config.rs:198-208. `FaucetConfig` (88-90) and `DrainConfig` (102-105) have one field, a string, and are that string. -/
structure Config where
  faucet : Map Str
  regulator : Map RegulatorConfig
  drain : Map Str
  launch : Map LaunchConfig
  connection : Map DConn
  deriving Repr, DecidableEq

/-- config.rs:370-381 -/
def setWatermark (c : Config) (id : Str) (min max : Nat) : Config :=
  let new : RegulatorConfig := if min > max then ⟨some (max, min), []⟩ else ⟨some (min, max), []⟩
  { c with regulator := c.regulator.entry (fun x => { x with buffered := new.buffered }) new id }

/-- config.rs:383-388 -/
def setSource (c : Config) (id : Str) (src : Str) : Config :=
  { c with faucet := c.faucet.entry (fun _ => src) src id }

/-- config.rs:390-396 -/
def setDestination (c : Config) (id : Str) (dst : Str) : Config :=
  { c with drain := c.drain.entry (fun _ => dst) dst id }

/-- config.rs:398-403 -/
def connectionJoin (c : Config) (id : Str) (d : DConn) : Config :=
  { c with connection := c.connection.sortedEntry (fun _ => d) d id }

/-- config.rs:405-410 -/
def setCommand (c : Config) (id : Str) (command : Str) : Config :=
  { c with launch := c.launch.entry (fun x => { x with command := some command }) ⟨some command, none, [], []⟩ id }

/-- config.rs:411-416 -/
def setPath (c : Config) (id : Str) (path : Str) : Config :=
  { c with launch := c.launch.entry (fun x => { x with path := some path }) ⟨none, some path, [], []⟩ id }

/-- config.rs:418-423 -/
def setArgs (c : Config) (id : Str) (args : List Str) : Config :=
  { c with launch := c.launch.entry (fun x => { x with arg := args }) ⟨none, none, [], args⟩ id }

/-- config.rs:425-430 -/
def setEnv (c : Config) (id : Str) (env : Map Str) : Config :=
  { c with launch := c.launch.entry (fun x => { x with env := env }) ⟨none, none, env, []⟩ id }

/-- config.rs:212-217 -/
inductive LintWarning where
  | regulatorWatchingMissingBuffer (section_ : Str) (ty : ComponentType) (name : Str)
  | inConfigButMissingFlowConnection (section_ : Str) (ty : ComponentType) (name : Str)
  | inFlowConnectionButMissingConfig (ty : ComponentType) (name : Str)
  | invalidConnection (id : Str) (join : Str)
  deriving Repr, DecidableEq

/-- config.rs:442-466 `convert_connections` with 432-440 `connections_mapper`: the new map and the warnings; `none` is a panic of the
parser. The warnings are a `HashSet`: only what is in the list matters. -/
def convertConnections : Map DConn → Option (Map DConn × List LintWarning)
  | [] => some ([], [])
  | (k, .conns l) :: m => (convertConnections m).map fun r => ((k, .conns l) :: r.1, r.2)
  | (k, .join s) :: m =>
    match loadConnection s with
    | .ok l => (convertConnections m).map fun r => ((k, .conns l) :: r.1, r.2)
    | .parseError => (convertConnections m).map fun r => ((k, .join s) :: r.1, .invalidConnection k s :: r.2)
    | .panic => none

/-- config.rs:359-368 -/
def DConn.toList : DConn → List Connection
  | .join _ => []
  | .conns l => l

/-- config.rs:31-55 -/
def ComponentType.fromStr (s : Str) : Option ComponentType :=
  if s = "faucet".toList then some .faucet
  else if s = "launch".toList then some .launch
  else if s = "drain".toList then some .drain
  else if s = "regulator".toList then some .regulator
  else if s = "buffer".toList then some .buffer
  else if s = "junction".toList then some .junction
  else if s = "Faucet".toList then some .faucet
  else if s = "Launch".toList then some .launch
  else if s = "Drain".toList then some .drain
  else if s = "Regulator".toList then some .regulator
  else if s = "Buffer".toList then some .buffer
  else if s = "Junction".toList then some .junction
  else if s = "FAUCET".toList then some .faucet
  else if s = "LAUNCH".toList then some .launch
  else if s = "DRAIN".toList then some .drain
  else if s = "REGULATOR".toList then some .regulator
  else if s = "BUFFER".toList then some .buffer
  else if s = "JUNCTION".toList then some .junction
  else none

/-- config.rs:477-485 `string_to_component_type`; `none` is the panic. -/
def lintType (s : Str) : Option ComponentType :=
  match ComponentType.fromStr s with
  | some .faucet => some .faucet
  | some .launch => some .launch
  | some .drain => some .drain
  | some .regulator => some .regulator
  | _ => none

/-- config.rs:487-492 -/
def registered (c : Config) : Map (List Str) :=
  [("regulator".toList, c.regulator.keys), ("drain".toList, c.drain.keys), ("faucet".toList, c.faucet.keys),
   ("launch".toList, c.launch.keys)]

/-- config.rs:494-502 -/
def regulatorBuffers (c : Config) : List (Str × Str) :=
  c.regulator.foldl (fun acc kv => acc ++ kv.2.monitored.map fun mb => (kv.1, mb)) []

/-- config.rs:505-519 -/
def knownComponents (c : Config) : List (ComponentType × Str) :=
  c.connection.foldl (fun acc kd => acc ++ kd.2.toList.map fun x => (x.ty, x.name)) []

/-- config.rs:530 -/
def monitoredSection (regulator : Str) : Str :=
  "regulator[\"".toList ++ regulator ++ "\"].monitored_buffers".toList

/-- config.rs:521-535 -/
def lintMonitored (c : Config) (known : List (ComponentType × Str)) : List LintWarning :=
  (regulatorBuffers c).filterMap fun rb =>
    if known.contains (.buffer, rb.2) then none
    else some (.regulatorWatchingMissingBuffer (monitoredSection rb.1) .buffer rb.2)

/-- config.rs:538-558; `none` is the panic. -/
def lintRegistered (known : List (ComponentType × Str)) : Map (List Str) → Option (List LintWarning)
  | [] => some []
  | (key, names) :: m =>
    match lintType key, lintRegistered known m with
    | some ty, some ws => some (names.filterMap (fun n =>
        if known.contains (ty, n) then none else some (.inConfigButMissingFlowConnection key ty n)) ++ ws)
    | _, _ => none

/-- config.rs:560-566 `exists_with_flow_config` (true when it does NOT exist) -/
def notRegistered (reg : Map (List Str)) (key name : Str) : Bool :=
  match reg.get key with
  | some names => !names.contains name
  | none => true

/-- config.rs:572-586 -/
def missingConfig (reg : Map (List Str)) (ty : ComponentType) (name : Str) : Bool :=
  match ty with
  | .drain => notRegistered reg "drain".toList name
  | .faucet => notRegistered reg "faucet".toList name
  | .launch => notRegistered reg "launch".toList name
  | .regulator => notRegistered reg "regulator".toList name
  | _ => false

/-- config.rs:569-596 -/
def lintKnown (reg : Map (List Str)) (known : List (ComponentType × Str)) : List LintWarning :=
  known.filterMap fun k => if missingConfig reg k.1 k.2 then some (.inFlowConnectionButMissingConfig k.1 k.2) else none

/-- config.rs:468-599: the configuration afterwards (the strings are converted in place) and the warnings. -/
def lint (c : Config) : Option (Config × List LintWarning) :=
  match convertConnections c.connection with
  | none => none
  | some (conns, errs) =>
    let c := { c with connection := conns }
    if errs ≠ [] then some (c, errs)
    else
      let known := knownComponents c
      match lintRegistered known (registered c) with
      | none => none
      | some ws => some (c, errs ++ lintMonitored c known ++ ws ++ lintKnown (registered c) known)

end Verif
