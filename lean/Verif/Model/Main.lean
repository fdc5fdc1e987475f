import Verif.Model.Command
import Verif.Model.Graph
import Verif.Model.Manip
import Verif.Model.Launch
import Verif.Model.Report
/-!
# `/repo/src/bin/pa2.rs`: from the command line to what is printed and the exit code

Clap's reading of the arguments is not modelled: a command line is what clap hands over (`Matches`), and `Spec/CommandLine.lean` says which of these can
come from the declarations of `get_clap_app`. Names that are written in the program are `String`s, what a user gives is `Str`.
-/
namespace Verif

/-- What clap hands over for one subcommand: the values of options and arguments (`values_of`), and how often a flag was given (`occurrences_of`). -/
structure Args where
  values : String → Option (List Str)
  count : String → Nat

/-- clap `value_of`: the first value -/
def Args.value (a : Args) (n : String) : Option Str := (a.values n).bind List.head?

/-- pa2.rs:240-260 `collect_subcommands`: the subcommands, outermost first, each with its arguments. -/
abbrev Matches := List (String × Args)

/-- config_io.rs:4-8 -/
inductive Format where
  | json
  | yaml
  deriving Repr, DecidableEq

/-- pa2.rs:160-165 `UserConfigOptionBase` -/
structure Base where
  id : Str
  configIn : Str
  format : Format
  deriving Repr, DecidableEq

/-- pa2.rs:167-172 -/
inductive GraphMode where
  | legendOnly (border : Bool)
  | diagramOnly
  | full (border : Bool)
  deriving Repr, DecidableEq

/-- pa2.rs:174-215 -/
inductive UserRequest where
  | launchCommand (base : Base) (command : Str)
  | launchPath (base : Base) (path : Str)
  | launchArgs (base : Base) (args : List Str)
  | launchEnv (base : Base) (env : Map Str)
  | faucetSrc (base : Base) (src : Str)
  | drainDst (base : Base) (dst : Str)
  | regulatorWatermark (base : Base) (min max : Nat)
  | connectionJoin (base : Base) (join : Str)
  | configLintShow (configIn : Str) (format : Format)
  | manipulate (configIn : Str) (format : Format)
  | process (configIn : Str) (format : Format)
  | graph (configIn : Str) (format : Format) (mode : GraphMode)
  deriving Repr, DecidableEq

/-- pa2.rs:263, 276 `first` -/
def configName (first : Option Args) : Option Str := first.bind fun a => (a.value "config").or (some "-".toList)

/-- pa2.rs:262-274 `get_config_format` -/
def configFormat (first : Option Args) : Except Str Format :=
  match first.bind fun a => (a.value "format").or (configName first) with
  | some s =>
    if s = "yaml".toList then .ok .yaml
    else if s = "json".toList then .ok .json
    else if ".yaml".toList.isSuffixOf s then .ok .yaml
    else if ".yml".toList.isSuffixOf s then .ok .yaml
    else if ".json".toList.isSuffixOf s then .ok .json
    else .error "Could not figure out configuration format".toList
  | none => .error "Could not figure out configuration format".toList

/-- pa2.rs:276-297 `get_standard_config_opts` -/
def standardOpts (first second : Option Args) (secondName : Option String) : Except Str Base :=
  match configFormat first with
  | .error e => .error e
  | .ok fmt => match configName first, second.bind (·.value "id"), secondName with
    | some configIn, some id, _ => .ok ⟨id, configIn, fmt⟩
    | _, none, some n => .error ("You need to specify an id for the '".toList ++ n.toList ++ "'".toList)
    | _, none, none => .error "You didn't correctly specify what to configure".toList
    | none, some _, _ => .error "Somehow we didn't understand those commands".toList

/-- pa2.rs:309-311 `get_config_in` -/
def configIn (first : Option Args) : Str := (first.bind (·.value "config")).getD "-".toList

/-- The digits of `usize::from_str`: `checked_mul`, then `checked_add`. -/
def usizeDigits : Nat → Str → Option Nat
  | n, [] => some n
  | n, c :: s =>
    if digit c then
      if n * 10 < 2 ^ 64 then
        if n * 10 + (c.toNat - '0'.toNat) < 2 ^ 64 then usizeDigits (n * 10 + (c.toNat - '0'.toNat)) s else none
      else none
    else none

/-- `parse::<usize>().ok()` on a 64 bit machine: a `+` may come first, something must follow. -/
def parseUsize : Str → Option Nat
  | [] => none
  | c :: s => if c = '+' then (if s = [] then none else usizeDigits 0 s) else usizeDigits 0 (c :: s)

/-- The text of all refusals because of the values (pa2.rs:361 and others), which is not filled in. -/
def missingValues : Str := "Command {:?} did not have all required values".toList

def orMissing {α} : Option α → Except Str α
  | some a => .ok a
  | none => .error missingValues

/-- pa2.rs:334-341 -/
def graphMode (first : Option Args) : GraphMode :=
  let given n := decide ((first.map (·.count n)).getD 0 > 0)
  match given "legend-only", given "diagram-only" with
  | true, false => .legendOnly (given "legend-border")
  | false, true => .diagramOnly
  | _, _ => .full (given "legend-border")

/-- What becomes of a command line: `exit` is the immediate end with code 1 (pa2.rs:325-328). -/
inductive Asked where
  | exit
  | asked (r : Except Str UserRequest)

/-- `{:?}` of a list of strings -/
def quoteAll (quote : Str → Str) (l : List Str) : Str := '[' :: ", ".toList.intercalate (l.map quote) ++ "]".toList

/-- `{:?}` of a set of strings -/
def quoteSet (quote : Str → Str) (l : List Str) : Str := '{' :: ", ".toList.intercalate (l.map quote) ++ "}".toList

/-- pa2.rs:307-449 `get_user_action`; `quote` is `{:?}` of a string. -/
def userAction (quote : Str → Str) (m : Matches) : Asked :=
  let first := m.head?.map (·.2)
  let base := standardOpts first (m[1]?.map (·.2)) (m[1]?.map (·.1))
  let last := m.getLast?.map (·.2)
  match base, m.map (·.1) with
  | _, [] => .exit
  | _, ["process"] => .asked ((configFormat first).map fun f => .process (configIn first) f)
  | _, ["graph"] => .asked ((configFormat first).map fun f => .graph (configIn first) f (graphMode first))
  | _, ["config", "lint"] => .asked ((configFormat first).map fun f => .configLintShow (configIn first) f)
  | _, ["config", "manipulate"] => .asked ((configFormat first).map fun f => .manipulate (configIn first) f)
  | .ok b, ["config", "connection", "join"] => .asked (orMissing ((last.bind (·.value "JOIN")).map (.connectionJoin b)))
  | .ok b, ["config", "drain", "destination"] => .asked (orMissing ((last.bind (·.value "DESTINATION")).map (.drainDst b)))
  | .ok b, ["config", "faucet", "source"] => .asked (orMissing ((last.bind (·.value "SOURCE")).map (.faucetSrc b)))
  | .ok b, ["config", "regulator", "watermark"] =>
    .asked (orMissing (last.bind fun l => match (l.value "MIN").bind parseUsize, (l.value "MAX").bind parseUsize with
      | some x, some y => some (.regulatorWatermark b x y)
      | _, _ => none))
  | .ok b, ["config", "launch", "command"] => .asked (orMissing ((last.bind (·.value "COMMAND")).map (.launchCommand b)))
  | .ok b, ["config", "launch", "path"] => .asked (orMissing ((last.bind (·.value "PATH")).map (.launchPath b)))
  | .ok b, ["config", "launch", "args"] => .asked (orMissing (last.map fun l => .launchArgs b ((l.values "ARGS").getD [])))
  | .ok b, ["config", "launch", "env"] =>
    .asked (orMissing (last.bind fun l => (parseEnv ((l.values "ENV").getD [])).map (.launchEnv b)))
  | _, names => .asked (.error ("The command ".toList ++ quoteAll quote (names.map String.toList) ++ " requires further sub commands".toList))

/-- The libraries used: reading JSON and YAML, their complaints, writing JSON, `{:?}` of strings, the texts of errors of the operating system,
printing a Graphviz document. -/
structure Library where
  json : Str → Option Data
  yaml : Str → Option Data
  complaint : Format → Str → Str
  print : Data → Str
  quote : Str → Str
  reason : MErr → Str
  dot : List (Str × List Item) → Str

/-- motion.rs:201-224 -/
def Library.display (lib : Library) : MErr → Str := MErr.display lib.reason

/-- What can be read: `none` is an error. -/
structure World where
  stdin : Option Str
  file : Str → Option Str

/-- config_io.rs:11-23 `read_config_as_str` -/
def readText (w : World) (name : Str) : Except Str Str :=
  if name = "-".toList then match w.stdin with
    | some s => .ok s
    | none => .error "We could not read STDIN to get the config".toList
  else match w.file name with
    | some s => .ok s
    | none => .error ("We could not open the file '".toList ++ name ++ "' to get the config".toList)

/-- config_io.rs:26-31 `parse_config_str` -/
def parseConfig (lib : Library) (fmt : Format) (s : Str) : Except Str Config :=
  match fmt with
  | .json => match (lib.json s).bind decodeConfig with
    | some c => .ok c
    | none => .error ("Could not parse json config (".toList ++ lib.complaint fmt s ++ ") [".toList ++ s ++ "]".toList)
  | .yaml => match (lib.yaml s).bind decodeConfig with
    | some c => .ok c
    | none => .error ("Could not parse yaml config (".toList ++ lib.complaint fmt s ++ ") [".toList ++ s ++ "]".toList)

/-- config_io.rs:43-45 `read_config` -/
def readConfig (lib : Library) (w : World) (fmt : Format) (name : Str) : Except Str Config :=
  match readText w name with
  | .error e => .error e
  | .ok s => parseConfig lib fmt s

/-- config.rs:225-255 `ConfigLintWarning::to_string` -/
def LintWarning.text : LintWarning → Str
  | .inConfigButMissingFlowConnection sec ty name =>
    "PA: Error: 0001: ".toList ++ ty.text ++ ':' :: name ++ " - Configuration exists in ".toList ++ sec ++ ", but this is not referenced in the connections".toList
  | .inFlowConnectionButMissingConfig ty name =>
    "PA: Error: 0002: ".toList ++ ty.text ++ ':' :: name ++ " - Is referenced in the flow connections, but is missing required configuration".toList
  | .invalidConnection id join =>
    "PA: Error: 0003: ".toList ++ id ++ ':' :: join ++ " - Could not be converted from the configuration".toList
  | .regulatorWatchingMissingBuffer sec ty name =>
    "PA: Error: 0004: ".toList ++ ty.text ++ ':' :: name ++ " - Configuration exists in ".toList ++ sec ++ ", but this is not referenced in the connections".toList

/-- The orders in which hash maps and sets are iterated; `listing` lists the set of warnings, `written` is the order in which a configuration is written. -/
structure Orders where
  outs : List OutRef → List OutRef
  ins : List InRef → List InRef
  launches : List Str → List Str
  types : List (ComponentType × List Str) → List (ComponentType × List Str)
  listing : List LintWarning → List LintWarning
  written : Config → Config

/-- pa2.rs:456-460 -/
inductive UserResponse where
  | config (c : Config)
  | process (c : Config)
  | graph (c : Config) (mode : GraphMode)
  deriving Repr, DecidableEq

/-- The result of a step that may abort. The lines are those printed on standard output on the way. -/
inductive Answer where
  | ok (printed : List Str) (r : UserResponse)
  | err (printed : List Str) (msg : Str)
  | panic

/-- `read_config(..).map(f).map(UserResponse::Config)` -/
def edited (r : Except Str Config) (f : Config → Config) : Answer :=
  match r with
  | .ok c => .ok [] (.config (f c))
  | .error e => .err [] e

/-- `errs.join("\n * ")` of the warnings -/
def bulleted (l : List LintWarning) : Str := "\n * ".toList.intercalate (l.map LintWarning.text)

/-- pa2.rs:463-541 `process_user_config_action` -/
def processAction (lib : Library) (o : Orders) (w : World) : Except Str UserRequest → Answer
  | .error e => .err [] e
  | .ok (.connectionJoin b join) => match convertToDConn lib.json lib.yaml join with
    | none => .err [] ("Looks neither like JSON, YAML or JoinString '".toList ++ join ++ "'".toList)
    | some d => edited (readConfig lib w b.format b.configIn) fun c => connectionJoin c b.id d
  | .ok (.faucetSrc b src) => edited (readConfig lib w b.format b.configIn) fun c => setSource c b.id src
  | .ok (.drainDst b dst) => edited (readConfig lib w b.format b.configIn) fun c => setDestination c b.id dst
  | .ok (.regulatorWatermark b x y) => edited (readConfig lib w b.format b.configIn) fun c => setWatermark c b.id x y
  | .ok (.launchCommand b cmd) => edited (readConfig lib w b.format b.configIn) fun c => setCommand c b.id cmd
  | .ok (.launchPath b path) => edited (readConfig lib w b.format b.configIn) fun c => setPath c b.id path
  | .ok (.launchArgs b args) => edited (readConfig lib w b.format b.configIn) fun c => setArgs c b.id args
  | .ok (.launchEnv b env) => edited (readConfig lib w b.format b.configIn) fun c => setEnv c b.id env
  | .ok (.configLintShow name fmt) => match readConfig lib w fmt name with
    | .error e => .err [] e
    | .ok c => match lint c with
      | none => .panic
      | some (c, []) => .ok [] (.config c)
      | some (_, ws) => .err [] ("We found the following warnings / errors: \n\n * ".toList ++ bulleted (o.listing ws) ++ "\n".toList)
  | .ok (.manipulate name fmt) => match readConfig lib w fmt name with
    | .error e => .err [] e
    | .ok c => match manipulateLight c with
      | none => .panic
      | some c => .ok [] (.config c)
  | .ok (.process name fmt) => match readConfig lib w fmt name with
    | .error e => .err [] e
    | .ok c => match Verif.manipulate o.outs o.ins o.launches c with
      | none => .panic
      | some (c, printed) => match lint c with
        | none => .panic
        | some (c, ws) => match ws.filter (fun w => !w.isUnused) with
          | [] => .ok [quoteSet lib.quote printed] (.process c)
          | ws => .err [quoteSet lib.quote printed] ("Process ".toList ++ bulleted (o.listing ws))
  | .ok (.graph name fmt mode) => match readConfig lib w fmt name with
    | .error e => .err [] e
    | .ok c => match lint c with
      | none => .panic
      | some (c, ws) => match ws.filter (fun w => !w.isUnused) with
        | [] => .ok [] (.graph c mode)
        | ws => .err [] ("Process ".toList ++ bulleted (o.listing ws))

/-- `{:?}` of `OutputPort` -/
def OutputPort.debug : OutputPort → Str
  | .out => "Out".toList
  | .err => "Err".toList
  | .exit => "Exit".toList

/-- `{:?}` of `ConnectableAddInputError` -/
def AddInputError.debug : AddInputError → Str
  | .alreadyAllocated => "AlreadyAllocated".toList
  | .unsupportedPriority p => "UnsupportedPriority(".toList ++ codeText p ++ ")".toList
  | .unsupportedForControl => "UnsupportedForControl".toList

/-- `{:?}` of `ConnectableAddOutputError` -/
def AddOutputError.debug : AddOutputError → Str
  | .alreadyAllocated p => "AlreadyAllocated(".toList ++ p.debug ++ ")".toList
  | .unsupportedPort p => "UnsupportedPort(".toList ++ p.debug ++ ")".toList

/-- waiter.rs:505, 517, 544-566: what `get_waiter` says. The two last kinds are those without a name. -/
def WireError.text : WireError → Str
  | .noCommand n => "Launch '".toList ++ n ++ "' did not have a command specified".toList
  | .noLaunchConfig n => "Could not find configuration for Launch ".toList ++ n
  | .addInput r e => "AddInput(".toList ++ componentText r ++ ", ".toList ++ e.debug ++ ")".toList
  | .addOutput r e => "AddOutput(".toList ++ componentText r ++ ", ".toList ++ e.debug ++ ")".toList
  | .missingSource id => "ConnectableError::CouldNotFindSourceComponent(Unknown Component ".toList ++ natStr id ++ ")".toList
  | .missingDestination id => "ConnectableError::CouldNotFindDestinationComponent(Unknown Component ".toList ++ natStr id ++ ")".toList

/-- What `waiter.start` does: it ends with a result, it aborts, or it never ends. -/
inductive Started where
  | ended (r : Except (List WaiterErr) Nat)
  | aborts
  | never

/-- graph.rs:268-300: one of the six parts of the legend -/
def legendPart (word : String) (color shape : String) : Str × List Stmt :=
  ("cluster_legend_".toList ++ word.toList,
   [.attr "label".toList word.toList,
    .node ("legend_".toList ++ word.toList) [("fillcolor".toList, color.toList), ("label".toList, "\"\"".toList), ("shape".toList, shape.toList),
      ("width".toList, "0.3".toList), ("style".toList, "filled".toList), ("height".toList, "0.3".toList)]])

/-- graph.rs:268-300 `get_legend` with 11-16 -/
def legend (border : Bool) : Str × List Item :=
  (if border then "cluster_legend".toList else "graph_legend".toList,
   [.stmt (.attr "color".toList "black".toList), .stmt (.attr "label".toList "Legend".toList)] ++
   [legendPart "launch" "lightblue" "box", legendPart "buffer" "lightgray" "invhouse", legendPart "regulator" "lightgray" "house",
    legendPart "junction" "papayawhip" "oval", legendPart "faucet" "darkseagreen1" "trapezium", legendPart "drain" "lightpink" "invtrapezium"].map
      fun p => .sub p.1 p.2)

/-- pa2.rs:568-603: the subgraphs of the document; `get_graph` (graph.rs:76-89) adds the same two attributes to each document and prints it (`Library.dot`). -/
def graphParts (o : Orders) (c : Config) : GraphMode → List (Str × List Item)
  | .full border => [legend border, ("diagram".toList, draw o.types c)]
  | .diagramOnly => [("diagram".toList, draw o.types c)]
  | .legendOnly border => [legend border]

/-- How the program ends: with the lines written by itself (not by drains) and the exit code, by an abort, or never. -/
inductive Ending where
  | exits (out err : List Str) (code : Nat)
  | aborts
  | never
  deriving Repr, DecidableEq

/-- pa2.rs:605-618 -/
def lastly (printed : List Str) : Except (List Str) Str → Ending
  | .ok s => .exits (printed ++ if s = [] then [] else [s]) [] 0
  | .error ss => .exits printed ("Error(s) have occurred:".toList :: [] :: ss.map (fun s => " * ".toList ++ s) ++ [[]]) 1

/-- pa2.rs:543-618 `main` -/
def pa2 (lib : Library) (o : Orders) (start : Waiter → Started) (w : World) (m : Matches) : Ending :=
  match userAction lib.quote m with
  | .exit => .exits [] ["Run with --help for assistance".toList] 1
  | .asked r => match processAction lib o w r with
    | .panic => .aborts
    | .err printed msg => lastly printed (.error [msg])
    | .ok printed (.process c) => match getWaiter c with
      | .err e => lastly printed (.error [e.text])
      | .panic => .aborts
      | .ok w => match start w with
        | .ended (.ok _) => lastly printed (.ok [])
        | .ended (.error es) => lastly printed (.error (es.map (errorText lib.display lib.quote w.names)))
        | .aborts => .aborts
        | .never => .never
    | .ok printed (.config c) => lastly printed (.ok (lib.print (encodeConfig (o.written c))))
    | .ok printed (.graph c mode) => lastly printed (.ok (lib.dot (graphParts o c mode)))

end Verif
