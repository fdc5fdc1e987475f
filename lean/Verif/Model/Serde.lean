import Verif.Model.Settings
/-!
# Reading and writing configurations: the `Serialize`/`Deserialize` derivations of `/repo/src/config.rs` and `/repo/src/connectable.rs`

`Data` is what serde passes between a type and a text format. The text formats (serde_json, serde_yaml) are not modelled. Structures are only read from
records (serde would also take a plain sequence of the fields for those without `flatten`). Unknown fields are ignored, a field given twice is an error, as serde derives it.
-/
namespace Verif

inductive Data where
  | null
  | text (s : Str)
  | num (n : Int)
  | list (l : List Data)
  | record (m : List (Str × Data))
  deriving Repr

/-- A field of a record; `none`: given more than once. -/
def field (r : Map Data) (k : Str) : Option (Option Data) :=
  match r.filter (fun x => x.1 = k) with
  | [] => some none
  | [x] => some (some x.2)
  | _ => none

def required (r : Map Data) (k : Str) : Option Data :=
  match field r k with
  | some (some d) => some d
  | _ => none

/-- An `Option` field without (or with) `default`: missing and null are `None`. -/
def optional {α} (f : Data → Option α) (r : Map Data) (k : Str) : Option (Option α) :=
  match field r k with
  | none => none
  | some none => some none
  | some (some .null) => some none
  | some (some d) => (f d).map some

/-- A field with `#[serde(default = ..)]`. -/
def defaulted {α} (f : Data → Option α) (dflt : α) (r : Map Data) (k : Str) : Option α :=
  match field r k with
  | none => none
  | some none => some dflt
  | some (some d) => f d

def decodeStr : Data → Option Str
  | .text s => some s
  | _ => none

def encodeOpt : Option Str → Data
  | some s => .text s
  | none => .null

/-- `isize` -/
def decodeInt : Data → Option Int
  | .num n => if -2 ^ 63 ≤ n ∧ n < 2 ^ 63 then some n else none
  | _ => none

/-- `usize` -/
def decodeNat : Data → Option Nat
  | .num n => if 0 ≤ n ∧ n < 2 ^ 64 then some n.toNat else none
  | _ => none

def decodeEach {α} (f : Data → Option α) : List Data → Option (List α)
  | [] => some []
  | d :: l => match f d, decodeEach f l with
    | some x, some xs => some (x :: xs)
    | _, _ => none

def decodeList {α} (f : Data → Option α) : Data → Option (List α)
  | .list l => decodeEach f l
  | _ => none

def decodeEntries {α} (put : Str → α → Map α → Map α) (f : Data → Option α) : Map Data → Map α → Option (Map α)
  | [], acc => some acc
  | (k, d) :: m, acc => match f d with
    | some v => decodeEntries put f m (put k v acc)
    | none => none

/-- `HashMap<String, _>` -/
def decodeHash {α} (f : Data → Option α) : Data → Option (Map α)
  | .record m => decodeEntries Map.put f m []
  | _ => none

/-- `BTreeMap<String, _>` -/
def decodeTree {α} (f : Data → Option α) : Data → Option (Map α)
  | .record m => decodeEntries Map.sortedPut f m []
  | _ => none

def encodeMap {α} (f : α → Data) (m : Map α) : Data := .record (m.map fun x => (x.1, f x.2))

/-- config.rs:12-21: `rename_all = "lowercase"` -/
def encodeType : ComponentType → Data
  | .faucet => .text "faucet".toList
  | .launch => .text "launch".toList
  | .junction => .text "junction".toList
  | .buffer => .text "buffer".toList
  | .drain => .text "drain".toList
  | .regulator => .text "regulator".toList

def decodeType : Data → Option ComponentType
  | .text s =>
    if s = "faucet".toList then some .faucet
    else if s = "launch".toList then some .launch
    else if s = "junction".toList then some .junction
    else if s = "buffer".toList then some .buffer
    else if s = "drain".toList then some .drain
    else if s = "regulator".toList then some .regulator
    else none
  | _ => none

/-- connectable.rs:15-21 -/
def encodePort : OutputPort → Data
  | .err => .text "err".toList
  | .out => .text "out".toList
  | .exit => .text "exit".toList

def decodePort : Data → Option OutputPort
  | .text s =>
    if s = "err".toList then some .err
    else if s = "out".toList then some .out
    else if s = "exit".toList then some .exit
    else none
  | _ => none

/-- connectable.rs:7-13 -/
def encodeBreakable : Breakable → Data
  | .consume => .text "consume".toList
  | .finish => .text "finish".toList
  | .terminate => .text "terminate".toList

def decodeBreakable : Data → Option Breakable
  | .text s =>
    if s = "consume".toList then some .consume
    else if s = "finish".toList then some .finish
    else if s = "terminate".toList then some .terminate
    else none
  | _ => none

/-- connectable.rs:49-57, always flattened into the record around it -/
def encodeInput (i : InputPort) : Map Data := [("breakable".toList, encodeBreakable i.breakable), ("priority".toList, .num i.priority)]

def decodeInput (r : Map Data) : Option InputPort :=
  match defaulted decodeBreakable .terminate r "breakable".toList, (required r "priority".toList).bind decodeInt with
  | some b, some p => some ⟨b, p⟩
  | _, _ => none

/-- config.rs:112-136: `untagged`, so only the fields of the variant -/
def encodeConnection : Connection → Data
  | .middle ty n i o s => .record ([("component_type".toList, encodeType ty), ("component_name".toList, .text n)] ++ encodeInput i ++
      [("output_port".toList, encodePort o), ("connection_set".toList, encodeOpt s)])
  | .start ty n o s => .record [("component_type".toList, encodeType ty), ("component_name".toList, .text n),
      ("output_port".toList, encodePort o), ("connection_set".toList, encodeOpt s)]
  | .end ty n i s => .record ([("component_type".toList, encodeType ty), ("component_name".toList, .text n)] ++ encodeInput i ++
      [("connection_set".toList, encodeOpt s)])

def decodeMiddle (r : Map Data) : Option Connection :=
  match (required r "component_type".toList).bind decodeType, (required r "component_name".toList).bind decodeStr, decodeInput r,
    (required r "output_port".toList).bind decodePort, optional decodeStr r "connection_set".toList with
  | some ty, some n, some i, some o, some s => some (.middle ty n i o s)
  | _, _, _, _, _ => none

def decodeStart (r : Map Data) : Option Connection :=
  match (required r "component_type".toList).bind decodeType, (required r "component_name".toList).bind decodeStr,
    (required r "output_port".toList).bind decodePort, optional decodeStr r "connection_set".toList with
  | some ty, some n, some o, some s => some (.start ty n o s)
  | _, _, _, _ => none

def decodeEnd (r : Map Data) : Option Connection :=
  match (required r "component_type".toList).bind decodeType, (required r "component_name".toList).bind decodeStr, decodeInput r,
    optional decodeStr r "connection_set".toList with
  | some ty, some n, some i, some s => some (.end ty n i s)
  | _, _, _, _ => none

/-- `untagged`: the variants are tried in the order in which they are declared. -/
def decodeConnection : Data → Option Connection
  | .record r => match decodeMiddle r with
    | some c => some c
    | none => match decodeStart r with
      | some c => some c
      | none => decodeEnd r
  | _ => none

/-- config.rs:188-193, `untagged` -/
def encodeDConn : DConn → Data
  | .join s => .text s
  | .conns l => .list (l.map encodeConnection)

def decodeDConn (d : Data) : Option DConn :=
  match decodeStr d with
  | some s => some (.join s)
  | none => (decodeList decodeConnection d).map .conns

/-- config.rs:66-76 -/
def encodeLaunch (l : LaunchConfig) : Data :=
  .record [("cmd".toList, encodeOpt l.command), ("path".toList, encodeOpt l.path), ("env".toList, encodeMap .text l.env),
    ("arg".toList, .list (l.arg.map .text))]

def decodeLaunch : Data → Option LaunchConfig
  | .record r => match optional decodeStr r "cmd".toList, optional decodeStr r "path".toList, defaulted (decodeHash decodeStr) [] r "env".toList,
      defaulted (decodeList decodeStr) [] r "arg".toList with
    | some c, some p, some e, some a => some ⟨c, p, e, a⟩
    | _, _, _, _ => none
  | _ => none

/-- config.rs:88-91 -/
def encodeFaucet (s : Str) : Data := .record [("source".toList, .text s)]

def decodeFaucet : Data → Option Str
  | .record r => (required r "source".toList).bind decodeStr
  | _ => none

/-- config.rs:101-105 -/
def encodeDrain (s : Str) : Data := .record [("destination".toList, .text s)]

def decodeDrain : Data → Option Str
  | .record r => defaulted decodeStr "-".toList r "destination".toList
  | _ => none

/-- config.rs:94-99 -/
def encodeMarks : Option (Nat × Nat) → Data
  | some (a, b) => .list [.num a, .num b]
  | none => .null

def bothMarks : Option Nat → Option Nat → Option (Nat × Nat)
  | some a, some b => some (a, b)
  | _, _ => none

def decodeMarks : Data → Option (Nat × Nat)
  | .list [a, b] => bothMarks (decodeNat a) (decodeNat b)
  | _ => none

def encodeRegulator (r : RegulatorConfig) : Data :=
  .record [("buffered".toList, encodeMarks r.buffered), ("monitored_buffers".toList, .list (r.monitored.map .text))]

def decodeRegulator : Data → Option RegulatorConfig
  | .record r => match optional decodeMarks r "buffered".toList, defaulted (decodeList decodeStr) [] r "monitored_buffers".toList with
    | some b, some m => some ⟨b, m⟩
    | _, _ => none
  | _ => none

/-- config.rs:197-209 -/
def encodeConfig (c : Config) : Data :=
  .record [("faucet".toList, encodeMap encodeFaucet c.faucet), ("regulator".toList, encodeMap encodeRegulator c.regulator),
    ("drain".toList, encodeMap encodeDrain c.drain), ("launch".toList, encodeMap encodeLaunch c.launch),
    ("connection".toList, encodeMap encodeDConn c.connection)]

def decodeConfig : Data → Option Config
  | .record r => match defaulted (decodeHash decodeFaucet) [] r "faucet".toList, defaulted (decodeHash decodeRegulator) [] r "regulator".toList,
      defaulted (decodeHash decodeDrain) [] r "drain".toList, defaulted (decodeHash decodeLaunch) [] r "launch".toList,
      defaulted (decodeTree decodeDConn) [] r "connection".toList with
    | some f, some g, some d, some l, some c => some ⟨f, g, d, l, c⟩
    | _, _, _, _, _ => none
  | _ => none

end Verif
