import Verif.Model.Settings
/-!
# What a configuration says, setting by setting

Used to state C30–C33 without reference to how settings are changed.
-/
namespace Verif

/-- The places of a configuration that hold a value. -/
inductive Setting where
  | source (faucet : Str)
  | destination (drain : Str)
  | watermarks (regulator : Str)
  | monitored (regulator : Str)
  | command (launch : Str)
  | path (launch : Str)
  | arguments (launch : Str)
  | environment (launch : Str)
  | connections (key : Str)
  deriving DecidableEq, Repr

/-- The component (for connections: the key) a setting belongs to. -/
inductive Owner where
  | component (ty : ComponentType) (name : Str)
  | connection (key : Str)
  deriving DecidableEq, Repr

def Setting.owner : Setting → Owner
  | .source n => .component .faucet n
  | .destination n => .component .drain n
  | .watermarks n => .component .regulator n
  | .monitored n => .component .regulator n
  | .command n => .component .launch n
  | .path n => .component .launch n
  | .arguments n => .component .launch n
  | .environment n => .component .launch n
  | .connections k => .connection k

inductive Value where
  | unset
  | text (s : Str)
  | texts (l : List Str)
  | marks (low high : Nat)
  | variables (m : Map Str)
  | set (d : DConn)
  deriving DecidableEq, Repr

def textOrUnset : Option Str → Value
  | some s => .text s
  | none => .unset

/-- The value at a place; a component that is not there has no text, an empty list and no variables. -/
def Config.read (c : Config) : Setting → Value
  | .source n => textOrUnset (c.faucet.get n)
  | .destination n => textOrUnset (c.drain.get n)
  | .watermarks n => match (c.regulator.get n).bind (·.buffered) with
    | some (a, b) => .marks a b
    | none => .unset
  | .monitored n => .texts (((c.regulator.get n).map (·.monitored)).getD [])
  | .command n => textOrUnset ((c.launch.get n).bind (·.command))
  | .path n => textOrUnset ((c.launch.get n).bind (·.path))
  | .arguments n => .texts (((c.launch.get n).map (·.arg)).getD [])
  | .environment n => .variables (((c.launch.get n).map (·.env)).getD [])
  | .connections k => match c.connection.get k with
    | some d => .set d
    | none => .unset

/-- Whether a component or connection is in the configuration at all. -/
def Config.Has (c : Config) : Owner → Prop
  | .component .faucet n => n ∈ c.faucet.keys
  | .component .drain n => n ∈ c.drain.keys
  | .component .regulator n => n ∈ c.regulator.keys
  | .component .launch n => n ∈ c.launch.keys
  | .component _ _ => False
  | .connection k => k ∈ c.connection.keys

/-- Two configurations are the same as maps. -/
def Config.Same (c c' : Config) : Prop :=
  (∀ n, c.faucet.get n = c'.faucet.get n) ∧ (∀ n, c.drain.get n = c'.drain.get n) ∧
  (∀ n, c.regulator.get n = c'.regulator.get n) ∧ (∀ n, c.launch.get n = c'.launch.get n) ∧
  c.connection = c'.connection

/-- What the connection string or list of a connection set says; nothing for an invalid string. -/
def DConn.Means : DConn → List Connection → Prop
  | .conns l, cs => l = cs
  | .join s, cs => loadConnection s = .ok cs

def DConn.Invalid : DConn → Prop
  | .conns _ => False
  | .join s => loadConnection s = .parseError

/-- A component is mentioned in a connection set. -/
def Config.Uses (c : Config) (ty : ComponentType) (n : Str) : Prop :=
  ∃ k d cs x, (k, d) ∈ c.connection ∧ d.Means cs ∧ x ∈ cs ∧ x.ty = ty ∧ x.name = n

/-- What an edit from the command line is about. -/
inductive Edit where
  | source (faucet src : Str)
  | destination (drain dst : Str)
  | watermarks (regulator : Str) (a b : Nat)
  | command (launch cmd : Str)
  | path (launch path : Str)
  | arguments (launch : Str) (args : List Str)
  | environment (launch : Str) (env : Map Str)
  | connections (key : Str) (d : DConn)

def Edit.place : Edit → Setting
  | .source n _ => .source n
  | .destination n _ => .destination n
  | .watermarks n _ _ => .watermarks n
  | .command n _ => .command n
  | .path n _ => .path n
  | .arguments n _ => .arguments n
  | .environment n _ => .environment n
  | .connections k _ => .connections k

def Edit.value : Edit → Value
  | .source _ s => .text s
  | .destination _ s => .text s
  | .watermarks _ a b => .marks (min a b) (max a b)
  | .command _ s => .text s
  | .path _ s => .text s
  | .arguments _ l => .texts l
  | .environment _ m => .variables m
  | .connections _ d => .set d

/-- The function of the program that makes the edit (bin/pa2.rs:466-510). -/
def Edit.run (c : Config) : Edit → Config
  | .source n s => setSource c n s
  | .destination n s => setDestination c n s
  | .watermarks n a b => setWatermark c n a b
  | .command n s => setCommand c n s
  | .path n s => setPath c n s
  | .arguments n l => setArgs c n l
  | .environment n m => setEnv c n m
  | .connections k d => connectionJoin c k d

end Verif
