import Verif.Model.Config
/-!
# The syntax of connection strings, as documented

A description of a connection string (`Desc`) has every freedom of spelling: long or short component types, ports and priorities given or
left out, digits with leading zeros, pipe variations given or left out, spaces around pipes. `Desc.text` writes it down and `Desc.meaning` says what it means.
There is nothing here about how strings are read.
-/
namespace Verif.Syntax

/-- The two spellings of a component type. -/
def longWord : ComponentType → Str
  | .faucet => "faucet".toList
  | .launch => "launch".toList
  | .junction => "junction".toList
  | .buffer => "buffer".toList
  | .drain => "drain".toList
  | .regulator => "regulator".toList
def shortWord (t : ComponentType) : Str := (longWord t).take 1

def letters : Str := "abcdefghijklmnopqrstuvwxyzABCDEFGHIJKLMNOPQRSTUVWXYZ0123456789_".toList
def digits : Str := "0123456789".toList

/-- The number a list of digits denotes. -/
def number : Str → Nat
  | [] => 0
  | c :: s => digits.idxOf c * 10 ^ s.length + number s

/-- A component as mentioned: type, spelling, name. -/
structure Ident where
  ty : ComponentType
  long : Bool
  name : Str

def Ident.text (i : Ident) : Str := (if i.long then longWord i.ty else shortWord i.ty) ++ ":".toList ++ i.name
/-- Names consist of letters, digits and underscores, at least one. -/
def Ident.Ok (i : Ident) : Prop := i.name ≠ [] ∧ ∀ c ∈ i.name, c ∈ letters

/-- A priority as written: sign, digits. -/
structure Prio where
  minus : Bool
  ds : Str

def Prio.text (p : Prio) : Str := "[".toList ++ (if p.minus then "-".toList else []) ++ p.ds ++ "]".toList
def Prio.Ok (p : Prio) : Prop := ∀ c ∈ p.ds, c ∈ digits
def Prio.value (p : Prio) : Int := if p.minus then - number p.ds else number p.ds
/-- There is a digit and the number fits into 64 bits. -/
def Prio.Sensible (p : Prio) : Prop := p.ds ≠ [] ∧ -2 ^ 63 ≤ p.value ∧ p.value < 2 ^ 63
instance (p : Prio) : Decidable p.Sensible := by unfold Prio.Sensible; infer_instance
/-- Anything else silently denotes 0. -/
def Prio.meaning (p : Prio) : Int := if p.Sensible then p.value else 0

def portText : OutputPort → Str
  | .err => "[E]".toList
  | .out => "[O]".toList
  | .exit => "[X]".toList

/-- Parts that may be left out. -/
def optText {α : Type} (f : α → Str) : Option α → Str
  | none => []
  | some x => f x
def prioMeaning : Option Prio → Int
  | none => 0
  | some p => p.meaning
def prioOk : Option Prio → Prop
  | none => True
  | some p => p.Ok

def pipeLetter : Breakable → Str
  | .terminate => "T".toList
  | .consume => "C".toList
  | .finish => "F".toList
/-- A pipe: spaces before, variation, spaces after. -/
structure Pipe where
  before : Nat
  kind : Option Breakable
  after : Nat

def Pipe.text (p : Pipe) : Str :=
  List.replicate p.before ' ' ++ "|".toList ++ optText (fun b => pipeLetter b ++ "|".toList) p.kind ++ List.replicate p.after ' '
def Pipe.meaning (p : Pipe) : Breakable := p.kind.getD .terminate

/-- A component in the middle, and the pipe after it. -/
structure Middle where
  prio : Option Prio
  id : Ident
  port : Option OutputPort
  pipe : Pipe

def Middle.text (m : Middle) : Str := optText Prio.text m.prio ++ m.id.text ++ optText portText m.port ++ m.pipe.text

/-- A connection string. -/
structure Desc where
  first : Ident
  port : Option OutputPort
  pipe : Pipe
  middles : List Middle
  prio : Option Prio
  last : Ident

def middlesText : List Middle → Str
  | [] => []
  | m :: ms => m.text ++ middlesText ms

def Desc.text (d : Desc) : Str :=
  d.first.text ++ optText portText d.port ++ d.pipe.text ++ middlesText d.middles ++ optText Prio.text d.prio ++ d.last.text

structure Desc.Ok (d : Desc) : Prop where
  first : d.first.Ok
  middles : ∀ m ∈ d.middles, m.id.Ok ∧ prioOk m.prio
  prio : prioOk d.prio
  last : d.last.Ok

/-- The components after the first pipe, `b` being the variation of the pipe before them. -/
def restMeaning (b : Breakable) (prio : Option Prio) (last : Ident) : List Middle → List Connection
  | [] => [.end last.ty last.name ⟨b, prioMeaning prio⟩ none]
  | m :: ms => .middle m.id.ty m.id.name ⟨b, prioMeaning m.prio⟩ (m.port.getD .out) none :: restMeaning m.pipe.meaning prio last ms

/-- What the string means. -/
def Desc.meaning (d : Desc) : List Connection :=
  .start d.first.ty d.first.name (d.port.getD .out) none :: restMeaning d.pipe.meaning d.prio d.last d.middles

end Verif.Syntax
