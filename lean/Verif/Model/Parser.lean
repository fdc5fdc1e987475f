import Verif.Model.Config
/-!
# `/repo/src/config.rs` lines 723-938: `load_connection_from_string`

The grammar is a parsing expression grammar (crate `peg`): a rule applied to a string gives a value and the rest of the string, or
fails; alternatives are tried in order and the first that succeeds is taken; repetitions take as much as they can.
-/
namespace Verif

/-- A grammar rule. -/
abbrev Rule (α : Type) := Str → Option (α × Str)

/-- A literal. -/
def lit : Str → Rule Unit
  | [], s => some ((), s)
  | c :: l, d :: s => if c = d then lit l s else none
  | _ :: _, [] => none

/-- `[..]*`: as many characters of a class as there are. -/
def many (p : Char → Bool) : Str → Str × Str
  | [] => ([], [])
  | c :: s => if p c then (c :: (many p s).1, (many p s).2) else ([], c :: s)

/-- `[..]+` -/
def some1 (p : Char → Bool) : Rule Str := fun s =>
  match many p s with
  | ([], _) => none
  | (l, s) => some (l, s)

/-- `a / b` -/
def Rule.or {α : Type} (a b : Rule α) : Rule α := fun s =>
  match a s with
  | some x => some x
  | none => b s

/-- `a b {..}` -/
def Rule.then {α β : Type} (a : Rule α) (f : α → Rule β) : Rule β := fun s =>
  match a s with
  | some (x, s) => f x s
  | none => none

def Rule.give {α : Type} (x : α) : Rule α := fun s => some (x, s)

/-- `['a'..='z' | 'A'..='Z' | '0'..='9' | '_']` -/
def nameChar (c : Char) : Bool :=
  ('a' ≤ c ∧ c ≤ 'z') || ('A' ≤ c ∧ c ≤ 'Z') || ('0' ≤ c ∧ c ≤ '9') || c = '_'

/-- `['0'..='9']` -/
def digit (c : Char) : Bool := '0' ≤ c ∧ c ≤ '9'

/-- config.rs:732-733 -/
def componentName : Rule Str := some1 nameChar

/-- The bounds of `isize`. -/
def isizeMax : Int := 2 ^ 63 - 1
def isizeMin : Int := - 2 ^ 63

def inIsize (x : Int) : Bool := isizeMin ≤ x ∧ x ≤ isizeMax

/-- `isize::from_str`: digits one after the other, `checked_mul` then `checked_add` or, for a negative number, `checked_sub`. -/
def parseDigits (neg : Bool) : Int → Str → Option Int
  | acc, [] => some acc
  | acc, c :: s =>
    let m := acc * 10
    if inIsize m then
      let x := if neg then m - (c.toNat - '0'.toNat : Nat) else m + (c.toNat - '0'.toNat : Nat)
      if inIsize x then parseDigits neg x s else none
    else none

/-- `n.parse::<isize>()` for a text matched by `"-"?['0'..='9']*`: no digits is an error. -/
def parseIsize : Str → Option Int
  | '-' :: s => if s = [] then none else parseDigits true 0 s
  | s => if s = [] then none else parseDigits false 0 s

/-- `"-"?` -/
def optMinus : Str → Str × Str
  | '-' :: s => (['-'], s)
  | s => ([], s)

/-- config.rs:735-736 -/
def portPreference : Rule Int := fun s =>
  let (sign, s) := optMinus s
  let (ds, s) := many digit s
  some ((parseIsize (sign ++ ds)).getD 0, s)

/-- config.rs:738-739 -/
def inPort : Rule InputPort :=
  (lit ['[']).then fun _ => portPreference.then fun p => (lit [']']).then fun _ => .give ⟨.terminate, p⟩

/-- One alternative of config.rs:742. -/
def typeWord (w : String) (t : ComponentType) : Rule ComponentType := (lit w.toList).then fun _ => .give t

/-- config.rs:741-758 -/
def componentType : Rule ComponentType :=
  (typeWord "faucet" .faucet).or <| (typeWord "drain" .drain).or <| (typeWord "regulator" .regulator).or <|
  (typeWord "junction" .junction).or <| (typeWord "buffer" .buffer).or <| (typeWord "launch" .launch).or <|
  (typeWord "f" .faucet).or <| (typeWord "d" .drain).or <| (typeWord "r" .regulator).or <| (typeWord "j" .junction).or <|
  (typeWord "b" .buffer).or (typeWord "l" .launch)

/-- config.rs:760-764 -/
def identifier : Rule (ComponentType × Str) :=
  componentType.then fun t => (lit [':']).then fun _ => componentName.then fun n => .give (t, n)

/-- config.rs:766-774 -/
def outPort : Rule OutputPort :=
  (lit ['[']).then fun _ =>
    (((lit ['E']).then fun _ => .give .err).or <| ((lit ['O']).then fun _ => .give .out).or ((lit ['X']).then fun _ => .give .exit)).then fun p =>
      (lit [']']).then fun _ => .give p

/-- config.rs:776-784 -/
def pipeTypeCode : Rule Breakable :=
  ((lit ['T']).then fun _ => .give .terminate).or <| ((lit ['C']).then fun _ => .give .consume).or ((lit ['F']).then fun _ => .give .finish)

/-- config.rs:786-789 -/
def pipeType : Rule Breakable := (lit ['|']).then fun _ => pipeTypeCode.then fun p => (lit ['|']).then fun _ => .give p

/-- config.rs:791-794 -/
def pipePlain : Rule Breakable := (lit ['|']).then fun _ => .give .terminate

/-- config.rs:796-799 -/
def pipe : Rule Breakable := fun s =>
  ((pipeType.or pipePlain).then fun p s => some (p, (many (· = ' ') s).2)) (many (· = ' ') s).2

/-- config.rs:801-845 -/
def componentMiddle : Rule Connection :=
  (inPort.then fun l => identifier.then fun i => outPort.then fun o => .give (.middle i.1 i.2 l o none)).or <|
  (identifier.then fun i => outPort.then fun o => .give (.middle i.1 i.2 ⟨.terminate, 0⟩ o none)).or <|
  (inPort.then fun l => identifier.then fun i => .give (.middle i.1 i.2 l .out none)).or
  (identifier.then fun i => .give (.middle i.1 i.2 ⟨.terminate, 0⟩ .out none))

/-- config.rs:847-869 -/
def componentStart : Rule Connection :=
  (identifier.then fun i => outPort.then fun o => .give (.start i.1 i.2 o none)).or
  (identifier.then fun i => .give (.start i.1 i.2 .out none))

/-- config.rs:871-892 -/
def componentEnd : Rule Connection :=
  (inPort.then fun l => identifier.then fun i => .give (.end i.1 i.2 l none)).or
  (identifier.then fun i => .give (.end i.1 i.2 ⟨.terminate, 0⟩ none))

/-- config.rs:894-897 -/
def lineMiddle : Rule (List ParserConnection) :=
  componentMiddle.then fun m => pipe.then fun p => .give [.connection m, .pipe p]

/-- `line_middle()*`, concatenated as in config.rs:903-905. A `lineMiddle` takes at least one character, so the length of the string is fuel enough
(`lineMiddles_fuel`). -/
def lineMiddles : Nat → Str → List ParserConnection × Str
  | 0, s => ([], s)
  | n + 1, s => match lineMiddle s with
    | some (l, s) => (l ++ (lineMiddles n s).1, (lineMiddles n s).2)
    | none => ([], s)

/-- config.rs:899-909 -/
def connectionSetHas : Rule (List ParserConnection) :=
  componentStart.then fun c => pipe.then fun p s =>
    let (m, s) := lineMiddles s.length s
    (componentEnd.then fun e => .give (.connection c :: .pipe p :: m ++ [.connection e])) s

/-- config.rs:911-915 -/
def connectionSet : Rule (List ParserConnection) := connectionSetHas.or (.give [])

/-- config.rs:920-935: what has been read so far in `acc`; `none` is the panic of `convert_to_input_breakable`. -/
def applyPipes : List ParserConnection → Option Breakable → List Connection → Option (List Connection)
  | [], _, acc => some acc
  | .connection x :: l, some b, acc => match x.convertToInputBreakable b with
    | some x => applyPipes l none (acc ++ [x])
    | none => none
  | .connection x :: l, none, acc => applyPipes l none (acc ++ [x])
  | .pipe b :: l, _, acc => applyPipes l (some b) acc

/-- What `load_connection_from_string` may do. -/
inductive Loaded where
  | ok (l : List Connection)
  | parseError
  | panic
  deriving Repr, DecidableEq

/-- config.rs:723-938. The generated parser demands that the whole string is used. -/
def loadConnection (s : Str) : Loaded :=
  match connectionSet s with
  | some (l, []) => match applyPipes l none [] with
    | some cs => .ok cs
    | none => .panic
  | _ => .parseError

end Verif
