import Verif.Model.Motion
/-!
# `/repo/src/config.rs` lines 1-215, `/repo/src/connectable.rs` lines 1-55: the configuration types

Strings are lists of characters. `isize` and `usize` are those of a 64 bit machine; where a number is only stored and
compared it is an unbounded one.
-/
namespace Verif

abbrev Str := List Char

/-- config.rs:14-21 -/
inductive ComponentType where
  | faucet | launch | junction | buffer | drain | regulator
  deriving Repr, DecidableEq

/-- connectable.rs:49-55 -/
structure InputPort where
  breakable : Breakable
  priority : Int
  deriving Repr, DecidableEq

/-- config.rs:113-136 -/
inductive Connection where
  | middle (ty : ComponentType) (name : Str) (input : InputPort) (output : OutputPort) (set : Option Str)
  | start (ty : ComponentType) (name : Str) (output : OutputPort) (set : Option Str)
  | «end» (ty : ComponentType) (name : Str) (input : InputPort) (set : Option Str)
  deriving Repr, DecidableEq

/-- config.rs:140-152 -/
def Connection.ty : Connection → ComponentType
  | .middle ty .. => ty
  | .start ty .. => ty
  | .end ty .. => ty

/-- Used like `component_type` in config.rs:508-512 and elsewhere. -/
def Connection.name : Connection → Str
  | .middle _ n .. => n
  | .start _ n .. => n
  | .end _ n .. => n

/-- config.rs:153-178; `none` is the panic. -/
def Connection.convertToInputBreakable (b : Breakable) : Connection → Option Connection
  | .middle ty n i o s => some (.middle ty n { i with breakable := b } o s)
  | .start .. => none
  | .end ty n i s => some (.end ty n { i with breakable := b } s)

/-- config.rs:181-186 -/
inductive ParserConnection where
  | connection (c : Connection)
  | pipe (b : Breakable)
  deriving Repr, DecidableEq

/-- config.rs:188-193 -/
inductive DConn where
  | join (s : Str)
  | conns (l : List Connection)
  deriving Repr, DecidableEq

end Verif
