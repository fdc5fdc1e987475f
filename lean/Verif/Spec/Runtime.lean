import Verif.Model.Runtime
import Verif.Spec.Wiring
/-!
# What is connected to what while it runs
-/
namespace Verif

/-- The activity a hop comes from. -/
def Hop.writer (h : Hop) : Who :=
  .part h.from (match h.src.ty with
    | .launch => match h.src.port with
      | .out => .output
      | .err => .error
      | .exit => .exit
    | .buffer => .output
    | _ => .main)

/-- The activity a hop goes to. -/
def Hop.reader (h : Hop) : Who :=
  .part h.to (match h.dst.ty with
    | .launch => .input
    | .buffer => .input
    | _ => .main)

/-- The hop comes from a launch's exit port. -/
def Hop.isExit (h : Hop) : Prop := h.src.ty = .launch ∧ h.src.port = .exit

instance (h : Hop) : Decidable h.isExit := by unfold Hop.isExit; infer_instance

/-- Regulators and buffers have both sides connected, junctions have an output, and no junction or regulator is connected to itself. -/
structure Complete (hs : List Hop) : Prop where
  entered : ∀ r, Mentioned hs r → r.1 = .regulator ∨ r.1 = .buffer → ∃ h ∈ hs, h.to = r
  left : ∀ r, Mentioned hs r → r.1 = .regulator ∨ r.1 = .buffer ∨ r.1 = .junction → ∃ h ∈ hs, h.from = r
  proper : ∀ h ∈ hs, h.from = h.to → h.src.ty ≠ .junction ∧ h.src.ty ≠ .regulator

/-- Something went wrong other than finding a channel to another component closed: a file or stream could not be read or written, a notification was refused. -/
def Act.trouble : Act → Bool
  | .readErr _ _ => true
  | .offer (.handle _) _ .ok => false
  | .offer (.handle _) _ _ => true
  | .spy _ _ ok => !ok
  | .mon _ _ ok => !ok
  | .flush _ ok => !ok
  | _ => false

/-- The other activities of a launch, those its exit part waits for. -/
def relayPieces : List Piece := [.input, .output, .error]

/-- What one activity does reaches another without leaving the program: along a hop, inside a buffer, or from the end of a launch's relays through its exit port. From a launch's
input to its outputs it goes through another program, so that does not count. -/
inductive Leads (hs : List Hop) : Who → Who → Prop
  | hop {h : Hop} : h ∈ hs → ¬ h.isExit → Leads hs h.writer h.reader
  | exit {h : Hop} {p : Piece} : h ∈ hs → h.isExit → p ∈ relayPieces → Leads hs (.part h.from p) h.reader
  | buffer {x : Str} : Mentioned hs (.buffer, x) → Leads hs (.part (.buffer, x) .input) (.part (.buffer, x) .output)

/-- Nothing leads back to where it started. -/
def CircleFree (hs : List Hop) : Prop := ∀ i, ¬ Relation.TransGen (Leads hs) i i

/-- An activity can make a step. -/
def Waiter.CanStep (w : Waiter) (cs : List Capture) (cap : Caps) (τ : List (Who × Ev)) (i : Who) : Prop := ∃ e, w.Run cs cap (τ ++ [(i, e)])

/-- Nothing to do but to look again and again, except perhaps for passing on what it has in hand: a junction all of whose remaining inputs are empty and open, or the count of a buffer that has heard
everything there is, with more possibly to come. That something can happen elsewhere says more than that something other than looking can happen. -/
def Waiter.Idle (w : Waiter) (st : Store) (τ : List (Who × Ev)) (i : Who) : Prop :=
  w.net.Idle st τ i ∨ ∃ r, i = .part r .count ∧ (∀ m ∈ [2 * w.idOf r, 2 * w.idOf r + 1], (st .mon m).q = []) ∧
    ∃ m ∈ [2 * w.idOf r, 2 * w.idOf r + 1], (st .mon m).closed = false

end Verif
