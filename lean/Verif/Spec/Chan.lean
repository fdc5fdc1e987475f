import Verif.Model.Prog
/-!
# Specification: what went through a channel
-/
namespace Verif

/-- The payload accepted by channel `c` of kind `k` in an event, if any. -/
def sentOf (k : Kind) (c : Nat) : Ev → Option k.Payload
  | ⟨.send k' c' v, true⟩ => if h : k' = k ∧ c' = c then some (h.1 ▸ v) else none
  | _ => none

/-- The payload taken out of channel `c` of kind `k` in an event, if any. -/
def gotOf (k : Kind) (c : Nat) : Ev → Option k.Payload
  | ⟨.recv k' c', some v⟩ => if h : k' = k ∧ c' = c then some (h.1 ▸ v) else none
  | ⟨.tryRecv k' c', .got v⟩ => if h : k' = k ∧ c' = c then some (h.1 ▸ v) else none
  | _ => none

/-- Everything accepted by the channel, in order. -/
def sentOn (k : Kind) (c : Nat) (tr : List Ev) : List k.Payload := tr.filterMap (sentOf k c)

/-- Everything taken out of the channel, in order. -/
def gotOn (k : Kind) (c : Nat) (tr : List Ev) : List k.Payload := tr.filterMap (gotOf k c)

/-- The event closes channel `c` of kind `k`. -/
def closesChan (k : Kind) (c : Nat) : Ev → Bool
  | ⟨.close k' c', _⟩ => decide (k' = k ∧ c' = c)
  | _ => false

/-- The channel was closed in `tr`. -/
def closedIn (k : Kind) (c : Nat) (tr : List Ev) : Prop := ∃ e ∈ tr, closesChan k c e = true

/-- The channel a request concerns. -/
def Req.on : Req → Option (Kind × Nat)
  | .recv k c => some (k, c)
  | .tryRecv k c => some (k, c)
  | .send k c _ => some (k, c)
  | .close k c => some (k, c)
  | .stat k c => some (k, c)
  | _ => none

end Verif
