import Verif.Spec.Chan
/-!
# Specification: what a flow manager has been told and has requested

Everything is read off the trace.
-/
namespace Verif

/-- The last size reported on channel `c`, 0 at first. -/
def reported (c : Nat) (tr : List Ev) : Nat := ((gotOn .size c tr).getLast?).getD 0

/-- The event tells that channel `c` of size reports has ended. -/
def tellsEnd (c : Nat) : Ev → Bool
  | ⟨.tryRecv .size c', .closed⟩ => decide (c' = c)
  | _ => false

/-- The end of channel `c` has been noticed. -/
def ended (c : Nat) (tr : List Ev) : Bool := tr.any (tellsEnd c)

/-- What one buffer is known to hold. -/
def holds (c : Nat) (tr : List Ev) : Nat := if ended c tr then 0 else reported c tr

/-- The sum of the last sizes reported by the buffers still open. -/
def occupancy (chans : List Nat) (tr : List Ev) : Nat := (chans.map fun c => holds c tr).sum

/-- A request to the regulator. -/
def isRequest (c : Nat) : Ev → Bool
  | ⟨.send .ctl c' _, _⟩ => decide (c' = c)
  | _ => false

/-- How many requests have been made. They alternate (`C18_alternate`), so the next one is a pause if this is
even. -/
def requests (c : Nat) (tr : List Ev) : Nat := tr.countP (isRequest c)

/-- A look at a buffer. -/
def isLook : Ev → Bool
  | ⟨.tryRecv .size _, _⟩ => true
  | _ => false

/-- The manager goes to sleep. -/
def isSleep : Ev → Bool
  | ⟨.sleep _, _⟩ => true
  | _ => false

end Verif
