import Verif.Model.Tasks
/-!
# Flow control: `/repo/src/waiter.rs` lines 28-100

Not modelled: overflow of the `usize` sums; the pretty-printing of the errors `CouldNotPause` and
`CouldNotResume`, which cannot occur since `pause` and `resume` never return an error.
-/
namespace Verif

/-- waiter.rs:42 `Bsm` -/
structure Monitor where
  size : Nat
  chan : Nat
  deriving Repr, DecidableEq

/-- What is known after lines 58-77: the monitors, `to_remove`, `total`, and how many reports were read (the
increase of `read_count`; `nothing_read` says that it is 0). -/
structure Look where
  monitors : List Monitor := []
  toRemove : List Nat := []
  total : Nat := 0
  reads : Nat := 0

/-- waiter.rs:61-77: the loop over the enumerated monitors. -/
def look : Nat → List Monitor → Prog Look
  | _, [] => pure {}
  | index, m :: ms => do
    match ← req (.tryRecv .size m.chan) with
    | .closed => do
      let l ← look (index + 1) ms
      pure { l with monitors := m :: l.monitors, toRemove := index :: l.toRemove }
    | .empty => do
      let l ← look (index + 1) ms
      pure { l with monitors := m :: l.monitors, total := m.size + l.total }
    | .got n => do
      let l ← look (index + 1) ms
      pure { l with monitors := { m with size := n } :: l.monitors, total := n + l.total, reads := l.reads + 1 }

/-- waiter.rs:86-88: removal, last index first. The removed receiver is dropped; its channel is closed already. -/
def removeMonitors (toRemove : List Nat) (monitors : List Monitor) : List Monitor :=
  toRemove.reverse.foldl (fun ms i => ms.eraseIdx i) monitors

/-- The manager's variables between two rounds; `shut` says that `regulator_status` is `Closed`. -/
structure Manager where
  monitors : List Monitor
  shut : Bool
  control : Control
  backOff : BackOff
  readCount : Nat
  deriving Repr, DecidableEq

/-- waiter.rs:78-81 -/
def pauseAbove (high total : Nat) (s : Manager) : Prog Manager := do
  if s.shut = false ∧ total ≥ high then do
    let (c, _) ← s.control.pause
    pure { s with control := c, shut := true }
  else pure s

/-- waiter.rs:82-85 -/
def resumeBelow (low total : Nat) (s : Manager) : Prog Manager := do
  if s.shut = true ∧ total ≤ low then do
    let (c, _) ← s.control.resume
    pure { s with control := c, shut := false }
  else pure s

/-- waiter.rs:57-100: one round of the `loop` of `manage_regulator_from_buffers`. -/
def managerBody (low high : Nat) (s : Manager) : Prog (Manager ⊕ Nat) := do
  let l ← look 0 s.monitors
  let s := { s with monitors := l.monitors, readCount := s.readCount + l.reads }
  let s ← pauseAbove high l.total s
  let s ← resumeBelow low l.total s
  let s := { s with monitors := removeMonitors l.toRemove s.monitors }
  if s.monitors = [] then pure (.inr s.readCount)
  else if l.reads = 0 then do
    let (b, _) ← s.backOff.wait
    pure (.inl { s with backOff := b })
  else pure (.inl { s with backOff := s.backOff.reset.1 })

/-- waiter.rs:37-56 -/
def managerInit (ctl : Nat) (chans : List Nat) : Manager :=
  { monitors := chans.map fun c => ⟨0, c⟩, shut := false, control := Control.new ctl, backOff := BackOff.new, readCount := 0 }

/-- waiter.rs:37 takes the control handle and the monitors by value. -/
def managerTask (low high : Nat) (ctl : Nat) (chans : List Nat) : Task where
  σ := Manager
  ρ := Nat
  body := managerBody low high
  init := managerInit ctl chans
  drops := (.ctl, ctl) :: chans.map fun c => (Kind.size, c)

end Verif
