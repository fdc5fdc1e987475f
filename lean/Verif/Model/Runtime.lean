import Verif.Model.Start
import Verif.Model.Report
import Verif.Model.Manager
import Verif.Model.Buffer
import Verif.Spec.Network
/-!
# `waiter.rs`, `start`: everything that runs

`Waiter::start` (waiter.rs:355-421) starts all components and managers and waits until all have ended; the program never spies on them (bin/pa2.rs:553). What they do is
modelled elsewhere; here it is put together. Components work as one or several activities running side by side. Programs can be started and files
opened.

The channels between components have the numbers they got from `get_waiter`. The others get numbers by the identity of their component: a buffer's inner channel, its two
notification channels and its size reports, a regulator's control; so do streams.
-/
namespace Verif

/-- The activities of a component. Launches have an input, an output, an error output and an exit part (launch.rs:197-258); buffers an input and an output part and a count
(buffer.rs:99-172); the others are one. -/
inductive Piece where
  | main | input | output | error | exit | count
  deriving Repr, DecidableEq

/-- Activities of components, and the managers of regulators. -/
inductive Who where
  | part (r : CompRef) (p : Piece)
  | manager (regulator : Str)
  deriving Repr, DecidableEq

/-- The streams of the program of a launch. -/
def childOf (id : Nat) : Child := ⟨3 * id, 3 * id + 1, 3 * id + 2⟩

/-- A relay, unless there is nothing to relay: without an input `motion` ends at once (motion.rs:399). -/
def relayNode : Pull × Push → Option Node
  | (.none, _) => none
  | (pull, push) => some (.relay pull {} none push)

/-- The parts of a component that move data, `id` being the identity of the component and `n` the number of channels between components. faucet.rs:87-163, launch.rs:152-231,
junction.rs:162-184, buffer.rs:81-110, drain.rs:55-79, regulator.rs:92-156 -/
def Comp.node (id n : Nat) : Comp → Piece → Option Node
  | .faucet _ (some o), .main => some (.regulator (.stream ⟨o.src, o.dst⟩ (3 * id)) o.push none none)
  | .launch self _ _ _ _ inp out err exit, .input => relayNode (LaunchEnds.pipe ⟨self, inp, out, err, exit⟩ (childOf id) .input)
  | .launch self _ _ _ _ inp out err exit, .output => relayNode (LaunchEnds.pipe ⟨self, inp, out, err, exit⟩ (childOf id) .output)
  | .launch self _ _ _ _ inp out err exit, .error => relayNode (LaunchEnds.pipe ⟨self, inp, out, err, exit⟩ (childOf id) .error)
  | .junction ins outs, .main => some (.junction (ins.map fun x => (x.1.pull, x.2)) (outs.map PushEnd.push) none)
  | .buffer (some i) (some o) _, .input => some (.relay i.pull { written := some (2 * id) } none (.sender ⟨0, none, 0, o.breakable⟩ (n + id)))
  | .buffer (some _) (some o) _, .output => some (.relay (.receiver ⟨0, 0⟩ (n + id)) { read := some (2 * id + 1) } none o.push)
  | .drain dest (some i), .main => some (.relay i.pull {} none (drainPush dest i (3 * id)))
  | .regulator (some i) (some o) ctl, .main => some (.regulator i.pull o.push none (if ctl then some id else none))
  | _, _ => none

/-- The components that move data. -/
def Waiter.node (w : Waiter) : Who → Option Node
  | .part r p => match w.comps.get r with
    | none => none
    | some k => k.node (w.idOf r) w.chans p
  | .manager _ => none

def Waiter.net (w : Waiter) : Network Who := ⟨w.node⟩

/-- launch.rs:233-259: the exit part. It borrows the sending end, which stays in the launch's field. -/
def exitTask (e : PushEnd) : Task where
  σ := Unit
  ρ := Except MErr Unit
  body := exitBody none e
  init := ()
  drops := []

/-- A component that ends at once, dropping some ends. -/
def dropTask (l : List (Kind × Nat)) : Task where
  σ := Unit
  ρ := Unit
  body := fun _ => pure (.inr ())
  init := ()
  drops := l

/-- The other activities: exit parts, counts; regulators that lack one side (regulator.rs:117: both fields are taken out and what was there is dropped) and buffers without
output (buffer.rs:87-88: the input is taken out and dropped). A buffer without input leaves its output in its field, so it closes nothing. -/
def Comp.other (id : Nat) : Comp → Piece → Option Task
  | .launch _ _ _ _ _ _ _ _ (some e), .exit => some (exitTask e)
  | .buffer (some _) (some _) mon, .count => some (totalTask (if mon then some id else none) (2 * id) (2 * id + 1))
  | .buffer (some i) none _, .main => some (dropTask i.pull.owned)
  | .regulator (some i) none _, .main => some (dropTask i.pull.owned)
  | .regulator none (some o) _, .main => some (dropTask o.push.owned)
  | _, _ => none

/-- All activities; `cs` says which managers there are. waiter.rs:37-100, 391-401 -/
def Waiter.sys (w : Waiter) (cs : List Capture) : Who → Option Task
  | .part r p => match w.comps.get r with
    | none => none
    | some k => match k.node (w.idOf r) w.chans p with
      | some n => some n.task
      | none => k.other (w.idOf r) p
  | .manager r => match cs.find? (fun c => c.regulator = r) with
    | none => none
    | some c => some (managerTask c.low c.high (w.idOf (.regulator, r)) (c.buffers.map fun b => w.idOf (.buffer, b)))

/-- What can happen after `start`: every activity follows its program, there are no others, and the exit part of a launch begins when its relays have ended
(launch.rs:231-233). -/
structure Waiter.Run (w : Waiter) (cs : List Capture) (cap : Caps) (τ : List (Who × Ev)) : Prop where
  exec : Execution cap (w.sys cs) τ
  known : ∀ x ∈ τ, w.sys cs x.1 ≠ none
  exits : ∀ τ₁ τ₂ r e, τ = τ₁ ++ (.part r .exit, e) :: τ₂ → ∀ p ∈ [Piece.input, .output, .error], ∀ t, w.sys cs (.part r p) = some t →
    t.Done (proj (.part r p) τ₁)

/-- Everything has ended; then `start` returns. -/
def Waiter.Over (w : Waiter) (cs : List Capture) (τ : List (Who × Ev)) : Prop := ∀ i t, w.sys cs i = some t → t.Done (proj i τ)

end Verif
