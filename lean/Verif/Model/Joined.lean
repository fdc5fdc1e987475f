import Verif.Model.Runtime
import Verif.Model.Poll
import Verif.Model.Unopened
import Verif.Spec.Wiring
/-!
# `waiter.rs`, `start`: how everything runs

`start` awaits one future made of all components (waiter.rs:391-401), so they are polled in order. How much the channels hold.
-/
namespace Verif

/-- The activities of one component in the order they are polled. launch.rs:231-233 (the exit part comes after the others), buffer.rs:170 -/
def pieces : List Piece := [.main, .input, .output, .error, .exit, .count]

/-- Everyone in the order they are polled: launches, regulators, faucets, managers, drains, buffers, junctions (waiter.rs:401); `rs` is the order of the components in their
`HashMap`s, which may be any. -/
def pollOrder (cs : List Capture) (rs : List CompRef) : List Who :=
  let parts (ty : ComponentType) : List Who := (rs.filter fun r => decide (r.1 = ty)).flatMap fun r => pieces.map (Who.part r)
  parts .launch ++ parts .regulator ++ parts .faucet ++ cs.map (fun c => .manager c.regulator) ++ parts .drain ++ parts .buffer ++ parts .junction

/-- Everything in the order it is polled. waiter.rs:391-401 -/
def Waiter.joined (w : Waiter) (cs : List Capture) (rs : List CompRef) : List (Who × Task) := (pollOrder cs rs).filterMap fun i => (w.sys cs i).map fun t => (i, t)

/-- The same when some files cannot be opened (`Waiter.sysWith`). waiter.rs:391-401 -/
def Waiter.joinedWith (w : Waiter) (cs : List Capture) (bad : CompRef → Bool) (rs : List CompRef) : List (Who × Task) :=
  (pollOrder cs rs).filterMap fun i => (w.sysWith cs bad i).map fun t => (i, t)

/-- How much fits into the channels. Between components: 1 behind a launch (launch.rs:59-75), else 8 (`stdout_size`; faucet.rs:34, 71, regulator.rs:28, 70, junction.rs:65, 146, buffer.rs:35, 58).
Inside a buffer: any amount (buffer.rs:83). Control requests: 1 (regulator.rs:43). Notifications and size reports: 8 (buffer.rs:67, 84-85). -/
def realCaps (hs : List Hop) : Caps
  | .data, ch => match hs[ch]? with
    | some h => some (if h.src.ty = .launch then 1 else 8)
    | none => none
  | .ctl, _ => some 1
  | _, _ => some 8

end Verif
