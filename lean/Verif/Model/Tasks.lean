import Verif.Model.System
import Verif.Model.Regulator
import Verif.Model.Junction
/-!
# The components as tasks

Which channel ends a component drops when it ends: those it owns as locals or arguments. Ends kept in
the component's own fields live until the waiter is dropped, after the run.
-/
namespace Verif

/-- The receiving end owned by a pull. -/
def Pull.owned : Pull → List (Kind × Nat)
  | .receiver _ c => [(.data, c)]
  | _ => []

/-- The sending end owned by a push. -/
def Push.owned : Push → List (Kind × Nat)
  | .sender _ c => [(.data, c)]
  | _ => []

/-- motion.rs:564 `motion` takes its input, output and notification channels by value. -/
def relayTask (pull : Pull) (mon : Notifications) (spy : Option Nat) (push : Push) : Task where
  σ := Nat
  ρ := Except MErr Nat
  body := motionBody pull mon spy push
  init := 0
  drops := push.owned ++ (mon.read.map fun c => (Kind.mon, c)).toList ++
    (mon.written.map fun c => (Kind.mon, c)).toList ++ pull.owned

/-- regulator.rs:102-156, faucet.rs:109-163: `stdin` and `stdouts` are locals; `self.control` is kept. -/
def regulatorTask (pull : Pull) (push : Push) (spy : Option Nat) (ctl : Option Nat) : Task where
  σ := Nat
  ρ := Except MErr Nat
  body := regulatorBody pull push spy ctl
  init := 0
  drops := push.owned ++ pull.owned

/-- junction.rs:162-184: a junction drops its inputs itself, as part of its loop; its outputs stay in its
own fields. -/
def junctionTask (inputs : List (Pull × Int)) (pushs : List Push) (spy : Option Nat) : Task where
  σ := JState
  ρ := Except MErr Nat
  body := junctionBody pushs spy
  init := junctionInit inputs
  drops := []

/-- A holder of a control handle that makes the given calls and then drops the handle. -/
def callerTask (c : Nat) (calls : List Call) : Task where
  σ := Control × List Call
  ρ := Unit
  body := fun s => match s.2 with
    | [] => pure (.inr ())
    | x :: xs => do
      let (h, _) ← s.1.call x
      pure (.inl (h, xs))
  init := (Control.new c, calls)
  drops := [(.ctl, c)]

end Verif
