import Verif.Model.Motion
/-!
# `/repo/src/regulator.rs`, and the same code in `/repo/src/faucet.rs`

regulator.rs:102-156 and faucet.rs:109-163 (`start_secret`) are the same text, and so are
regulator.rs:160-183 and faucet.rs:167-190 (the control handles); they are modelled once.
-/
namespace Verif

/-- regulator.rs:109-115 `control`: if there is a request, wait for the next one. `none` is a
regulator that nobody controls. -/
def controlPoint : Option Nat → Prog Unit
  | none => pure ()
  | some c => do
    match ← req (.tryRecv .ctl c) with
    | .got _ => do
      let _ ← req (.recv .ctl c)
      pure ()
    | _ => pure ()

/-- regulator.rs:127-129 -/
def closeControl : Option Nat → Prog Unit
  | none => pure ()
  | some c => do
    req (.close .ctl c)

/-- regulator.rs:120-151: one round of the `loop`; the state is `read_count`. `self.stdout` was taken
in line 117, so the loop over it in lines 124-126 does nothing; the output is closed when `stdouts`
is dropped, which `regulatorTask` in `Verif.Model.System` accounts for. -/
def regulatorBody (pull : Pull) (push : Push) (spy : Option Nat) (ctl : Option Nat) (readCount : Nat) :
    Prog (Nat ⊕ Except MErr Nat) := do
  match ← (motionWorker pull {} [push] spy false).run with
  | .ok result =>
    if result.finished then do
      closeControl ctl
      pure (.inr (.ok readCount))
    else do
      controlPoint ctl
      pure (.inl (readCount + 1))
  | .error (.outputClosed j why d) =>
    if push.breakable = .terminate then pure (.inr (.error (.outputClosed j why d)))
    else if push.breakable = .finish then pure (.inr (.ok readCount))
    else do
      controlPoint ctl
      pure (.inl (readCount + 1))
  | .error e => pure (.inr (.error e))

/-- regulator.rs:160-164 `RegulatorControl` -/
structure Control where
  paused : Bool
  chan : Nat
  deriving Repr, DecidableEq

/-- regulator.rs:45-48 -/
def Control.new (c : Nat) : Control := ⟨false, c⟩

/-- regulator.rs:169-173: the new handle and the returned `Ok(..)`; the error case does not exist. -/
def Control.pause (h : Control) : Prog (Control × Bool) := do
  if h.paused then pure (h, false)
  else do
    let b ← req (.send .ctl h.chan ())
    pure ({ h with paused := true }, b)

/-- regulator.rs:176-180 -/
def Control.resume (h : Control) : Prog (Control × Bool) := do
  if !h.paused then pure (h, false)
  else do
    let b ← req (.send .ctl h.chan ())
    pure ({ h with paused := false }, b)

/-- What a holder of the control handle can do with it. -/
inductive Call where
  | pause | resume
  deriving Repr, DecidableEq

def Control.call (h : Control) : Call → Prog (Control × Bool)
  | .pause => h.pause
  | .resume => h.resume

/-- Some calls one after the other; the result collects what they returned. -/
def Control.calls (h : Control) : List Call → Prog (Control × List Bool)
  | [] => pure (h, [])
  | x :: xs => do
    let (h', b) ← h.call x
    let (h'', bs) ← h'.calls xs
    pure (h'', b :: bs)

end Verif
