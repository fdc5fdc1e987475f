import Verif.Model.Tasks
import Verif.Model.Waiter
/-!
# `launch.rs`: running a program

The program itself is not modelled: reading its output is a stream, writing to its input is I/O, asking for its exit status may give anything. That it could not be
spawned is an abort (`unwrap`, launch.rs:183-187), before anything is moved.
-/
namespace Verif

/-- The writing end of a channel as it is used. -/
def PushEnd.push (p : PushEnd) : Push := .sender ⟨p.src, some p.port, p.dst, p.breakable⟩ p.chan

/-- The reading end of a channel as it is used. -/
def PullEnd.pull (p : PullEnd) : Pull := .receiver ⟨p.src, p.dst⟩ p.chan

/-- The streams of the program: the numbers of its input, output and error. -/
structure Child where
  stdin : Nat
  stdout : Nat
  stderr : Nat

/-- What is connected: launch.rs:28-41, the fields of `Launch` that matter here. -/
structure LaunchEnds where
  id : Nat
  stdin : Option PullEnd
  stdout : Option PushEnd
  stderr : Option PushEnd
  exit : Option PushEnd

inductive Part where
  | input | output | error
  deriving Repr, DecidableEq

/-- launch.rs:160-170, 189-195: what the relay to the program's input reads from and writes to. The pipe into the program is `Finish`. -/
def LaunchEnds.toInput (l : LaunchEnds) (ch : Child) : Pull × Push :=
  match l.stdin with
  | none => (.none, .none)
  | some p => (p.pull, .io ⟨p.src, none, l.id, .finish⟩ ch.stdin)

/-- launch.rs:199-211, 215-227: what the relay from the program's output, or error output, reads from and writes to -/
def fromStream (id stream : Nat) : Option PushEnd → Pull × Push
  | none => (.none, .none)
  | some p => (.stream ⟨id, p.dst⟩ stream, p.push)

/-- The three pipes. -/
def LaunchEnds.pipe (l : LaunchEnds) (ch : Child) : Part → Pull × Push
  | .input => l.toInput ch
  | .output => fromStream l.id ch.stdout l.stdout
  | .error => fromStream l.id ch.stderr l.stderr

/-- launch.rs:197, 213, 229: only the output relays are spied on. -/
def partSpy (spy : Option Nat) : Part → Option Nat
  | .input => none
  | .output => spy
  | .error => spy

/-- launch.rs:197, 213, 229: the three relays -/
def LaunchEnds.relay (l : LaunchEnds) (ch : Child) (spy : Option Nat) (i : Part) : Task := relayTask (l.pipe ch i).1 {} (partSpy spy i) (l.pipe ch i).2

/-- launch.rs:237 `format!("{:?}", exit_status)` -/
def codeText (n : Int) : Str := if n < 0 then '-' :: natStr n.natAbs else natStr n.natAbs

/-- The bytes of a text of ASCII characters. -/
def asciiBytes (s : Str) : Bytes := s.map fun c => c.toNat.toUInt8

/-- launch.rs:235-245: the message for an exit status, if there is one -/
def exitMessage : StatusRes → Option Bytes
  | .err => none
  | .code n => some (asciiBytes (codeText n))
  | .killed => some (asciiBytes ['_'])

/-- launch.rs:248: handing it over, whatever the pipe variation -/
def offerExit (p : PushEnd) (m : Bytes) : M Unit := do
  if ← ask (.send .data p.chan m) then pure () else throw (.send ⟨p.src, some p.port, p.dst, p.breakable⟩ m)

/-- launch.rs:249-252: the spy record -/
def exitSpy (spy : Option Nat) (p : PushEnd) (m : Bytes) : M Unit :=
  match spy with
  | some c => do
    if ← ask (.send .spy c ⟨p.src, p.dst, p.port, .data m⟩) then pure () else throw (.spyWrite ⟨p.src, p.dst, p.port, .data m⟩)
  | none => pure ()

/-- launch.rs:248-253 -/
def sendExit (spy : Option Nat) (p : PushEnd) (m : Bytes) : M Unit := do
  offerExit p m
  exitSpy spy p m
  ask (.close .data p.chan)

/-- launch.rs:246-257: what is done once asked; `.inl` is going round again -/
def exitStep (spy : Option Nat) (p : PushEnd) : Option Bytes → Prog (Unit ⊕ Except MErr Unit)
  | none => do
    req (.sleep 100)
    pure (.inl ())
  | some m => do
    let r ← (sendExit spy p m).run
    pure (.inr r)

/-- launch.rs:234-258: one round of the loop -/
def exitBody (spy : Option Nat) (p : PushEnd) : Unit → Prog (Unit ⊕ Except MErr Unit) := fun _ => do
  exitStep spy p (exitMessage (← req .status))

/-- launch.rs:261-268 `structure_motion_result` -/
def structureResult (input output error : Except MErr Nat) : Except MErr Nat :=
  match input, output, error with
  | .ok n, .ok _, .ok _ => .ok n
  | .error e, _, _ => .error e
  | _, .error e, _ => .error e
  | _, _, .error e => .error e

/-- The relay has ended with this result. -/
def LaunchEnds.ended (l : LaunchEnds) (ch : Child) (spy : Option Nat) (i : Part) (tr : List Ev) (r : Except MErr Nat) : Prop :=
  ∃ t, LoopRuns (l.relay ch spy i).body (l.relay ch spy i).init t r ∧ tr = t ++ dropEvs (l.relay ch spy i).drops

/-- What becomes of the result: an error of the exit port replaces everything (`?` in launch.rs:248, 251). -/
def withExit (x : Except MErr Unit) (r : Except MErr Nat) : Except MErr Nat :=
  match x with
  | .ok () => r
  | .error e => .error e

/-- launch.rs:152-272 `start`, once the program runs: the events of the three relays in any interleaving (launch.rs:231), their results, then the events of the exit port
if it is connected, and the result. -/
def LaunchEnds.Run (l : LaunchEnds) (ch : Child) (spy : Option Nat) (τ : List (Part × Ev)) (res : Part → Except MErr Nat) (te : List Ev) (r : Except MErr Nat) : Prop :=
  (∀ i, l.ended ch spy i (proj i τ) (res i)) ∧
    match l.exit with
    | none => te = [] ∧ r = structureResult (res .input) (res .output) (res .error)
    | some p => ∃ x, LoopRuns (exitBody spy p) () te x ∧ r = withExit x (structureResult (res .input) (res .output) (res .error))

/-- A complete run. -/
def LaunchRuns (l : LaunchEnds) (ch : Child) (spy : Option Nat) (tr : List Ev) (r : Except MErr Nat) : Prop :=
  ∃ (τ : List (Part × Ev)) (te : List Ev) (res : Part → Except MErr Nat), tr = τ.map Prod.snd ++ te ∧ l.Run ch spy τ res te r

/-- A run that may not be over. -/
def LaunchPartial (l : LaunchEnds) (ch : Child) (spy : Option Nat) (tr : List Ev) : Prop :=
  (∃ τ : List (Part × Ev), tr = τ.map Prod.snd ∧ ∀ i, (l.relay ch spy i).Partial (proj i τ)) ∨
  ∃ (τ : List (Part × Ev)) (te : List Ev) (p : PushEnd), tr = τ.map Prod.snd ++ te ∧ (∀ i, (l.relay ch spy i).Done (proj i τ)) ∧ l.exit = some p ∧
    (LoopPartial (exitBody spy p) () te ∨ ∃ x, LoopRuns (exitBody spy p) () te x)

end Verif
