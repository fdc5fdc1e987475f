import Verif.Model.Launch
import Verif.Model.Buffer
import Verif.Model.Start
/-!
# How components end, and the texts of errors

`/repo/src/bin_support.rs`, the accessors of `MotionError` in `/repo/src/motion.rs`, and the `start` functions as far as their results go.
-/
namespace Verif

/-- motion.rs:244-261 `journey` -/
def MErr.journey : MErr → Option Journey
  | .readIO _ _ => none
  | .closeIO j => some j
  | .openIO _ => none
  | .writeIO j _ _ => some j
  | .recv j => some j
  | .send j _ => some j
  | .outputClosed j _ _ => some j
  | .monitorRead _ => none
  | .monitorWrite j => some ⟨j.src, none, j.dst, .terminate⟩
  | .spyWrite m => some ⟨m.src, some m.srcPort, m.dst, .terminate⟩
  | .launchSpawn => none
  | .noneError => none
  | .panic => none

/-- motion.rs:283-298 `journey_source` -/
def MErr.journeySource : MErr → Option Nat
  | .readIO j _ => some j.src
  | .closeIO j => some j.src
  | .openIO j => some j.src
  | .writeIO j _ _ => some j.src
  | .recv j => some j.src
  | .send j _ => some j.src
  | .outputClosed j _ _ => some j.src
  | .monitorRead s => some s
  | .monitorWrite j => some j.src
  | .spyWrite m => some m.src
  | .launchSpawn => none
  | .noneError => none
  | .panic => none

/-- config.rs `Display` for `ComponentType`, which is its `Debug` -/
def ComponentType.text : ComponentType → Str
  | .faucet => "Faucet".toList
  | .launch => "Launch".toList
  | .junction => "Junction".toList
  | .buffer => "Buffer".toList
  | .drain => "Drain".toList
  | .regulator => "Regulator".toList

/-- bin_support.rs:6-8 -/
def componentText (r : CompRef) : Str := r.1.text ++ ':' :: r.2

/-- waiter.rs:153-158 `caused_by_error_source` -/
def WaiterErr.component : WaiterErr → Option CompRef
  | .causedBy r _ _ => some r
  | _ => none

/-- waiter.rs:160-165 `caused_by_error` -/
def WaiterErr.cause : WaiterErr → Option MErr
  | .causedBy _ e _ => some e
  | _ => none

/-- motion.rs:201-224 `Display`; `reason` is the text inside: of an error of the operating system, of the channel library, or the name of a program. A panic is not
displayed. -/
def MErr.display (reason : MErr → Str) : MErr → Str
  | .readIO j e => "MotionError::ReadIOError: ".toList ++ reason (.readIO j e)
  | .closeIO j => "MotionError::CloseIOError: ".toList ++ reason (.closeIO j)
  | .openIO j => "MotionError::OpenIOError: ".toList ++ reason (.openIO j)
  | .writeIO j e d => "MotionError::WriteIOError: ".toList ++ reason (.writeIO j e d)
  | .recv j => "MotionError::RecvError: ".toList ++ reason (.recv j)
  | .send j d => "MotionError::SendError: ".toList ++ reason (.send j d)
  | .outputClosed _ .brokenPipe _ => "MotionError::OutputClosed: BrokenPipe".toList
  | .outputClosed _ .channelClosed _ => "MotionError::OutputClosed: ChannelClosed".toList
  | .monitorRead s => "MotionError::MonitorReadError: ".toList ++ reason (.monitorRead s)
  | .monitorWrite j => "MotionError::MonitorWriteError: ".toList ++ reason (.monitorWrite j)
  | .spyWrite m => "MotionError::SpyWriteError: ".toList ++ reason (.spyWrite m)
  | .launchSpawn => "MotionError::LaunchSpawnError: Could not run program ".toList ++ reason .launchSpawn
  | .noneError => "MotionError::NoneError: None Error".toList
  | .panic => []

/-- waiter.rs:128-136 `description`; `disp` is `Display` of motion errors. Both of the last two say the same. -/
def WaiterErr.description (disp : MErr → Str) : WaiterErr → Str
  | .causedBy _ e _ => disp e
  | .settingsForMissingRegulator s => "There are no settings for Faucet:".toList ++ s
  | .settingsRefersMissingBuffer f b => "Faucet ".toList ++ f ++ " refers to buffer ".toList ++ b ++ " which does not exist".toList
  | .couldNotPause => "CouldNotPause".toList
  | .couldNotResume => "CouldNotPause".toList

/-- bin_support.rs:11-14 -/
def motionSrc (names : Table Nat CompRef) (e : WaiterErr) : Option CompRef :=
  match e.cause.bind MErr.journeySource with
  | some s => names.get s
  | none => none

/-- bin_support.rs:15-18 -/
def motionDst (names : Table Nat CompRef) (e : WaiterErr) : Option CompRef :=
  match e.cause.bind MErr.journey with
  | some j => names.get j.dst
  | none => none

/-- bin_support.rs:20-25 -/
def reportEnds (names : Table Nat CompRef) (e : WaiterErr) : Str × Str :=
  match e.component, motionSrc names e, motionDst names e with
  | _, some s, some d => (componentText s, componentText d)
  | _, some s, none => (componentText s, "Unknown Destination".toList)
  | some c, none, _ => (componentText c, "Unknown Destination".toList)
  | none, none, _ => ("Unknown Source".toList, "Unknown Destination".toList)

/-- bin_support.rs:4-28 `waiter_error_to_string`; `quote` is `{:?}` of a string. -/
def errorText (disp : MErr → Str) (quote : Str → Str) (names : Table Nat CompRef) (e : WaiterErr) : Str :=
  (reportEnds names e).1 ++ " | ".toList ++ (reportEnds names e).2 ++ " - ".toList ++ quote (e.description disp)

/-- The digits `char::escape_unicode` writes -/
def hexDigit (n : Nat) : Char := if n < 10 then Char.ofNat (48 + n) else Char.ofNat (87 + n)

def hexText (n : Nat) : Str :=
  if n < 16 then [hexDigit n] else hexText (n / 16) ++ [hexDigit (n % 16)]

/-- One character inside a string written with `{:?}`, by the standard library (bin_support.rs:27); `shown` says which characters it considers printable. -/
def debugChar (shown : Char → Bool) (c : Char) : Str :=
  if c = '\x00' then ['\\', '0']
  else if c = '\t' then ['\\', 't']
  else if c = '\r' then ['\\', 'r']
  else if c = '\n' then ['\\', 'n']
  else if c = '"' then ['\\', '"']
  else if c = '\\' then ['\\', '\\']
  else if shown c then [c]
  else ['\\', 'u', '{'] ++ hexText c.toNat ++ ['}']

/-- A string written with `{:?}` -/
def debugText (shown : Char → Bool) (s : Str) : Str := '"' :: s.flatMap (debugChar shown) ++ ['"']

/-- buffer.rs:169-180: the result of a buffer -/
def bufferResult (a b : Except MErr Nat) : Except MErr Nat :=
  match a, b with
  | .ok n, .ok _ => .ok n
  | _, _ => .error .noneError

/-- drain.rs:62-72: what a drain writes to; `none` where it has to make a file and that fails -/
def drainPush (dest : Str) (i : PullEnd) (h : Nat) : Push :=
  if dest = "/dev/null".toList then .none
  else .io ⟨i.src, none, i.dst, .terminate⟩ h

/-- The results `start` of a component can have. What the operating system and the other components do is arbitrary; a failure to start a program is an abort and not among
these. faucet.rs:87-101, launch.rs:152-272, junction.rs:162-184, buffer.rs:81-181, drain.rs:55-79, regulator.rs:92-156 -/
def Comp.Ends (spy : Option Nat) : Comp → Except MErr Nat → Prop
  | .faucet _ none, r => r = .ok 0
  | .faucet f (some p), r =>
    (f ≠ ['-'] ∧ r = .error (.openIO ⟨p.src, p.dst⟩)) ∨
    ∃ h ctl tr, LoopRuns (regulatorBody (.stream ⟨p.src, p.dst⟩ h) p.push spy ctl) 0 tr r
  | .launch id _ _ _ _ inp out err exit, r => ∃ ch tr, LaunchRuns ⟨id, inp, out, err, exit⟩ ch spy tr r
  | .junction ins outs, r => ∃ tr, JunctionRuns (ins.map fun x => (x.1.pull, x.2)) (outs.map PushEnd.push) spy tr r
  | .buffer (some i) (some o) _, r => ∃ (ch : BufferChans) (a b : Except MErr Nat) (ta tb : List Ev),
    ch.spy = spy ∧ ch.input = i.chan ∧
    LoopRuns (motionBody i.pull { written := some ch.mIn } none (.sender ⟨0, none, 0, o.breakable⟩ ch.inner)) 0 ta a ∧
    LoopRuns (motionBody (.receiver ⟨0, 0⟩ ch.inner) { read := some ch.mOut } spy o.push) 0 tb b ∧ r = bufferResult a b
  | .buffer _ _ _, r => r = .error .noneError
  | .drain _ none, r => r = .error .noneError
  | .drain dest (some i), r =>
    (dest ≠ "/dev/null".toList ∧ dest ≠ ['-'] ∧ dest ≠ ['_'] ∧ r = .error (.openIO ⟨i.src, i.dst⟩)) ∨
    ∃ h tr, LoopRuns (motionBody i.pull {} none (drainPush dest i h)) 0 tr r
  | .regulator (some i) (some o) _, r => ∃ ctl tr, LoopRuns (regulatorBody i.pull o.push spy ctl) 0 tr r
  | .regulator _ _ _, r => r = .ok 0

end Verif
