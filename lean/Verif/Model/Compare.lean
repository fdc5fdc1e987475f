import Verif.Model.Report
/-!
# Comparing errors, and reading names of ports

The rest of `/repo/src/motion.rs` on `MotionError`, and `/repo/src/connectable.rs` on `OutputPort`.
-/
namespace Verif

/-- motion.rs:263-281 `pull_journey` -/
def MErr.pullJourney : MErr → Option PullJourney
  | .readIO j _ => some j
  | .closeIO _ => none
  | .openIO j => some j
  | .writeIO _ _ _ => none
  | .recv _ => none
  | .send _ _ => none
  | .outputClosed _ _ _ => none
  | .monitorRead _ => none
  | .monitorWrite j => some j
  | .spyWrite m => some ⟨m.src, m.dst⟩
  | .launchSpawn => none
  | .noneError => none
  | .panic => none

/-- motion.rs:301-315 `PartialEq for MotionError`. Neither times nor errors of the operating system are compared. What could not be sent to a monitor is left out of the model's errors, as for each of the two
kinds it is always the same message; `panic` is not an error of the code. -/
def MErr.eq : MErr → MErr → Bool
  | .recv j, .recv j2 => decide (j = j2)
  | .writeIO j _ b, .writeIO j2 _ b2 => decide (b = b2) && decide (j = j2)
  | .readIO j _, .readIO j2 _ => decide (j = j2)
  | .send j a, .send j2 a2 => decide (j = j2) && decide (a = a2)
  | .monitorRead j, .monitorRead j2 => decide (j = j2)
  | .monitorWrite j, .monitorWrite j2 => decide (j = j2)
  | .spyWrite a, .spyWrite a2 => decide (a = a2)
  | .noneError, .noneError => true
  | _, _ => false

/-- connectable.rs:29-46 `FromStr for OutputPort` -/
def OutputPort.parse (s : Str) : Except Str OutputPort :=
  if s = "err".toList then .ok .err
  else if s = "Err".toList then .ok .err
  else if s = "ERR".toList then .ok .err
  else if s = "exit".toList then .ok .exit
  else if s = "Exit".toList then .ok .exit
  else if s = "EXIT".toList then .ok .exit
  else if s = "out".toList then .ok .out
  else if s = "Out".toList then .ok .out
  else if s = "OUT".toList then .ok .out
  else .error s

end Verif
