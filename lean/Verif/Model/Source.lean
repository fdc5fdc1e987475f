import Verif.Model.Split
import Verif.Model.Prog
/-!
# Byte streams as the sources of messages

`streamRead` (Model/Prog.lean) is one call of `motion_read` on a byte stream; here is what it answers when the stream delivers certain chunks. motion.rs:387-413
-/
namespace Verif

/-- motion.rs:387-396: what a read of one message from a stream means for the loop that asked for it. -/
def readAnswer : Except Nat IOW → StreamRes
  | .ok (.data d) => .line d
  | .ok _ => .eof
  | .error e => .err e

/-- The answers to the reads of a stream, in order. -/
def answers (h : Nat) (tr : List Ev) : List StreamRes := tr.filterMap fun
  | ⟨.streamRead h', r⟩ => if h' = h then some r else none
  | _ => none

/-- The reads of a stream were answered as `motion_read_buffer` does when the stream delivers these chunks, and then its end. faucet.rs:87-101, launch.rs:152-272: each stream is read by
one `Pull`, made with it. -/
def ReadsFrom (h : Nat) (chunks : List Bytes) (tr : List Ev) : Prop :=
  answers h tr = (readTimes (answers h tr).length (Stream.new (chunks.map .data))).1.map readAnswer

end Verif
