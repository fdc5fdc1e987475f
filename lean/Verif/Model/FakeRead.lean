import Verif.Model.Split
import Verif.Model.Config
/-!
# The source of the tests (`/repo/src/fake_read.rs`) and writing of messages (`/repo/src/motion.rs:29-57`)
-/
namespace Verif

/-- fake_read.rs:6-11 -/
structure FakeReader where
  src : Bytes
  pos : Nat
  maxRead : Option Nat
  deriving DecidableEq

/-- fake_read.rs:16-22 `new_by_size` -/
def FakeReader.newBySize (s : Bytes) (size : Nat) : FakeReader := ⟨s, 0, some size⟩

/-- fake_read.rs:23-29 `new` -/
def FakeReader.new (s : Bytes) : FakeReader := ⟨s, 0, none⟩

/-- fake_read.rs:36-62 `poll_read` with a buffer of `n` bytes: the bytes that are put at its beginning, as many as are reported, and the reader afterwards. `none` for the subtraction that would panic (or
wrap round) at line 42. Line 57 does not index outside either slice, as the number of bytes is at most what is left and at most the size of the buffer. -/
def FakeReader.pollRead (r : FakeReader) (n : Nat) : Option (Bytes × FakeReader) :=
  if r.src.length < r.pos then none
  else
    let a := r.src.length - r.pos
    let a := if a > n then n else a
    let a := if a > r.maxRead.getD a then r.maxRead.getD a else a
    if a = 0 then some ([], r) else some ((r.src.drop r.pos).take a, { r with pos := r.pos + a })

/-- The reads `motion_read_buffer` makes of a source (motion.rs:350-351, with a buffer of 255 bytes), until one gives nothing, which is the end of the stream (motion.rs:354-357). At most `fuel` of them. -/
def FakeReader.script : Nat → FakeReader → Option (List Bytes)
  | 0, _ => some []
  | fuel + 1, r => match r.pollRead 255 with
    | none => none
    | some ([], _) => some []
    | some (b, r') => (r'.script fuel).map (b :: ·)

/-- A value as it is handed to a serializer. -/
inductive Entry where
  | text (s : Str)
  | bytes (b : Bytes)
  deriving DecidableEq

/-- motion.rs:29-57 `serialize`: the entries of the map, in order. -/
def IOW.serialize : IOW → List (Str × Entry)
  | .data b => [("status".toList, .text "data".toList), ("data".toList, .bytes b)]
  | .finished => [("status".toList, .text "finished".toList)]
  | .skipped => [("status".toList, .text "skipped".toList)]

end Verif
