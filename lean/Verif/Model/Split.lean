/-!
# Cutting byte streams into messages

Model of `/repo/src/motion.rs` lines 58-74 (`ReadSplitControl`), 319-331 (`is_split`),
333-383 (`motion_read_buffer`) and 387-396, 410-413 (`motion_read` on byte streams).

Simplification: the byte source is given as the list of the outcomes of its future `read` calls
(`ReadEvent`), after which it reports end of stream for ever. A theorem about all such lists is a
theorem about all behaviours of a finite stream.
-/
namespace Verif

abbrev Bytes := List UInt8

deriving instance DecidableEq for Except

/-- Outcome of one `rd.read(&mut buf)` (motion.rs:351-352). `data []` is a read of zero bytes.
The Rust buffer holds 255 bytes; the model allows chunks of any size. -/
inductive ReadEvent where
  | data (bs : Bytes)
  | err (e : Nat)
  deriving Repr, DecidableEq

/-- motion.rs:319-331 `is_split`: the length of the first separator in the list that is a prefix
of `buf`. -/
def isSplit (buf : Bytes) : List Bytes → Option Nat
  | [] => none
  | v :: vs =>
    if v.length > buf.length then isSplit buf vs
    else if buf.take v.length = v then some v.length
    else isSplit buf vs

/-- motion.rs:340-347, the `for overflow_pos in start_from..overflow.len()` loop: `n` positions
are left, `pos` is the next one, `start` the current value of `start_from`. Returns the new
`start_from` and, if a separator was found, where the message ends. -/
def scanLoop (splits : List Bytes) (ov : Bytes) (pos start : Nat) : Nat → Nat × Option Nat
  | 0 => (start, none)
  | n + 1 =>
    match isSplit (ov.drop pos) splits with
    | some k => (pos, some (pos + k))
    | none => scanLoop splits ov (pos + 1) pos n

/-- motion.rs:58-62 `ReadSplitControl` together with the byte source it belongs to. -/
structure Stream where
  splits : List Bytes
  overflow : Bytes
  script : List ReadEvent
  deriving Repr, DecidableEq

/-- motion.rs:64-74 `ReadSplitControl::new`: separators CR LF and LF, nothing held back. -/
def Stream.new (script : List ReadEvent) : Stream :=
  { splits := [[13, 10], [10]], overflow := [], script := script }

/-- motion.rs:333-383 `motion_read_buffer`, from the head of its `loop` with the current value of
`start_from`. Result: the message or the I/O error, the new overflow and the rest of the source.
(The scan is written once per clause so that the recursion is structural in the source.) -/
def readBuffer (splits : List Bytes) :
    List ReadEvent → Bytes → Nat → Except Nat Bytes × Bytes × List ReadEvent
  | [], ov, start =>
    match scanLoop splits ov start start (ov.length - start) with
    | (_, some cut) => (.ok (ov.take cut), ov.drop cut, [])
    | (_, none) => (.ok ov, [], [])
  | ev :: rest, ov, start =>
    match scanLoop splits ov start start (ov.length - start) with
    | (_, some cut) => (.ok (ov.take cut), ov.drop cut, ev :: rest)
    | (start', none) =>
      match ev with
      | .err e => (.error e, ov, rest)
      | .data bs =>
        if bs = [] then (.ok ov, [], rest)
        else readBuffer splits rest (ov ++ bs) start'

/-- Result of reading a message from an input: motion.rs:22-27 `IODataWrapper`. -/
inductive IOW where
  | data (d : Bytes)
  | finished
  | skipped
  deriving Repr, DecidableEq

/-- motion.rs:387-396 `do_match_stuff` and `motion_read_buffer_wrapper`: an empty buffer means the
end of the stream. The error keeps its code; the journey is added by `motionRead`. -/
def readStream (s : Stream) : Except Nat IOW × Stream :=
  match readBuffer s.splits s.script s.overflow 0 with
  | (.ok v, ov, sc) => (.ok (if v = [] then .finished else .data v), { s with overflow := ov, script := sc })
  | (.error e, ov, sc) => (.error e, { s with overflow := ov, script := sc })

/-- `n` successive reads (as `motion`'s loop performs them), with the results in order. -/
def readTimes : Nat → Stream → List (Except Nat IOW) × Stream
  | 0, s => ([], s)
  | n + 1, s =>
    let (r, s') := readStream s
    let (rs, s'') := readTimes n s'
    (r :: rs, s'')

end Verif
