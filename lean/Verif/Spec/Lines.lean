import Verif.Model.Split
/-!
# Specification: lines of a byte sequence
-/
namespace Verif

/-- The lines of a byte sequence: cut after every LF (10). -/
def specLines : Bytes → List Bytes
  | [] => []
  | b :: bs =>
    if b = 10 then [b] :: specLines bs
    else match specLines bs with
      | [] => [[b]]
      | l :: ls => (b :: l) :: ls

/-- A complete line: some bytes other than LF, then LF. -/
def IsCompleteLine (l : Bytes) : Prop := ∃ c, l = c ++ [10] ∧ (10 : UInt8) ∉ c

/-- A list of messages is *the* line decomposition of `bs`: all but the last are complete lines,
the last is a complete line or a non-empty piece without LF, and together they are `bs`. -/
def IsLinesOf (ls : List Bytes) (bs : Bytes) : Prop :=
  ls.flatten = bs ∧
  (∀ l ∈ ls.dropLast, IsCompleteLine l) ∧
  (∀ l, ls.getLast? = some l → IsCompleteLine l ∨ (l ≠ [] ∧ (10 : UInt8) ∉ l))

/-- A list of separators none of which can be confused with another at a chunk boundary: one or two
bytes long, none a prefix of a different one. -/
structure GoodSeps (splits : List Bytes) : Prop where
  pos : ∀ v ∈ splits, 1 ≤ v.length
  short : ∀ v ∈ splits, v.length ≤ 2
  prefixFree : ∀ v ∈ splits, ∀ w ∈ splits, v <+: w → v = w

/-- The source delivers these chunks, then end of stream. -/
def chunkScript (chunks : List Bytes) : List ReadEvent := chunks.map .data

end Verif
