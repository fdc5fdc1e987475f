import Verif.Model.Motion
import Verif.Model.BackOff
/-!
# `/repo/src/junction.rs` and the two helpers it uses from `/repo/src/utils.rs`
-/
namespace Verif

/-- utils.rs:3-9 `remove_vec_vec_index` -/
def removeVecVecIndex {α : Type} (vals : List (List α)) (i j : Nat) : List (List α) :=
  match vals[i]? with
  | some v => if j < v.length then vals.set i (v.eraseIdx j) else vals
  | none => vals

/-- utils.rs:11-21 `remove_vec_vec`, the loop over the indices from the last to the first. -/
def removeVecVec {α : Type} (vals : List (List α)) : List (List α) :=
  (List.range vals.length).reverse.foldl (fun vals i =>
    if ((vals[i]?.map List.length).getD 99) = 0 then vals.eraseIdx i else vals) vals

/-- junction.rs:29-35 `MotionOneResult`; `finished_pushs` is always empty and left out. -/
structure MotionOneResult where
  finishedPulls : List Nat
  readFrom : List Nat
  skipped : List Nat
  deriving Repr, DecidableEq

/-- junction.rs:43-56: the loop over the enumerated pulls. -/
def junctionLoop (pushs : List Push) (spy : Option Nat) : List Pull → Nat → MotionOneResult → M MotionOneResult
  | [], _, acc => pure acc
  | pull :: pulls, i, acc => do
    if i ∈ acc.finishedPulls then junctionLoop pushs spy pulls (i + 1) acc
    else do
      let r ← motionWorker pull {} pushs spy true
      let acc := if !r.read then { acc with skipped := acc.skipped ++ [i] }
        else { acc with readFrom := acc.readFrom ++ [i] }
      let acc := if r.finished then { acc with finishedPulls := acc.finishedPulls ++ [i] } else acc
      junctionLoop pushs spy pulls (i + 1) acc

/-- junction.rs:37-58 `junction_motion_worker` -/
def junctionMotionWorker (pulls : List Pull) (pushs : List Push) (spy : Option Nat) : M MotionOneResult :=
  junctionLoop pushs spy pulls 0 ⟨[], [], []⟩

/-- Insertion into a list sorted by priority, after the equal ones. -/
def insertByPriority (x : Pull × Int) : List (Pull × Int) → List (Pull × Int)
  | [] => [x]
  | y :: ys => if x.2 < y.2 then x :: y :: ys else y :: insertByPriority x ys

/-- junction.rs:80-82: `sort_by`, a stable sort in ascending order (the algorithm is the standard
library's; a stable sort's result does not depend on it). -/
def sortByPriority (l : List (Pull × Int)) : List (Pull × Int) :=
  l.foldl (fun acc x => insertByPriority x acc) []

/-- junction.rs:85-96: one round of the loop; the state is `old_priority` and `self.stdin`. -/
def groupStep (st : Int × List (List Pull)) (x : Pull × Int) : Int × List (List Pull) :=
  let (oldPriority, stdin) := st
  let (oldPriority, stdin) := if stdin = [] then (x.2, stdin ++ [[]]) else (oldPriority, stdin)
  let stdin := if x.2 > oldPriority then stdin ++ [[]] else stdin
  match stdin.getLast? with
  | some v => (oldPriority, stdin.dropLast ++ [v ++ [x.1]])
  | none => (oldPriority, stdin)

/-- junction.rs:79-97 `initialize_stdin` (`self.stdin` is empty before). -/
def initializeStdin (inputs : List (Pull × Int)) : List (List Pull) :=
  ((sortByPriority inputs).foldl groupStep (0, [])).2

/-- junction.rs:105-121: the loop over the enumerated groups. Returns `finished`, `any_read` and
`read_count`. -/
def iterationLoop (pushs : List Push) (spy : Option Nat) :
    List (List Pull) → Nat → List (Nat × Nat) → Nat → M (List (Nat × Nat) × Bool × Nat)
  | [], _, finished, readCount => pure (finished, false, readCount)
  | si :: rest, siIndex, finished, readCount => do
    let r ← junctionMotionWorker si pushs spy
    let readCount := readCount + r.readFrom.length
    let finished := finished ++ r.finishedPulls.map (fun fin => (siIndex, fin))
    if r.skipped.length < si.length then pure (finished, true, readCount)
    else iterationLoop pushs spy rest (siIndex + 1) finished readCount

/-- Dropping the receiving end of a channel closes it. -/
def dropPull : Pull → M Unit
  | .receiver _ c => ask (.close .data c)
  | _ => pure ()

/-- junction.rs:123-125; a removed pull is dropped. -/
def removeFinished : List (Nat × Nat) → List (List Pull) → M (List (List Pull))
  | [], stdin => pure stdin
  | (i, j) :: fs, stdin => do
    match stdin[i]? with
    | some v => match v[j]? with
      | some p => dropPull p
      | none => pure ()
    | none => pure ()
    removeFinished fs (removeVecVecIndex stdin i j)

/-- The junction's state between iterations. -/
structure JState where
  stdin : List (List Pull)
  backOff : BackOff
  readCount : Nat
  deriving Repr, DecidableEq

/-- junction.rs:100-138 `iteration`. Returns the result and the new `self.stdin` and back-off; `inl`
for `(false, n)`, `inr` for `(true, n)`. -/
def iteration (pushs : List Push) (spy : Option Nat) (stdin : List (List Pull)) (backOff : BackOff) :
    M ((List (List Pull) × BackOff × Nat) ⊕ Nat) := do
  let (finished, anyRead, readCount) ← iterationLoop pushs spy stdin 0 [] 0
  let stdin ← removeFinished finished.reverse stdin
  let stdin := removeVecVec stdin
  if stdin = [] then do
    closeAll pushs
    pure (.inr readCount)
  else if anyRead then pure (.inl (stdin, backOff.reset.1, readCount))
  else do
    let (b, _) ← ExceptT.lift backOff.wait
    pure (.inl (stdin, b, readCount))

/-- `self.stdin.clear()`: all remaining inputs are dropped. -/
def dropAll : List Pull → M Unit
  | [] => pure ()
  | p :: ps => do
    dropPull p
    dropAll ps

/-- junction.rs:171-183: one round of the `loop` of `start`. On an error the inputs are dropped. (Had
closing an output failed, they would already have been dropped; but outputs are channels, and closing
those cannot fail.) The outputs stay with the `Junction`, which the waiter keeps. -/
def junctionBody (pushs : List Push) (spy : Option Nat) (s : JState) : Prog (JState ⊕ Except MErr Nat) := do
  match ← (iteration pushs spy s.stdin s.backOff).run with
  | .ok (.inr n) => pure (.inr (.ok (s.readCount + n)))
  | .ok (.inl (stdin, b, n)) => pure (.inl ⟨stdin, b, s.readCount + n⟩)
  | .error e => do
    let _ ← (dropAll s.stdin.flatten).run
    pure (.inr (.error e))

/-- junction.rs:162-170: the state in which the loop of `start` begins. -/
def junctionInit (inputs : List (Pull × Int)) : JState := ⟨initializeStdin inputs, BackOff.new, 0⟩

/-- A complete run of `start`. -/
def JunctionRuns (inputs : List (Pull × Int)) (pushs : List Push) (spy : Option Nat) (tr : List Ev) (r : Except MErr Nat) : Prop :=
  LoopRuns (junctionBody pushs spy) (junctionInit inputs) tr r

end Verif
