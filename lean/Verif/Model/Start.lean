import Verif.Model.Waiter
import Verif.Model.Motion
/-!
# `waiter.rs`: starting the components and collecting what became of them

What each component does while it runs is modelled elsewhere; here its result is any value.
-/
namespace Verif

/-- waiter.rs:29-34 `RegulatorSettingsCapture`. The control and the size monitors are known by the names of the regulator and the buffers they were made for. -/
structure Capture where
  low : Nat
  high : Nat
  regulator : Str
  buffers : List Str
  deriving Repr, DecidableEq

/-- What preparing the managers comes to; an abort (`assert!`) is `panic`. -/
inductive Prepared (α : Type)
  | ok (a : α)
  | missingRegulator (regulator : Str)
  | missingBuffer (regulator buffer : Str)
  | panic
  deriving Repr, DecidableEq

/-- waiter.rs:330-331 with regulator.rs:41-49 `get_control` -/
def Waiter.getControl (w : Waiter) (regulator : Str) : Prepared Waiter :=
  match w.comps.get (.regulator, regulator) with
  | some (.regulator inp out false) => .ok { w with comps := w.comps.put (.regulator, regulator) (.regulator inp out true) }
  | some (.regulator _ _ true) => .panic
  | _ => .missingRegulator regulator

/-- waiter.rs:334-335 with buffer.rs:65-70 `add_buffer_size_monitor` -/
def Waiter.monitor (w : Waiter) (regulator buffer : Str) : Prepared Waiter :=
  match w.comps.get (.buffer, buffer) with
  | some (.buffer inp out false) => .ok { w with comps := w.comps.put (.buffer, buffer) (.buffer inp out true) }
  | some (.buffer _ _ true) => .panic
  | _ => .missingBuffer regulator buffer

/-- waiter.rs:333-336 -/
def Waiter.monitorAll (w : Waiter) (regulator : Str) : List Str → Prepared Waiter
  | [] => .ok w
  | b :: bs => match w.monitor regulator b with
    | .ok w => w.monitorAll regulator bs
    | e => e

/-- waiter.rs:326-348 `regulator_settings`; the argument is the settings in the order of the `HashMap`. -/
def Waiter.regulatorSettings (w : Waiter) : List (Str × Watch) → Prepared (List Capture × Waiter)
  | [] => .ok ([], w)
  | (r, s) :: rest => match w.getControl r with
    | .missingRegulator x => .missingRegulator x
    | .missingBuffer x y => .missingBuffer x y
    | .panic => .panic
    | .ok w => match w.monitorAll r s.buffers with
      | .missingRegulator x => .missingRegulator x
      | .missingBuffer x y => .missingBuffer x y
      | .panic => .panic
      | .ok w => match w.regulatorSettings rest with
        | .ok (cs, w) => .ok (⟨s.low, s.high, r, s.buffers⟩ :: cs, w)
        | e => e

/-- waiter.rs:116-123 `WaiterError`. `time` is the `Instant` inside the motion error, for those that have one. -/
inductive WaiterErr
  | causedBy (r : CompRef) (e : MErr) (time : Nat)
  | settingsForMissingRegulator (s : Str)
  | settingsRefersMissingBuffer (r b : Str)
  | couldNotPause
  | couldNotResume
  deriving Repr, DecidableEq

/-- motion.rs:227-242 `instant`, given the time inside -/
def MErr.instant (time : Nat) : MErr → Option Nat
  | .launchSpawn => none
  | .noneError => none
  | .panic => none
  | _ => some time

/-- waiter.rs:139-144 `instant` -/
def WaiterErr.instant : WaiterErr → Option Nat
  | .causedBy _ e t => e.instant t
  | _ => none

/-- waiter.rs:360-370 `folder` -/
def folder : Except (List WaiterErr) Nat → Except WaiterErr Nat → Except (List WaiterErr) Nat
  | .ok i, .ok j => .ok (i + j)
  | .error xs, .ok _ => .error xs
  | .error xs, .error x => .error (xs ++ [x])
  | .ok _, .error x => .error [x]

/-- waiter.rs:412-417: how two errors compare; `duration_since` is 0 for times before the start. -/
def compareErrs (start : Nat) (a b : WaiterErr) : Ordering :=
  match a.instant, b.instant with
  | some i, some j => compare (i - start) (j - start)
  | _, _ => .eq

/-- The comparison is a total order on the elements of a list, which is what `sort_by` asks for. -/
def Consistent {α} (cmp : α → α → Ordering) (l : List α) : Prop :=
  (∀ a ∈ l, ∀ b ∈ l, cmp a b = (cmp b a).swap) ∧ (∀ a ∈ l, ∀ b ∈ l, ∀ c ∈ l, cmp a b ≠ .gt → cmp b c ≠ .gt → cmp a c ≠ .gt)

/-- What the library promises of `sort_by`. It rearranges the list; with a total order the result is sorted by it. Without, the arrangement is
unspecified, and (since Rust 1.81) it may abort: `none`. That it keeps equal elements in order is not used. -/
def SortBy {α} (cmp : α → α → Ordering) (l : List α) : Option (List α) → Prop
  | none => ¬ Consistent cmp l
  | some out => out.Perm l ∧ (Consistent cmp l → out.Pairwise fun a b => cmp a b ≠ .gt)

/-- The results of the components by type, and of the managers, each in the order of the `HashMap`s. -/
structure Results where
  launches : List (Except WaiterErr Nat)
  faucets : List (Except WaiterErr Nat)
  regulators : List (Except WaiterErr Nat)
  managers : List (Except WaiterErr Nat)
  drains : List (Except WaiterErr Nat)
  buffers : List (Except WaiterErr Nat)
  junctions : List (Except WaiterErr Nat)

/-- waiter.rs:403-408 -/
def Results.all (r : Results) : List (Except WaiterErr Nat) :=
  r.launches ++ r.faucets ++ r.regulators ++ r.managers ++ r.drains ++ r.buffers ++ r.junctions

/-- waiter.rs:410-420: the outcome of the run; `none` if sorting aborted. -/
def Outcome (start : Nat) (r : Results) : Option (Except (List WaiterErr) Nat) → Prop
  | out => match r.all.foldl folder (.ok 0) with
    | .ok n => out = some (.ok n)
    | .error es => ∃ s, SortBy (compareErrs start) es s ∧ out = s.map .error

end Verif
