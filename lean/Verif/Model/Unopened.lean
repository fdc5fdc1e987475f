import Verif.Model.Runtime
/-!
# Files that cannot be opened

`Waiter::start` lets components start while it borrows them (waiter.rs:391-401), so what a component has not taken out of its fields lives until everything has ended.
A faucet opens its file before it takes its output (faucet.rs:90-98, 124): if that fails the output stays where it is. A drain takes its input before it creates its file
(drain.rs:60-71): if that fails the input is dropped.
-/
namespace Verif

/-- What becomes of a component that has to open a file and cannot. faucet.rs:90-101, drain.rs:60-71 -/
def Comp.unopened : Comp → Option Task
  | .faucet f (some _) => if f = ['-'] then none else some (dropTask [])
  | .drain d (some i) => if d = "/dev/null".toList ∨ d = ['-'] ∨ d = ['_'] then none else some (dropTask i.pull.owned)
  | _ => none

/-- `bad` says whose files cannot be opened. -/
def Waiter.unopened (w : Waiter) (bad : CompRef → Bool) : Who → Option Task
  | .part r .main => match w.comps.get r with
    | some k => if bad r then k.unopened else none
    | none => none
  | _ => none

/-- All activities, as in `Waiter.sys`, when some files cannot be opened. -/
def Waiter.sysWith (w : Waiter) (cs : List Capture) (bad : CompRef → Bool) (i : Who) : Option Task := (w.unopened bad i).or (w.sys cs i)

/-- As `Waiter.Run`. -/
structure Waiter.RunWith (w : Waiter) (cs : List Capture) (bad : CompRef → Bool) (cap : Caps) (τ : List (Who × Ev)) : Prop where
  exec : Execution cap (w.sysWith cs bad) τ
  known : ∀ x ∈ τ, w.sysWith cs bad x.1 ≠ none
  exits : ∀ τ₁ τ₂ r e, τ = τ₁ ++ (.part r .exit, e) :: τ₂ → ∀ p ∈ [Piece.input, .output, .error], ∀ t, w.sysWith cs bad (.part r p) = some t →
    t.Done (proj (.part r p) τ₁)

/-- As `Waiter.Over`: everything has ended, so `start` returns. -/
def Waiter.OverWith (w : Waiter) (cs : List Capture) (bad : CompRef → Bool) (τ : List (Who × Ev)) : Prop :=
  ∀ i t, w.sysWith cs bad i = some t → t.Done (proj i τ)

end Verif
