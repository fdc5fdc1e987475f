import Verif.Spec.Held
/-!
# What it means that a pipeline is jammed
-/
namespace Verif

/-- One activity can be held up by another: it waits for room in the channel the other reads from; or it writes to a program, and the program waits for the other to read what it has
printed. A buffer takes in any amount, so its input is not held up by its output. -/
inductive HoldsUp (hs : List Hop) : Who → Who → Prop
  | hop {h : Hop} : h ∈ hs → ¬ h.isExit → HoldsUp hs h.writer h.reader
  | program {h : Hop} : h ∈ hs → h.src.ty = .launch → ¬ h.isExit → HoldsUp hs (.part h.from .input) h.writer

/-- There is a buffer on every way that leads back to where it started. -/
def LoopsBuffered (hs : List Hop) : Prop := ∀ i, ¬ Relation.TransGen (HoldsUp hs) i i

/-- An activity waits for a line from a file or program. -/
def Waiter.Reading (w : Waiter) (τ : List (Who × Ev)) (i : Who) : Prop :=
  ∃ n h, w.node i = some n ∧ n.task.Awaits (proj i τ) (.streamRead h)

/-- A program does not take in what it is given because nobody takes what it has printed. -/
def Waiter.Unrelieved (w : Waiter) (cs : List Capture) (τ : List (Who × Ev)) (x : Str) : Prop :=
  (∃ t h, w.sys cs (.part (.launch, x) .input) = some t ∧
    (t.Awaits (proj (.part (.launch, x) .input) τ) (.ioFlush h) ∨ ∃ d, t.Awaits (proj (.part (.launch, x) .input) τ) (.ioWrite h d))) ∧
  ∃ p ∈ [Piece.output, .error], ∃ t, w.sys cs (.part (.launch, x) p) = some t ∧ ¬ t.Done (proj (.part (.launch, x) p) τ) ∧ ¬ w.Reading τ (.part (.launch, x) p)

/-- Nothing goes on inside: whoever has not ended can do nothing but look again, or waits for a file or program to print something, for a program to end, or for a program that
waits for what it has printed to be taken. -/
def Waiter.Motionless (w : Waiter) (cs : List Capture) (cap : Caps) (st : Store) (τ : List (Who × Ev)) : Prop :=
  ∀ i t, w.sys cs i = some t → ¬ t.Done (proj i τ) → w.CanStep cs cap τ i →
    w.Resting cs st τ i ∨ w.Reading τ i ∨ (∃ r, i = .part r .exit) ∨ ∃ x, i = .part (.launch, x) .input ∧ w.Unrelieved cs τ x

end Verif
