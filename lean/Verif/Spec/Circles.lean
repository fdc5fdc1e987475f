import Verif.Spec.Runtime
/-!
# Circles through programs
-/
namespace Verif

/-- The program of a launch does not end what it prints before its input has ended. (`cat` and `sed` do not.) -/
def Waiter.Patient (w : Waiter) (cs : List Capture) (τ : List (Who × Ev)) (x : Str) : Prop :=
  ∀ τ₁ τ₂ p e h, τ = τ₁ ++ (.part (.launch, x) p, e) :: τ₂ → act e = .ended (.handle h) → ∀ t, w.sys cs (.part (.launch, x) .input) = some t → t.Done (proj (.part (.launch, x) .input) τ₁)

/-- Like `Leads`, but also from the input of some programs to what they print. -/
inductive LeadsOn (hs : List Hop) (via : Str → Prop) : Who → Who → Prop
  | inside {a b : Who} : Leads hs a b → LeadsOn hs via a b
  | program {h : Hop} : h ∈ hs → h.src.ty = .launch → ¬ h.isExit → via h.src.name → LeadsOn hs via (.part h.from .input) h.writer

end Verif
