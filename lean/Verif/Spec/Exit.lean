import Verif.Spec.Runtime
/-!
# What makes a run fail
-/
namespace Verif

/-- What the one it happens to cannot get over. `stops` says at which ends it cannot get over being told that nobody listens any more. -/
def Act.fatal (stops : End → Prop) : Act → Prop
  | .readErr _ _ => True
  | .offer t _ (.closed _) => stops t
  | .offer _ _ (.other _) => True
  | .spy _ _ ok => ok = false
  | .mon _ _ ok => ok = false
  | .flush _ ok => ok = false
  | _ => False

/-- Something fatal is in the trace. -/
def Failed (stops : End → Prop) (tr : List Ev) : Prop := ∃ a ∈ acts tr, a.fatal stops

/-- The ends at which an activity cannot get over having nobody listening: channels of hops with the pipe variation `T` (`|`), those from exit ports whatever their variation; the channel inside
a buffer if the hop out of the buffer is such; the file of a drain. -/
def StopsAt (hs : List Hop) : Who → End → Prop
  | .part r p, .chan ch => (∃ h, hs[ch]? = some h ∧ (h.isExit ∨ h.input.breakable = .terminate)) ∨
      (hs.length ≤ ch ∧ r.1 = .buffer ∧ p = .input ∧ ∃ h ∈ hs, h.from = r ∧ h.input.breakable = .terminate)
  | .part r _, .handle _ => r.1 = .drain
  | .manager _, _ => False

/-- The component has to open a file. -/
def Config.Opens (c : Config) (r : CompRef) : Prop :=
  (r.1 = .faucet ∧ c.faucet.get r.2 ≠ some ['-']) ∨ (r.1 = .drain ∧ ∀ d, c.drain.get r.2 = some d → d ∉ ["/dev/null".toList, ['-'], ['_']])

/-- Something goes wrong with a component that it cannot get over: its file cannot be opened, or one of its activities meets something fatal. -/
def Config.Breaks (c : Config) (hs : List Hop) (bad : CompRef → Bool) (τ : List (Who × Ev)) (r : CompRef) : Prop :=
  (c.Opens r ∧ bad r = true) ∨ ∃ p, Failed (StopsAt hs (.part r p)) (proj (.part r p) τ)

end Verif
