import Verif.Model.System
/-!
# Activities joined into one

`a.join(b).join(c).await` (buffer.rs:170, launch.rs) makes one task of several activities: each time the task is woken it polls
them in order, every one running until it cannot go on. Other tasks may do anything in between.
-/
namespace Verif

/-- The request need not be answered now: a channel operation that is impossible, or something that takes time. -/
def MayWait (cap : Caps) (st : Store) : Req → Prop
  | .sleep _ => True
  | .streamRead _ => True
  | .ioWrite _ _ => True
  | .ioFlush _ => True
  | .status => True
  | q => Impossible cap st q

/-- After `τ`, activity `t` cannot go on: it has ended, or it waits. -/
def Blocked {ι : Type} [DecidableEq ι] (cap : Caps) (t : Task) (i : ι) (τ : List (ι × Ev)) : Prop :=
  t.Done (proj i τ) ∨ ∃ q st, t.Awaits (proj i τ) q ∧ execAll cap Store.init (τ.map Prod.snd) = some st ∧ MayWait cap st q

/-- `Polled cap acts τ k`: in `τ` the activities `acts` were polled in order, again and again; now it is the turn of the `k`th. -/
inductive Polled {ι : Type} [DecidableEq ι] (cap : Caps) (acts : List (ι × Task)) : List (ι × Ev) → Nat → Prop
  | start : Polled cap acts [] 0
  /-- The activity being polled does something. -/
  | act {τ k i t e} : Polled cap acts τ k → acts[k]? = some (i, t) → Polled cap acts (τ ++ [(i, e)]) k
  /-- Another task does something. -/
  | other {τ k j e} : Polled cap acts τ k → (∀ x ∈ acts, x.1 ≠ j) → Polled cap acts (τ ++ [(j, e)]) k
  /-- The activity being polled cannot go on; it is the turn of the next one, after the last one that of the first one. -/
  | yield {τ k i t} : Polled cap acts τ k → acts[k]? = some (i, t) → Blocked cap t i τ →
      Polled cap acts τ ((k + 1) % acts.length)

end Verif
