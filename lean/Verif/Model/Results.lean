import Verif.Model.Unopened
import Verif.Model.Main
/-!
# What comes out of a run

`Waiter::start` (waiter.rs:355-421) collects the results of all components and managers. Here these belong to what happened; in Model/Start.lean they are any values.
-/
namespace Verif

/-- The task has ended with this result, having gone through `tr`. -/
def Task.Gives (t : Task) (tr : List Ev) (r : t.ρ) : Prop := ∃ t1, LoopRuns t.body t.init t1 r ∧ tr = t1 ++ dropEvs t.drops

/-- The result of a part that moves data. -/
def Node.Gives : Node → List Ev → Except MErr Nat → Prop
  | .relay pull mon spy push, tr, r => (relayTask pull mon spy push).Gives tr r
  | .regulator pull push spy ctl, tr, r => (regulatorTask pull push spy ctl).Gives tr r
  | .junction inputs pushs spy, tr, r => (junctionTask inputs pushs spy).Gives tr r

/-- The result of a part that may not be there: without an input `motion` reads the end at once (motion.rs:399, 573, 581). -/
def partGives : Option Node → List Ev → Except MErr Nat → Prop
  | none, _, r => r = .ok 1
  | some n, tr, r => n.Gives tr r

/-- The result of a component from the events of its parts. faucet.rs:87-163, launch.rs:152-272, junction.rs:162-184, buffer.rs:81-180, drain.rs:55-79, regulator.rs:92-156. Buffers lose the result
of their count (`_x`, buffer.rs:170) unless it is a panic, which is an abort; faucets without output and regulators that lack a side move nothing (faucet.rs:118-119, 162,
regulator.rs:117-118, 155). -/
def Comp.Gives (id n : Nat) (k : Comp) (tr : Piece → List Ev) (r : Except MErr Nat) : Prop :=
  match k with
  | .faucet _ none => r = .ok 0
  | .faucet _ (some _) => partGives (k.node id n .main) (tr .main) r
  | .launch _ _ _ _ _ _ _ _ exit => ∃ a b e, partGives (k.node id n .input) (tr .input) a ∧ partGives (k.node id n .output) (tr .output) b ∧
      partGives (k.node id n .error) (tr .error) e ∧
      match exit with
      | none => r = structureResult a b e
      | some p => ∃ x, (exitTask p).Gives (tr .exit) x ∧ r = withExit x (structureResult a b e)
  | .junction _ _ => partGives (k.node id n .main) (tr .main) r
  | .buffer (some _) (some _) mon => ∃ a b x, partGives (k.node id n .input) (tr .input) a ∧ partGives (k.node id n .output) (tr .output) b ∧
      (totalTask (if mon then some id else none) (2 * id) (2 * id + 1)).Gives (tr .count) x ∧ x ≠ .wrongMessage ∧ x ≠ .underflow ∧ r = bufferResult a b
  | .buffer _ _ _ => r = .error .noneError
  | .drain _ none => r = .error .noneError
  | .drain _ (some _) => partGives (k.node id n .main) (tr .main) r
  | .regulator (some _) (some _) _ => partGives (k.node id n .main) (tr .main) r
  | .regulator _ _ _ => r = .ok 0

/-- The result of a component that cannot open its file. faucet.rs:91-98, drain.rs:66-71 -/
def Comp.unopenedError : Comp → Option MErr
  | .faucet _ (some o) => some (.openIO ⟨o.src, o.dst⟩)
  | .drain _ (some i) => some (.openIO ⟨i.src, i.dst⟩)
  | _ => none

/-- The result of a component. -/
def Waiter.Gives (w : Waiter) (bad : CompRef → Bool) (τ : List (Who × Ev)) (ref : CompRef) (r : Except MErr Nat) : Prop :=
  ∃ k, w.comps.get ref = some k ∧
    if (w.unopened bad (.part ref .main)).isSome then ∃ e, k.unopenedError = some e ∧ r = .error e
    else k.Gives (w.idOf ref) w.chans (fun p => proj (.part ref p) τ) r

/-- waiter.rs:373-385: what it is turned into -/
def reportOf (ref : CompRef) (time : Nat) : Except MErr Nat → Except WaiterErr Nat
  | .ok n => .ok n
  | .error e => .error (.causedBy ref e time)

/-- All components of a type. -/
def Waiter.refs (w : Waiter) (ty : ComponentType) : List CompRef := (w.comps.map (·.1)).filter fun r => r.1 = ty

/-- waiter.rs:391-408: the results, in any order -/
structure Waiter.Collects (w : Waiter) (cs : List Capture) (bad : CompRef → Bool) (τ : List (Who × Ev)) (time : CompRef → Nat) (res : CompRef → Except MErr Nat) (managed : Capture → Nat)
    (R : Results) : Prop where
  gives : ∀ ref k, w.comps.get ref = some k → w.Gives bad τ ref (res ref)
  manages : ∀ c ∈ cs, (managerTask c.low c.high (w.idOf (.regulator, c.regulator)) (c.buffers.map fun b => w.idOf (.buffer, b))).Gives (proj (.manager c.regulator) τ) (managed c)
  launches : R.launches.Perm ((w.refs .launch).map fun r => reportOf r (time r) (res r))
  faucets : R.faucets.Perm ((w.refs .faucet).map fun r => reportOf r (time r) (res r))
  regulators : R.regulators.Perm ((w.refs .regulator).map fun r => reportOf r (time r) (res r))
  managers : R.managers.Perm (cs.map fun c => .ok (managed c))
  drains : R.drains.Perm ((w.refs .drain).map fun r => reportOf r (time r) (res r))
  buffers : R.buffers.Perm ((w.refs .buffer).map fun r => reportOf r (time r) (res r))
  junctions : R.junctions.Perm ((w.refs .junction).map fun r => reportOf r (time r) (res r))

/-- waiter.rs:402-420: after a run that is over, `start` returns this; `none` if sorting the errors aborts. -/
def Waiter.Returns (w : Waiter) (cs : List Capture) (bad : CompRef → Bool) (τ : List (Who × Ev)) (out : Option (Except (List WaiterErr) Nat)) : Prop :=
  w.OverWith cs bad τ ∧ ∃ time res managed R t0, w.Collects cs bad τ time res managed R ∧ Outcome t0 R out

/-- waiter.rs:355-421 `start`: what can come of it if it ends. The settings of the regulators are looked at in some order (waiter.rs:329). Nothing is said about when it aborts or goes on for ever. -/
def Waiter.Starts (w : Waiter) : Started → Prop
  | .ended r => ∃ order : List (Str × Watch), order.Perm w.settings ∧
      match w.regulatorSettings order with
      | .missingRegulator x => r = .error [.settingsForMissingRegulator x]
      | .missingBuffer x y => r = .error [.settingsRefersMissingBuffer x y]
      | .panic => False
      | .ok (cs, w') => ∃ bad cap τ, w'.RunWith cs bad cap τ ∧ w'.Returns cs bad τ (some r)
  | .aborts => True
  | .never => True

end Verif
