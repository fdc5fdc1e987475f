import Verif.Spec.Hops
import Verif.Model.Waiter
/-!
# What being wired up means

Used to state C41–C44 and C47: which hops can be made after others, why not, and what is there afterwards.
-/
namespace Verif

/-- The component a hop comes from. -/
def Hop.from (h : Hop) : CompRef := (h.src.ty, h.src.name)
/-- The component a hop goes to. -/
def Hop.to (h : Hop) : CompRef := (h.dst.ty, h.dst.name)

def Mentioned (hs : List Hop) (r : CompRef) : Prop := ∃ h ∈ hs, h.from = r ∨ h.to = r

/-- A launch needs a configuration with a command. -/
def Config.Runnable (c : Config) (r : CompRef) : Prop :=
  r.1 = .launch → ∃ cfg, c.launch.get r.2 = some cfg ∧ cfg.command ≠ none

/-- The hop can leave its component, given the hops made before. -/
def CanSend (pre : List Hop) (h : Hop) : Prop :=
  match h.src.ty with
  | .drain => False
  | .faucet => h.src.port = .out ∧ ∀ g ∈ pre, g.from ≠ h.from
  | .regulator => h.src.port = .out ∧ ∀ g ∈ pre, g.from ≠ h.from
  | .buffer => ∀ g ∈ pre, g.from ≠ h.from
  | .launch => ∀ g ∈ pre, g.src ≠ h.src
  | .junction => True

/-- The hop can enter its component, given the hops made before. -/
def CanReceive (pre : List Hop) (h : Hop) : Prop :=
  match h.dst.ty with
  | .faucet => False
  | .junction => True
  | _ => h.input.priority = 0 ∧ ∀ g ∈ pre, g.dst ≠ h.dst

def Makeable (c : Config) (pre : List Hop) (h : Hop) : Prop :=
  c.Runnable h.from ∧ c.Runnable h.to ∧ CanSend pre h ∧ CanReceive pre h

/-- Each hop can be made after those before it. -/
def AllMakeable (c : Config) (hs : List Hop) : Prop :=
  ∀ pre h post, hs = pre ++ h :: post → Makeable c pre h

/-- What an error says about the hop that could not be made is so. -/
def Reason (c : Config) (pre : List Hop) (h : Hop) : WireError → Prop
  | .noLaunchConfig n => (h.from = (.launch, n) ∨ h.to = (.launch, n)) ∧ c.launch.get n = none
  | .noCommand n => (h.from = (.launch, n) ∨ h.to = (.launch, n)) ∧ ∃ cfg, c.launch.get n = some cfg ∧ cfg.command = none
  | .addOutput r (.unsupportedPort p) => r = h.from ∧ p = h.src.port ∧ (r.1 = .drain ∨ ((r.1 = .faucet ∨ r.1 = .regulator) ∧ p ≠ .out))
  | .addOutput r (.alreadyAllocated p) => r = h.from ∧ p = h.src.port ∧ r.1 ≠ .junction ∧ ∃ g ∈ pre, g.from = r ∧ (r.1 = .launch → g.src.port = p)
  | .addInput r .unsupportedForControl => r = h.to ∧ r.1 = .faucet
  | .addInput r (.unsupportedPriority p) => r = h.to ∧ r.1 ≠ .faucet ∧ r.1 ≠ .junction ∧ p = h.input.priority ∧ p ≠ 0
  | .addInput r .alreadyAllocated => r = h.to ∧ r.1 ≠ .faucet ∧ r.1 ≠ .junction ∧ ∃ g ∈ pre, g.to = r
  | .missingSource _ => False
  | .missingDestination _ => False

/-! The ends of the channels, given the identities of components; the `i`-th hop has channel `i`. -/

/-- Junctions do not keep the port. -/
def Hop.pushEnd (id : CompRef → Nat) (h : Hop) (i : Nat) : PushEnd where
  src := id h.from
  port := if h.src.ty = .junction then .out else h.src.port
  dst := id h.to
  breakable := h.input.breakable
  chan := i
  cap := if h.src.ty = .launch then 1 else 8

def Hop.pullEnd (id : CompRef → Nat) (h : Hop) (i : Nat) : PullEnd where
  src := id h.from
  dst := id h.to
  chan := i

/-- The writing ends of the channels of some numbered hops, of those satisfying a condition. -/
def pushEnds (id : CompRef → Nat) (hs : List (Hop × Nat)) (q : Hop → Bool) : List PushEnd :=
  (hs.filter fun x => q x.1).map fun x => x.1.pushEnd id x.2

/-- The reading ends with the priorities. -/
def pullEnds (id : CompRef → Nat) (hs : List (Hop × Nat)) (q : Hop → Bool) : List (PullEnd × Int) :=
  (hs.filter fun x => q x.1).map fun x => (x.1.pullEnd id x.2, x.1.input.priority)

/-- What a launch is given of its configuration. -/
def LaunchConfig.orNone (cfg : LaunchConfig) : Option (Map Str) × Option (List Str) :=
  (if cfg.env = [] then none else some cfg.env, if cfg.arg = [] then none else some cfg.arg)

/-- The component of a type and name, given the hops whose writing ends and those whose reading ends have been handed out. -/
def expected (c : Config) (id : CompRef → Nat) (outs ins : List (Hop × Nat)) (r : CompRef) : Comp :=
  let push := pushEnds id outs fun h => h.from = r
  let pull := pullEnds id ins fun h => h.to = r
  match r.1 with
  | .faucet => .faucet ((c.faucet.get r.2).getD []) push.head?
  | .drain => .drain ((c.drain.get r.2).getD []) (pull.head?.map Prod.fst)
  | .regulator => .regulator (pull.head?.map Prod.fst) push.head? false
  | .buffer => .buffer (pull.head?.map Prod.fst) push.head? false
  | .junction => .junction pull push
  | .launch =>
    let cfg := (c.launch.get r.2).getD ⟨none, none, [], []⟩
    .launch (id r) cfg.orNone.1 cfg.path (cfg.command.getD []) cfg.orNone.2 (pull.head?.map Prod.fst)
      (pushEnds id outs fun h => h.src = ⟨.launch, r.2, .out⟩).head?
      (pushEnds id outs fun h => h.src = ⟨.launch, r.2, .err⟩).head?
      (pushEnds id outs fun h => h.src = ⟨.launch, r.2, .exit⟩).head?

/-- The writing ends a component holds. -/
def Comp.outputs : Comp → List PushEnd
  | .faucet _ out => out.toList
  | .launch _ _ _ _ _ _ out err exit => out.toList ++ err.toList ++ exit.toList
  | .junction _ outs => outs
  | .buffer _ out _ => out.toList
  | .drain .. => []
  | .regulator _ out _ => out.toList

/-- The reading ends a component holds, with the priorities; only junctions have other than 0. -/
def Comp.inputs : Comp → List (PullEnd × Int)
  | .faucet .. => []
  | .launch _ _ _ _ _ inp _ _ _ => inp.toList.map fun p => (p, 0)
  | .junction ins _ => ins
  | .buffer inp _ _ => inp.toList.map fun p => (p, 0)
  | .drain _ inp => inp.toList.map fun p => (p, 0)
  | .regulator inp _ _ => inp.toList.map fun p => (p, 0)

/-- The hops have been wired up, and there is nothing else. -/
structure Wired (c : Config) (hs : List Hop) (w : Waiter) : Prop where
  comps : ∀ r, Mentioned hs r → w.comps.get r = some (expected c w.idOf hs.zipIdx hs.zipIdx r)
  only : ∀ r, ¬ Mentioned hs r → w.comps.get r = none
  ids : ∀ r, (∃ i, w.getId r = some i) ↔ Mentioned hs r
  names : ∀ r i, w.getId r = some i ↔ w.names.get i = some r

end Verif
