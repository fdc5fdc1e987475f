import Verif.Model.Tasks
import Verif.Spec.Trace
import Verif.Spec.Chan
/-!
# Specification: networks of components

What components read from and write to, without regard to how they work.
-/
namespace Verif

/-- A component that moves data: a relay (faucets' and drains' and programs' input and output, halves of
buffers), a regulator (or faucet) with or without control, or a junction. -/
inductive Node where
  | relay (pull : Pull) (mon : Notifications) (spy : Option Nat) (push : Push)
  | regulator (pull : Pull) (push : Push) (spy ctl : Option Nat)
  | junction (inputs : List (Pull × Int)) (pushs : List Push) (spy : Option Nat)

def Node.task : Node → Task
  | .relay pull mon spy push => relayTask pull mon spy push
  | .regulator pull push spy ctl => regulatorTask pull push spy ctl
  | .junction inputs pushs spy => junctionTask inputs pushs spy

/-- What a component reads from. -/
def Node.sources : Node → List End
  | .relay pull _ _ _ => pull.source.toList
  | .regulator pull _ _ _ => pull.source.toList
  | .junction inputs _ _ => inputs.filterMap fun x => x.1.source

/-- What a component writes to. -/
def Node.targets : Node → List End
  | .relay _ _ _ push => push.target.toList
  | .regulator _ push _ _ => push.target.toList
  | .junction _ pushs _ => pushs.filterMap Push.target

/-- A component as the program makes it: relays and regulators have an input, junctions read from channels and
have some output, no two ends are the same. -/
def Node.Ok (n : Node) : Prop :=
  (∀ e ∈ n.sources, e ∉ n.targets) ∧
  match n with
  | .relay pull mon _ _ => pull ≠ .none ∧ ∀ c, mon.read = some c → mon.written ≠ some c
  | .regulator pull _ _ _ => pull ≠ .none
  | .junction inputs pushs _ =>
    (∀ x ∈ inputs, ∃ j c, x.1 = .receiver j c) ∧ (inputs.map fun x => x.1.source).Nodup ∧
    (∀ p ∈ pushs, ∃ j c, p = .sender j c) ∧ (pushs.filterMap Push.target).Nodup ∧ pushs ≠ []

/-- A component nobody watches or controls. -/
def Node.Plain : Node → Prop
  | .relay _ mon spy _ => mon = {} ∧ spy = none
  | .regulator _ _ spy ctl => spy = none ∧ ctl = none
  | .junction _ _ spy => spy = none

/-- Something went wrong: a read failed, a write was not accepted, a report or notification was refused. -/
def Act.fails : Act → Bool
  | .readErr _ _ => true
  | .offer _ _ .ok => false
  | .offer _ _ _ => true
  | .spy _ _ ok => !ok
  | .mon _ _ ok => !ok
  | .flush _ ok => !ok
  | _ => false

/-- Something went wrong that a component with the outputs `pushs` cannot get over: as `fails`, except that a write
to an output that is not there any more counts only if the configuration says to terminate then (`T`; motion.rs:517-532). -/
def Act.ruins (pushs : List Push) : Act → Bool
  | .readErr _ _ => true
  | .offer _ _ .ok => false
  | .offer t _ (.closed _) => pushs.any fun p => p.target == some t && p.breakable == .terminate
  | .offer _ _ _ => true
  | .spy _ _ ok => !ok
  | .mon _ _ ok => !ok
  | .flush _ ok => !ok
  | _ => false

/-- Looking at an empty input, and sleeping. -/
def Act.idles : Act → Bool
  | .empty _ => true
  | .sleep _ => true
  | _ => false

/-- How many events there are other than looking at empty inputs and sleeping. -/
def busy (tr : List Ev) : Nat := (acts tr).countP fun a => !a.idles

/-- Components, indexed by `ι`; indices without a component are the surroundings, which may do anything. -/
structure Network (ι : Type) where
  node : ι → Option Node

namespace Network
variable {ι : Type}

def sys (N : Network ι) (i : ι) : Option Task := (N.node i).map Node.task

/-- Channel `c` leads from component `a` to component `b`. -/
def Edge (N : Network ι) (a : ι) (c : Nat) (b : ι) : Prop :=
  ∃ n m, N.node a = some n ∧ N.node b = some m ∧ .chan c ∈ n.targets ∧ .chan c ∈ m.sources

/-- Every channel has one writer and one reader. -/
structure Wired (N : Network ι) : Prop where
  ok : ∀ i n, N.node i = some n → n.Ok
  writer : ∀ i j n m c, N.node i = some n → N.node j = some m → .chan c ∈ n.targets → .chan c ∈ m.targets → i = j
  reader : ∀ i j n m c, N.node i = some n → N.node j = some m → .chan c ∈ n.sources → .chan c ∈ m.sources → i = j

/-- The surroundings do not touch the channels between components. -/
def Undisturbed (N : Network ι) (τ : List (ι × Ev)) : Prop :=
  ∀ x ∈ τ, N.node x.1 = none → ∀ a c b, N.Edge a c b → x.2.q.on ≠ some (.data, c)

/-- A failure that is not just finding a channel to another component closed. -/
def Outside (N : Network ι) (i : ι) (a : Act) : Prop :=
  a.fails = true ∧ ∀ c b d w, N.Edge i c b → a ≠ .offer (.chan c) d w

/-- From `a` one gets to `b` through channels, every component on the way, and `b`, reading from that channel
only. -/
inductive Path (N : Network ι) : ι → ι → Prop
  | here {a} : Path N a a
  | step {a b c d m} : Path N a b → N.Edge b c d → N.node d = some m → m.sources = [.chan c] → Path N a d

/-- A pipeline (possibly part of a larger network): components `place 0`, …, `place n`, each but the first reading
from the one before it only. -/
structure Line (N : Network ι) (n : Nat) (place : Nat → ι) (ch : Nat → Nat) : Prop where
  edge : ∀ i, i < n → N.Edge (place i) (ch i) (place (i + 1))
  only : ∀ i, i < n → ∀ m, N.node (place (i + 1)) = some m → m.sources = [.chan (ch i)]

section
variable [DecidableEq ι]

/-- Component `i` can make a step after `τ`. -/
def CanStep (N : Network ι) (cap : Caps) (τ : List (ι × Ev)) (i : ι) : Prop := ∃ e, Execution cap N.sys (τ ++ [(i, e)])

/-- No component is waiting for the surroundings: what it asks for can be had now, unless it concerns a channel
between components; and there is something to hear from every channel that comes from outside. -/
structure Unhindered (N : Network ι) (cap : Caps) (st : Store) (τ : List (ι × Ev)) : Prop where
  requests : ∀ i n q, N.node i = some n → n.task.Awaits (proj i τ) q → (∀ a c b, N.Edge a c b → q.on ≠ some (.data, c)) →
    ¬ Impossible cap st q
  inputs : ∀ i n c, N.node i = some n → .chan c ∈ n.sources → (∀ a, ¬ N.Edge a c i) → Act.ended (.chan c) ∉ acts (proj i τ) →
    (st .data c).q ≠ [] ∨ (st .data c).closed = true

/-- A network that is not connected to its surroundings by channels (but may read and write files and the like). -/
structure SelfContained (N : Network ι) : Prop where
  plain : ∀ i n, N.node i = some n → n.Plain
  sources : ∀ i n c, N.node i = some n → .chan c ∈ n.sources → ∃ a, N.Edge a c i
  targets : ∀ i n c, N.node i = some n → .chan c ∈ n.targets → ∃ b, N.Edge i c b

/-- From outside, no component has received more than `B` messages on any of its inputs. -/
def Fed (N : Network ι) (B : Nat) (τ : List (ι × Ev)) : Prop :=
  ∀ i n s, N.node i = some n → s ∈ n.sources → (∀ a c, s = .chan c → ¬ N.Edge a c i) → (receivedFrom s (proj i τ)).length ≤ B

/-- An input still in use: it has not ended, and has not been given up either. -/
def InUse (tr : List Ev) (s : End) : Prop := Act.ended s ∉ acts tr ∧ ∀ c, s = .chan c → (Kind.data, c) ∉ closings tr

/-- A junction with nothing to do but to look at its inputs again and again: some are still in use, and those are
empty and open. -/
def Idle (N : Network ι) (st : Store) (τ : List (ι × Ev)) (i : ι) : Prop :=
  ∃ inputs pushs spy, N.node i = some (.junction inputs pushs spy) ∧
    (∃ s ∈ (Node.junction inputs pushs spy).sources, InUse (proj i τ) s) ∧
    ∀ c, .chan c ∈ (Node.junction inputs pushs spy).sources → InUse (proj i τ) (.chan c) →
      (st .data c).q = [] ∧ (st .data c).closed = false

/-- There is no way round: components can be ranked such that channels lead upwards only. -/
def Acyclic (N : Network ι) : Prop :=
  ∃ (rank : ι → Nat) (R : Nat), (∀ a c b, N.Edge a c b → rank a < rank b) ∧ ∀ i n, N.node i = some n → rank i ≤ R

/-- Component `a` is waiting to write to the full channel `c` to component `b`. -/
structure Blocked (N : Network ι) (cap : Caps) (st : Store) (τ : List (ι × Ev)) (a : ι) (c : Nat) (b : ι) : Prop where
  edge : N.Edge a c b
  waits : ∃ n d, N.node a = some n ∧ n.task.Awaits (proj a τ) (.send .data c d)
  open_ : (st .data c).closed = false
  full : ¬ hasRoom (cap .data c) (st .data c).q.length

/-- Components waiting for each other, all round: each is waiting to write to the full channel to the next. -/
structure Circle (N : Network ι) (cap : Caps) (st : Store) (τ : List (ι × Ev)) (n : Nat) (place : Nat → ι) (ch : Nat → Nat) : Prop where
  some_ : 0 < n
  round : place n = place 0
  blocked : ∀ i, i < n → N.Blocked cap st τ (place i) (ch i) (place (i + 1))

/-- Nothing happens any more, but for idle junctions looking at their inputs and sleeping. -/
def Quiet (N : Network ι) (cap : Caps) (st : Store) (τ : List (ι × Ev)) : Prop :=
  ∀ i n e, N.node i = some n → Execution cap N.sys (τ ++ [(i, e)]) → N.Idle st τ i ∧ (act e).idles = true

/-- Everything has been processed: all input from outside has been read to its end, all channels are empty, and
every component has passed on all it has received. -/
structure Settled (N : Network ι) (st : Store) (τ : List (ι × Ev)) : Prop where
  inputs : ∀ i n s, N.node i = some n → s ∈ n.sources → (∀ a c, s = .chan c → ¬ N.Edge a c i) → Act.ended s ∈ acts (proj i τ)
  empty : ∀ a c b, N.Edge a c b → (st .data c).q = [] ∧ receivedFrom (.chan c) (proj b τ) = received (proj a τ)
  passed : ∀ i n t, N.node i = some n → t ∈ n.targets → offeredTo t (proj i τ) = received (proj i τ)

end

end Network
end Verif
