import Verif.Spec.Runtime
/-!
# How much can be on its way
-/
namespace Verif

/-- How many messages fit into a hop: 1 behind a program, else 8. -/
def Hop.room (h : Hop) : Nat := if h.src.ty = .launch then 1 else 8

/-- A way along hops, given by the numbers of their channels, each beginning at the component the one before goes to, which is of one of the given types; and how much can be on it: what fits
into the hops, and one message in the hands of each component between them. -/
inductive Along (hs : List Hop) (via : List ComponentType) : List Nat → Nat → Prop
  | hop {a : Nat} {h : Hop} : hs[a]? = some h → Along hs via [a] h.room
  | next {a b n : Nat} {l : List Nat} {g h : Hop} : hs[a]? = some g → hs[b]? = some h → g.to = h.from → g.to.1 ∈ via → Along hs via (b :: l) n →
      Along hs via (a :: b :: l) (g.room + 1 + n)

end Verif
