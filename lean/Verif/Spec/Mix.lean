/-!
# Specification: mixtures of sequences
-/
namespace Verif

/-- The sequence is a mixture of the others: at each point the next element is the next one of one of them, until all are used up. -/
inductive Mix {α : Type} : List (List α) → List α → Prop
  | done {ls : List (List α)} : (∀ l ∈ ls, l = []) → Mix ls []
  | take {xs ys : List (List α)} {a : α} {r l : List α} : Mix (xs ++ r :: ys) l → Mix (xs ++ (a :: r) :: ys) (a :: l)

/-- Each of the first sequences is the beginning of the one at the same place among the others. -/
inductive EachBegins {α : Type} : List (List α) → List (List α) → Prop
  | nil : EachBegins [] []
  | cons {a b : List α} {as bs : List (List α)} : a <+: b → EachBegins as bs → EachBegins (a :: as) (b :: bs)

end Verif
