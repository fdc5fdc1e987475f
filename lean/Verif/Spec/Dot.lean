import Verif.Model.Graph
/-!
# What can be an identifier in Graphviz's language

From the description of the language: words of letters, digits, underscores and anything that is not ASCII, that do not begin with a digit and are not keywords; numbers; texts in
double quotes; texts in angle brackets. There is nothing here about how drawings are made.
-/
namespace Verif.Dot

def Digit (c : Char) : Prop := '0' ≤ c ∧ c ≤ '9'
def Wordly (c : Char) : Prop := ('a' ≤ c ∧ c ≤ 'z') ∨ ('A' ≤ c ∧ c ≤ 'Z') ∨ Digit c ∨ c = '_' ∨ 128 ≤ c.toNat

instance (c : Char) : Decidable (Digit c) := by unfold Digit; infer_instance
instance (c : Char) : Decidable (Wordly c) := by unfold Wordly; infer_instance

/-- In any mixture of upper and lower case. -/
def keywords : List Str := ["node", "edge", "graph", "digraph", "subgraph", "strict"].map String.toList
def Keyword (s : Str) : Prop := s.map Char.toLower ∈ keywords

instance (s : Str) : Decidable (Keyword s) := by unfold Keyword; infer_instance

def Digits (s : Str) : Prop := s ≠ [] ∧ ∀ c ∈ s, Digit c

def Number (s : Str) : Prop := ∃ sign a b, s = sign ++ a ++ b ∧ (sign = [] ∨ sign = ['-']) ∧
  ((Digits a ∧ (b = [] ∨ ∃ f, b = '.' :: f ∧ ∀ c ∈ f, Digit c)) ∨ (a = [] ∧ ∃ f, b = '.' :: f ∧ Digits f))

/-- What can be between double quotes: quotes only behind a backslash. -/
inductive Inside : Str → Prop where
  | nil : Inside []
  | plain {c : Char} {s : Str} : c ≠ '"' → c ≠ '\\' → Inside s → Inside (c :: s)
  | escaped {c : Char} {s : Str} : Inside s → Inside ('\\' :: c :: s)

/-- Angle brackets match. -/
def Balanced : Nat → Str → Prop
  | n, [] => n = 0
  | n, c :: s => if c = '<' then Balanced (n + 1) s else if c = '>' then ∃ m, n = m + 1 ∧ Balanced m s else Balanced n s

inductive Id : Str → Prop where
  | word {c : Char} {s : Str} : ¬ Digit c → (∀ x ∈ c :: s, Wordly x) → ¬ Keyword (c :: s) → Id (c :: s)
  | number {s : Str} : Number s → Id s
  | quoted {s : Str} : Inside s → Id ('"' :: s ++ ['"'])
  | html {s : Str} : Balanced 0 s → Id ('<' :: s ++ ['>'])

end Verif.Dot

namespace Verif

/-- All that is written as an identifier, which is written as it is. -/
def Stmt.ids : Stmt → List Str
  | .attr k v => [k, v]
  | .node id attrs => id :: attrs.flatMap fun a => [a.1, a.2]
  | .edge s d attrs => s :: d :: attrs.flatMap fun a => [a.1, a.2]

def Item.ids : Item → List Str
  | .stmt s => s.ids
  | .sub id body => id :: body.flatMap Stmt.ids

/-- Everything written as an identifier is one. -/
def DotReadable (items : List Item) : Prop := ∀ x ∈ items, ∀ s ∈ x.ids, Dot.Id s

/-- A name that can be drawn: a word that is no keyword, or a whole number. -/
def Legible (n : Str) : Prop := n ≠ [] ∧ (∀ c ∈ n, Dot.Wordly c) ∧ ((¬ Dot.Keyword n ∧ ∀ c, n.head? = some c → ¬ Dot.Digit c) ∨ ∀ c ∈ n, Dot.Digit c)

/-- The shape and the colour of what is drawn. -/
def Stmt.look : Stmt → Option (Str × Str)
  | .node _ attrs => match attrs.lookup "shape".toList, attrs.lookup "fillcolor".toList with
    | some s, some f => some (s, f)
    | _, _ => none
  | _ => none

/-- A part of a legend explains a look by a word. -/
def Explains (x : Item) (word : Str) (look : Str × Str) : Prop :=
  ∃ id body, x = .sub id body ∧ (∀ k v, .attr k v ∈ body → k = "label".toList ∧ v = word) ∧ .attr "label".toList word ∈ body ∧ ∃ s ∈ body, s.look = some look

end Verif
