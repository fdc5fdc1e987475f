import Verif.Model.Config
/-!
# `std::collections::HashMap<String, _>` and `BTreeMap<String, _>`

Both are association lists. A `BTreeMap` is kept in ascending key order, the order in which it is iterated. A `HashMap` is
iterated in an order that differs from run to run: the list stands for any such order, and what is proved is proved for all lists, so for
all orders.
-/
namespace Verif

abbrev Map (α : Type) := List (Str × α)

/-- `get` of both kinds of map. -/
def Map.get {α} : Map α → Str → Option α
  | [], _ => none
  | (k, v) :: m, x => if k = x then some v else Map.get m x

def Map.keys {α} (m : Map α) : List Str := m.map Prod.fst

/-- `HashMap`: `entry(k).and_modify(f).or_insert(new)`; a new key comes last. -/
def Map.entry {α} (f : α → α) (new : α) (k : Str) : Map α → Map α
  | [] => [(k, new)]
  | (k', v) :: m => if k' = k then (k, f v) :: m else (k', v) :: Map.entry f new k m

/-- `HashMap`: `insert(k, v)` -/
def Map.put {α} (k : Str) (v : α) (m : Map α) : Map α := m.entry (fun _ => v) v k

/-- `HashMap`: what `remove(k)` leaves. -/
def Map.erase {α} (k : Str) (m : Map α) : Map α := m.filter fun x => x.1 ≠ k

/-- `Ord for String`: bytewise on the UTF-8 encoding, which is the same as by code points. -/
def strLt : Str → Str → Bool
  | [], [] => false
  | [], _ :: _ => true
  | _ :: _, [] => false
  | a :: s, b :: t => decide (a.toNat < b.toNat) || (a = b && strLt s t)

/-- `BTreeMap`: `entry(k).and_modify(f).or_insert(new)` -/
def Map.sortedEntry {α} (f : α → α) (new : α) (k : Str) : Map α → Map α
  | [] => [(k, new)]
  | (k', v) :: m =>
    if k' = k then (k, f v) :: m
    else if strLt k k' then (k, new) :: (k', v) :: m
    else (k', v) :: Map.sortedEntry f new k m

/-- `BTreeMap`: `insert(k, v)` -/
def Map.sortedPut {α} (k : Str) (v : α) (m : Map α) : Map α := m.sortedEntry (fun _ => v) v k

end Verif
