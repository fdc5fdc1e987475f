import Verif.Model.Settings
/-!
# `/repo/src/graph.rs` and its use in `bin/pa2.rs`: drawing a configuration

The document is that of the library graphviz_rust: statements with plain identifiers, printed as they are. The legend (graph.rs:269-303) is in
Model/Main.lean; the printing is not modelled.
-/
namespace Verif

/-- graph.rs:19-23 -/
structure GraphConn where
  src : ComponentType × Str × Option Str
  via : OutputPort
  dst : ComponentType × Str × Option Str
  deriving Repr, DecidableEq

/-- Type, name, output port if there is one, and connection set of a mention. -/
abbrev Mention := ComponentType × Str × Option OutputPort × Option Str

/-- graph.rs:32-36 -/
def Connection.mention : Connection → Mention
  | .middle ty n _ o s => (ty, n, some o, s)
  | .start ty n o s => (ty, n, some o, s)
  | .end ty n _ s => (ty, n, none, s)

/-- graph.rs:37-43 -/
def graphPush (src : Option Mention) (dst : Mention) (r : List GraphConn) : List GraphConn :=
  match src with
  | some (ty, n, some o, s) => r ++ [⟨(ty, n, s), o, (dst.1, dst.2.1, dst.2.2.2)⟩]
  | _ => r

/-- graph.rs:44-47 -/
def graphSrc (dst : Mention) : Option Mention :=
  match dst with
  | (_, _, some _, _) => some dst
  | _ => none

/-- graph.rs:31-48 -/
def graphLoop (src : Option Mention) (r : List GraphConn) : List Connection → List GraphConn
  | [] => r
  | c :: cs => graphLoop (graphSrc c.mention) (graphPush src c.mention r) cs

/-- graph.rs:25-53 `convert_connection_to_graph_connection` -/
def graphConns (acc : List GraphConn) (cs : List Connection) : List GraphConn := acc ++ graphLoop none [] cs

/-- graph.rs:65-69: appending to the entry of a type -/
def pushName (ty : ComponentType) (n : Str) : List (ComponentType × List Str) → List (ComponentType × List Str)
  | [] => [(ty, [n])]
  | (t, ns) :: m => if t = ty then (t, ns ++ [n]) :: m else (t, ns) :: pushName ty n m

/-- graph.rs:56-74 `convert_connection_components_fold` -/
def componentsFold (acc : List (ComponentType × List Str)) (cs : List Connection) : List (ComponentType × List Str) :=
  cs.foldl (fun acc c => pushName c.ty c.name acc) acc

/-- A statement that is not a subgraph: an attribute, a node, an edge. -/
inductive Stmt where
  | attr (key value : Str)
  | node (id : Str) (attrs : List (Str × Str))
  | edge (src dst : Str) (attrs : List (Str × Str))
  deriving Repr, DecidableEq

inductive Item where
  | stmt (s : Stmt)
  | sub (id : Str) (body : List Stmt)
  deriving Repr, DecidableEq

/-- graph.rs:94-103 -/
def ComponentType.letter : ComponentType → Char
  | .buffer => 'b'
  | .drain => 'd'
  | .faucet => 'f'
  | .junction => 'j'
  | .launch => 'l'
  | .regulator => 'r'

/-- graph.rs:105-114 -/
def nodeShape : ComponentType → Str × Str
  | .faucet => ("shape".toList, "trapezium".toList)
  | .drain => ("shape".toList, "invtrapezium".toList)
  | .junction => ("shape".toList, "oval".toList)
  | .buffer => ("shape".toList, "invhouse".toList)
  | .launch => ("shape".toList, "box".toList)
  | .regulator => ("shape".toList, "house".toList)

/-- graph.rs:116-125 with 11-16 -/
def nodeColor : ComponentType → Str × Str
  | .faucet => ("fillcolor".toList, "darkseagreen1".toList)
  | .drain => ("fillcolor".toList, "lightpink".toList)
  | .junction => ("fillcolor".toList, "papayawhip".toList)
  | .buffer => ("fillcolor".toList, "lightgray".toList)
  | .regulator => ("fillcolor".toList, "lightgray".toList)
  | .launch => ("fillcolor".toList, "lightblue".toList)

/-- graph.rs:127-129 `node_id` -/
def nodeId (ty : ComponentType) (name : Str) : Str := ty.letter :: '_' :: name

/-- graph.rs:131-151 `get_connection_set_name` -/
def connSetName (g : Option GraphConn) (ty : ComponentType) (name : Str) : Str :=
  match g with
  | some g => if g.src.2.1 = name ∧ g.src.1 = ty then g.src.2.2.getD [] else g.dst.2.2.getD []
  | none => []

/-- graph.rs:175-181 -/
def findConn (gs : List GraphConn) (ty : ComponentType) (name : Str) : Option GraphConn :=
  gs.find? fun g => (g.src.2.1 = name ∧ g.src.1 = ty) ∨ (g.dst.2.1 = name ∧ g.dst.1 = ty)

/-- graph.rs:184-187 -/
def nodeOf (ty : ComponentType) (name : Str) : Stmt :=
  .node (nodeId ty name) [("label".toList, name), ("style".toList, "filled".toList), nodeShape ty, nodeColor ty]

/-- graph.rs:173-189 -/
def addNode (gs : List GraphConn) (ty : ComponentType) (acc : Map (List Stmt)) (name : Str) : Map (List Stmt) :=
  acc.sortedEntry (· ++ [nodeOf ty name]) [nodeOf ty name] (connSetName (findConn gs ty name) ty name)

/-- graph.rs:170-192 `graph_components`; the argument is the components in the order of the `HashMap`. -/
def graphComponents (gs : List GraphConn) (components : List (ComponentType × List Str)) : Map (List Stmt) :=
  components.foldl (fun acc x => x.2.foldl (addNode gs x.1) acc) []

/-- graph.rs:153-168, of a source: first pattern -/
def faucetSet (g : GraphConn) : Option Str := if g.src.1 = .faucet then g.src.2.2 else none
/-- graph.rs:153-168, of a destination: second pattern, which is tried if the first does not match -/
def drainSet (g : GraphConn) : Option Str :=
  match faucetSet g with
  | some _ => none
  | none => if g.dst.1 = .drain then g.dst.2.2 else none

/-- graph.rs:153-168 -/
def faucetSets (gs : List GraphConn) : List Str := gs.filterMap faucetSet
def drainSets (gs : List GraphConn) : List Str := gs.filterMap drainSet

/-- graph.rs:194-220 `FrontAndBack` -/
structure FrontAndBack where
  front : List Item
  middle : List Item
  back : List Item

/-- graph.rs:223-230, 235-238 -/
def clusterOf (gs : List GraphConn) (set : Str) (nodes : List Stmt) : Item :=
  .sub ("cluster_nodes_".toList ++ set)
    (.attr "label".toList ('"' :: set ++ [':', '"']) ::
     .attr "rank".toList (if set ∈ faucetSets gs then "min".toList else if set ∈ drainSets gs then "max".toList else "same".toList) :: nodes)

/-- graph.rs:222-246 -/
def placeSet (gs : List GraphConn) (acc : FrontAndBack) (x : Str × List Stmt) : FrontAndBack :=
  if x.1 = [] then { acc with middle := acc.middle ++ x.2.map .stmt }
  else if x.1 ∈ faucetSets gs then { acc with front := acc.front ++ [clusterOf gs x.1 x.2] }
  else if x.1 ∈ drainSets gs then { acc with back := acc.back ++ [clusterOf gs x.1 x.2] }
  else { acc with middle := acc.middle ++ [clusterOf gs x.1 x.2] }

/-- graph.rs:211-217 `ret` -/
def FrontAndBack.ret (f : FrontAndBack) : List Item := f.front ++ f.middle ++ f.back

/-- graph.rs:249-252, with the derived `Debug` of connectable.rs `OutputPort` -/
def edgeLabel : OutputPort → Str
  | .out => ['"', '"']
  | .err => "Err".toList
  | .exit => "Exit".toList

/-- graph.rs:248-257 -/
def edgeOf (g : GraphConn) : Item := .stmt (.edge (nodeId g.src.1 g.src.2.1) (nodeId g.dst.1 g.dst.2.1) [("label".toList, edgeLabel g.via)])

/-- graph.rs:92-266 `get_diagram`: the statements of the subgraph -/
def diagram (components : List (ComponentType × List Str)) (gs : List GraphConn) : List Item :=
  ((graphComponents gs components).foldl (placeSet gs) ⟨[], [], []⟩).ret ++ gs.map edgeOf

/-- config.rs:260-286 `set_connection_set` -/
def Connection.withSet (s : Option Str) : Connection → Connection
  | .middle ty n i o _ => .middle ty n i o s
  | .start ty n o _ => .start ty n o s
  | .end ty n i _ => .end ty n i s

/-- config.rs:288-306: the `i`-th of `len` mentions -/
def nameMention (set : Str) (len i : Nat) (c : Connection) : Connection :=
  c.withSet (if (i = 0 ∨ i = len - 1) ∧ c.ty = .junction then none else some set)

/-- config.rs:260-312 `quick_add_connection_set` -/
def addSetName (set : Str) : DConn → DConn
  | .conns cs => .conns (cs.mapIdx (nameMention set cs.length))
  | .join s => .join s

/-- pa2.rs:570-572 -/
def named (m : Map DConn) : Map DConn := m.map fun x => (x.1, addSetName x.1 x.2)

/-- pa2.rs:573-579 -/
def allGraphConns (m : Map DConn) : List GraphConn := m.foldl (fun acc x => graphConns acc x.2.toList) []
/-- pa2.rs:580-586 -/
def allComponents (m : Map DConn) : List (ComponentType × List Str) := m.foldl (fun acc x => componentsFold acc x.2.toList) []

/-- pa2.rs:568-592 with graph.rs:76-89: the diagram in the graph that is printed, which is a strict directed one. `order` is that of the `HashMap`. -/
def draw (order : List (ComponentType × List Str) → List (ComponentType × List Str)) (c : Config) : List Item :=
  diagram (order (allComponents (named c.connection))) (allGraphConns (named c.connection))

/-- pa2.rs:521-535 `filter` -/
def LintWarning.isUnused : LintWarning → Bool
  | .inConfigButMissingFlowConnection .. => true
  | _ => false

/-- pa2.rs:530-539, 568-592: the drawing or the warnings; `none` is a panic. -/
def drawCommand (order : List (ComponentType × List Str) → List (ComponentType × List Str)) (c : Config) : Option (Except (List LintWarning) (List Item)) :=
  (lint c).map fun x => match x.2.filter (fun w => !w.isUnused) with
    | [] => .ok (draw order x.1)
    | ws => .error ws

end Verif
