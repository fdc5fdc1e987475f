import Verif.Model.Graph
import Verif.Spec.Hops
import Verif.Lemmas.Maps
/-!
# C48: what is drawn
-/
namespace Verif

/-! ## Specification -/

def Stmt.node? : Stmt → Option Str
  | .node id _ => some id
  | _ => none

/-- The node statements: in which subgraph (if in any), and the identifier of the node. -/
def placed (items : List Item) : List (Option Str × Str) :=
  items.flatMap fun
    | .stmt s => s.node?.toList.map fun id => (none, id)
    | .sub cl body => (body.filterMap Stmt.node?).map fun id => (some cl, id)

/-- The edge statements: from, to, label. -/
def edgesIn (items : List Item) : List (Str × Str × Str) :=
  items.filterMap fun
    | .stmt (.edge s d [(_, l)]) => some (s, d, l)
    | _ => none

/-- What a strict graph shows of edge statements: between two nodes only one edge, as the last statement says. -/
def Drawn (es : List (Str × Str × Str)) (s d l : Str) : Prop :=
  ((es.filter fun e => e.1 = s ∧ e.2.1 = d).getLast?).map (·.2.2) = some l

/-- A connection set mentions a component. -/
def Connects (cs : List Connection) (r : ComponentType × Str) : Prop := ∃ x ∈ cs, (x.ty, x.name) = r

def Config.Connects (c : Config) (b : Str) (r : ComponentType × Str) : Prop := ∃ cs, (b, .conns cs) ∈ c.connection ∧ Verif.Connects cs r

/-- How a hop is written. -/
def Hop.edge (h : Hop) : Str × Str × Str := (nodeId h.src.ty h.src.name, nodeId h.dst.ty h.dst.name, edgeLabel h.src.port)

/-- What the sets say one after the other, as pairs of mentions. -/
def setEdges (cs : List Connection) : List (Str × Str × Str) :=
  (cs.zip cs.tail).filterMap fun x => x.1.out.map fun o => (nodeId o.ty o.name, nodeId x.2.ty x.2.name, edgeLabel o.port)

/-- Other pipe variations and priorities. -/
def Connection.repipe (f : InputPort → InputPort) : Connection → Connection
  | .middle ty n i o s => .middle ty n (f i) o s
  | .start ty n o s => .start ty n o s
  | .end ty n i s => .end ty n (f i) s

def Config.repipe (f : InputPort → InputPort) (c : Config) : Config :=
  { c with connection := c.connection.map fun x => (x.1, match x.2 with | .conns cs => .conns (cs.map (Connection.repipe f)) | .join s => .join s) }

/-! ## Lemmas -/

/-- The connection drawn for two neighbours. -/
def pairConn (x : Connection × Connection) : Option GraphConn :=
  x.1.out.map fun o => ⟨(o.ty, o.name, x.1.setName), o.port, (x.2.ty, x.2.name, x.2.setName)⟩

theorem graphLoop_from (c : Connection) (cs : List Connection) (r : List GraphConn) :
    graphLoop (graphSrc c.mention) r cs = r ++ ((c :: cs).zip cs).filterMap pairConn := by
  induction cs generalizing c r with
  | nil => simp [graphLoop]
  | cons d cs ih =>
    rw [graphLoop, ih, List.zip_cons_cons, List.filterMap_cons]
    have : graphPush (graphSrc c.mention) d.mention r = r ++ (pairConn (c, d)).toList := by
      cases c <;> cases d <;> simp [graphPush, graphSrc, Connection.mention, pairConn, Connection.out, Connection.setName, Connection.ty, Connection.name]
    rw [this]
    cases pairConn (c, d) <;> simp

theorem graphLoop_eq (cs : List Connection) : graphLoop none [] cs = (cs.zip cs.tail).filterMap pairConn := by
  cases cs with
  | nil => rfl
  | cons c cs =>
    rw [graphLoop]
    have : graphPush none c.mention [] = [] := rfl
    rw [this, graphLoop_from]
    simp

theorem allGraphConns_eq (m : Map DConn) : allGraphConns m = m.flatMap fun x => (x.2.toList.zip x.2.toList.tail).filterMap pairConn := by
  have : ∀ (acc : List GraphConn), m.foldl (fun acc x => graphConns acc x.2.toList) acc = acc ++ m.flatMap fun x => (x.2.toList.zip x.2.toList.tail).filterMap pairConn := by
    induction m with
    | nil => simp
    | cons x m ih => intro acc; rw [List.foldl_cons, ih, graphConns, graphLoop_eq]; simp
  rw [allGraphConns, this]; rfl

theorem withSet_ty (s : Option Str) (c : Connection) : (c.withSet s).ty = c.ty := by cases c <;> rfl
theorem withSet_name (s : Option Str) (c : Connection) : (c.withSet s).name = c.name := by cases c <;> rfl
theorem withSet_out (s : Option Str) (c : Connection) : (c.withSet s).out = c.out := by cases c <;> rfl
theorem withSet_setName (s : Option Str) (c : Connection) : (c.withSet s).setName = s := by cases c <;> rfl

theorem addSetName_toList (b : Str) (d : DConn) : (addSetName b d).toList = d.toList.mapIdx (nameMention b d.toList.length) := by
  cases d <;> simp [addSetName, DConn.toList]

/-- The edge statement of a connection. -/
def GraphConn.edge (g : GraphConn) : Str × Str × Str := (nodeId g.src.1 g.src.2.1, nodeId g.dst.1 g.dst.2.1, edgeLabel g.via)

theorem pairs_named (b : Str) (n : Nat) (cs : List Connection) (k : Nat) :
    (((cs.mapIdx fun i => nameMention b n (i + k)).zip (cs.mapIdx fun i => nameMention b n (i + k)).tail).filterMap pairConn).map GraphConn.edge = setEdges cs := by
  induction cs generalizing k with
  | nil => rfl
  | cons c cs ih =>
    cases cs with
    | nil => rfl
    | cons d cs =>
      have := ih (k + 1)
      simp only [setEdges] at this ⊢
      simp only [List.mapIdx_cons, List.tail_cons, List.zip_cons_cons, List.filterMap_cons] at this ⊢
      have hadd : ∀ i, i + 1 + k = i + (k + 1) := by intro i; omega
      simp only [hadd, Nat.zero_add] at this ⊢
      have h1 : ∀ i j, (pairConn (nameMention b n i c, nameMention b n j d)).map GraphConn.edge =
          c.out.map fun o => (nodeId o.ty o.name, nodeId d.ty d.name, edgeLabel o.port) := by
        intro i j
        simp only [pairConn, nameMention, withSet_out, withSet_ty, withSet_name, Option.map_map]
        rfl
      have h2 := h1 k (k + 1)
      cases hp : pairConn (nameMention b n k c, nameMention b n (k + 1) d) with
      | none =>
        rw [hp] at h2
        cases hc : c.out with
        | none => simpa using this
        | some o => rw [hc] at h2; cases h2
      | some g =>
        rw [hp] at h2
        cases hc : c.out with
        | none => rw [hc] at h2; cases h2
        | some o =>
          rw [hc] at h2
          injection h2 with h2
          rw [List.map_cons, this, h2]
          rfl

theorem named_edges (m : Map DConn) : (allGraphConns (named m)).map GraphConn.edge = m.flatMap fun x => setEdges x.2.toList := by
  rw [allGraphConns_eq, named, List.flatMap_map, List.map_flatMap]
  congr 1
  funext x
  rw [addSetName_toList]
  exact pairs_named x.1 _ x.2.toList 0

theorem mem_placeSets (gs : List GraphConn) (m : Map (List Stmt)) (acc : FrontAndBack) (x : Item) :
    x ∈ (m.foldl (placeSet gs) acc).ret ↔ x ∈ acc.ret ∨ ∃ p ns, (p, ns) ∈ m ∧ ((p = [] ∧ ∃ s ∈ ns, x = .stmt s) ∨ (p ≠ [] ∧ x = clusterOf gs p ns)) := by
  induction m generalizing acc with
  | nil => simp
  | cons y m ih =>
    obtain ⟨p, ns⟩ := y
    rw [List.foldl_cons, ih]
    have : x ∈ (placeSet gs acc (p, ns)).ret ↔ x ∈ acc.ret ∨ ((p = [] ∧ ∃ s ∈ ns, x = .stmt s) ∨ (p ≠ [] ∧ x = clusterOf gs p ns)) := by
      unfold placeSet FrontAndBack.ret
      simp only
      split
      · rename_i hp
        simp only [hp, List.mem_append, List.mem_map, ne_eq, not_true_eq_false, true_and, false_and, or_false]
        constructor
        · rintro ((h | (h | ⟨s, h, rfl⟩)) | h)
          · exact Or.inl (Or.inl (Or.inl h))
          · exact Or.inl (Or.inl (Or.inr h))
          · exact Or.inr ⟨s, h, rfl⟩
          · exact Or.inl (Or.inr h)
        · rintro (((h | h) | h) | ⟨s, h, rfl⟩)
          · exact Or.inl (Or.inl h)
          · exact Or.inl (Or.inr (Or.inl h))
          · exact Or.inr h
          · exact Or.inl (Or.inr (Or.inr ⟨s, h, rfl⟩))
      · rename_i hp
        split
        · simp only [hp, List.mem_append, List.mem_singleton, ne_eq, not_false_eq_true, true_and, false_and, false_or]
          grind
        · split <;> (simp only [hp, List.mem_append, List.mem_singleton, ne_eq, not_false_eq_true, true_and, false_and, false_or]; grind)
    rw [this]
    simp only [List.mem_cons, Prod.mk.injEq]
    constructor
    · rintro ((h | h) | ⟨p', ns', hm, h⟩)
      · exact Or.inl h
      · exact Or.inr ⟨p, ns, Or.inl ⟨rfl, rfl⟩, h⟩
      · exact Or.inr ⟨p', ns', Or.inr hm, h⟩
    · rintro (h | ⟨p', ns', ⟨rfl, rfl⟩ | hm, h⟩)
      · exact Or.inl (Or.inl h)
      · exact Or.inl (Or.inr h)
      · exact Or.inr ⟨p', ns', hm, h⟩

/-- Where a component is drawn. -/
def placeOf (gs : List GraphConn) (r : ComponentType × Str) : Str := connSetName (findConn gs r.1 r.2) r.1 r.2

theorem addNodes (gs : List GraphConn) (l : List (ComponentType × Str)) (acc : Map (List Stmt)) (hs : acc.Sorted) :
    (l.foldl (fun acc r => addNode gs r.1 acc r.2) acc).Sorted ∧
    ∀ p, ((l.foldl (fun acc r => addNode gs r.1 acc r.2) acc).get p).getD [] = (acc.get p).getD [] ++ (l.filter fun r => placeOf gs r = p).map fun r => nodeOf r.1 r.2 := by
  induction l generalizing acc with
  | nil => exact ⟨hs, by simp⟩
  | cons r l ih =>
    have hs' : (addNode gs r.1 acc r.2).Sorted := sorted_sortedEntry hs _ _ _
    obtain ⟨h1, h2⟩ := ih _ hs'
    refine ⟨h1, fun p => ?_⟩
    rw [List.foldl_cons, h2 p]
    have : ((addNode gs r.1 acc r.2).get p).getD [] = (acc.get p).getD [] ++ if placeOf gs r = p then [nodeOf r.1 r.2] else [] := by
      rw [addNode, get_sortedEntry hs, show connSetName (findConn gs r.1 r.2) r.1 r.2 = placeOf gs r from rfl]
      by_cases h : placeOf gs r = p
      · rw [if_pos h]
        subst h
        rw [if_pos rfl]
        cases acc.get (placeOf gs r) <;> rfl
      · rw [if_neg h, if_neg (fun e => h e.symm)]
        simp
    rw [this]
    by_cases h : placeOf gs r = p <;> simp [h]

theorem graphComponents_eq (gs : List GraphConn) (comps : List (ComponentType × List Str)) :
    graphComponents gs comps = (comps.flatMap fun x => x.2.map fun n => (x.1, n)).foldl (fun acc r => addNode gs r.1 acc r.2) [] := by
  unfold graphComponents
  generalize ([] : Map (List Stmt)) = acc
  induction comps generalizing acc with
  | nil => rfl
  | cons x comps ih =>
    rw [List.foldl_cons, ih, List.flatMap_cons, List.foldl_append, List.foldl_map]

theorem mem_get {α} {m : Map α} (h : m.keys.Nodup) {k : Str} {v : α} : (k, v) ∈ m ↔ m.get k = some v := by
  induction m with
  | nil => simp [Map.get]
  | cons x m ih =>
    obtain ⟨k', v'⟩ := x
    simp only [Map.keys, List.map_cons, List.nodup_cons] at h
    simp only [Map.get, List.mem_cons, Prod.mk.injEq]
    by_cases hk : k = k'
    · subst hk
      have : ∀ v, (k, v) ∉ m := fun v hv => h.1 (List.mem_map.mpr ⟨_, hv, rfl⟩)
      simp [this, eq_comm]
    · simp only [hk, false_and, false_or]
      rw [ih h.2]
      simp [show k' ≠ k from fun e => hk e.symm, hk]

/-- All the nodes of a diagram. -/
theorem mem_nodes (gs : List GraphConn) (comps : List (ComponentType × List Str)) (p : Str) (s : Stmt) :
    (∃ ns, (p, ns) ∈ graphComponents gs comps ∧ s ∈ ns) ↔ ∃ ty names n, (ty, names) ∈ comps ∧ n ∈ names ∧ placeOf gs (ty, n) = p ∧ s = nodeOf ty n := by
  obtain ⟨h1, h2⟩ := addNodes gs (comps.flatMap fun x => x.2.map fun n => (x.1, n)) [] (by simp [Map.Sorted])
  rw [graphComponents_eq]
  have h3 : (∃ ns, (p, ns) ∈ (comps.flatMap fun x => x.2.map fun n => (x.1, n)).foldl (fun acc r => addNode gs r.1 acc r.2) [] ∧ s ∈ ns) ↔
      s ∈ (((comps.flatMap fun x => x.2.map fun n => (x.1, n)).foldl (fun acc r => addNode gs r.1 acc r.2) []).get p).getD [] := by
    constructor
    · rintro ⟨ns, hm, hs⟩
      rw [(mem_get h1.nodup).mp hm]; exact hs
    · intro h
      cases hg : ((comps.flatMap fun x => x.2.map fun n => (x.1, n)).foldl (fun acc r => addNode gs r.1 acc r.2) []).get p with
      | none => rw [hg] at h; simp at h
      | some ns => rw [hg] at h; exact ⟨ns, (mem_get h1.nodup).mpr hg, h⟩
  rw [h3, h2 p]
  simp only [Map.get, Option.getD_none, List.nil_append, List.mem_map, List.mem_filter, List.mem_flatMap, decide_eq_true_eq, Prod.exists]
  constructor
  · rintro ⟨ty, n, ⟨⟨ty', names, hm, n', hn, e⟩, hp⟩, rfl⟩
    cases e
    exact ⟨ty, names, n, hm, hn, hp, rfl⟩
  · rintro ⟨ty, names, n, hm, hn, hp, rfl⟩
    exact ⟨ty, n, ⟨⟨ty, names, hm, n, hn, rfl⟩, hp⟩, rfl⟩

theorem mem_placed {items : List Item} {cl : Option Str} {id : Str} :
    (cl, id) ∈ placed items ↔ (cl = none ∧ ∃ s, .stmt s ∈ items ∧ s.node? = some id) ∨ ∃ c body, cl = some c ∧ .sub c body ∈ items ∧ ∃ s ∈ body, s.node? = some id := by
  unfold placed
  simp only [List.mem_flatMap]
  constructor
  · rintro ⟨x, hx, h⟩
    cases x with
    | stmt s =>
      simp only [List.mem_map, Option.mem_toList, Prod.mk.injEq] at h
      obtain ⟨i, hi, h1, rfl⟩ := h
      exact Or.inl ⟨h1.symm, s, hx, hi⟩
    | sub c body =>
      simp only [List.mem_map, List.mem_filterMap, Prod.mk.injEq] at h
      obtain ⟨i, hi, h1, rfl⟩ := h
      exact Or.inr ⟨c, body, h1.symm, hx, hi⟩
  · rintro (⟨rfl, s, hx, hi⟩ | ⟨c, body, rfl, hx, hi⟩)
    · exact ⟨_, hx, by simp [hi]⟩
    · refine ⟨_, hx, ?_⟩
      simp only [List.mem_map, List.mem_filterMap, Prod.mk.injEq, true_and, exists_eq_right]
      exact hi

/-- The cluster of a place. -/
def clusterName (p : Str) : Option Str := if p = [] then none else some ("cluster_nodes_".toList ++ p)

theorem placed_diagram (comps : List (ComponentType × List Str)) (gs : List GraphConn) (cl : Option Str) (id : Str) :
    (cl, id) ∈ placed (diagram comps gs) ↔ ∃ ty names n, (ty, names) ∈ comps ∧ n ∈ names ∧ cl = clusterName (placeOf gs (ty, n)) ∧ id = nodeId ty n := by
  rw [mem_placed]
  have hitem : ∀ x, x ∈ diagram comps gs ↔ (∃ p ns, (p, ns) ∈ graphComponents gs comps ∧ ((p = [] ∧ ∃ s ∈ ns, x = .stmt s) ∨ (p ≠ [] ∧ x = clusterOf gs p ns))) ∨
      ∃ g ∈ gs, x = edgeOf g := by
    intro x
    rw [diagram, List.mem_append, mem_placeSets]
    simp only [FrontAndBack.ret, List.append_nil, List.not_mem_nil, false_or, List.mem_map]
    constructor
    · rintro (h | ⟨g, hg, rfl⟩)
      · exact Or.inl h
      · exact Or.inr ⟨g, hg, rfl⟩
    · rintro (h | ⟨g, hg, rfl⟩)
      · exact Or.inl h
      · exact Or.inr ⟨g, hg, rfl⟩
  constructor
  · rintro (⟨rfl, s, hx, hi⟩ | ⟨c, body, rfl, hx, s, hs, hi⟩)
    · rw [hitem] at hx
      rcases hx with ⟨p, ns, hm, ⟨rfl, s', hs, e⟩ | ⟨_, e⟩⟩ | ⟨g, _, e⟩
      · cases e
        obtain ⟨ty, names, n, h1, h2, h3, rfl⟩ := (mem_nodes gs comps [] s).mp ⟨ns, hm, hs⟩
        simp only [nodeOf, Stmt.node?, Option.some.injEq] at hi
        exact ⟨ty, names, n, h1, h2, by simp [clusterName, h3], hi.symm⟩
      · cases e
      · cases e; simp [Stmt.node?] at hi
    · rw [hitem] at hx
      rcases hx with ⟨p, ns, hm, ⟨_, _, _, e⟩ | ⟨hp, e⟩⟩ | ⟨g, _, e⟩
      · cases e
      · simp only [clusterOf, Item.sub.injEq] at e
        obtain ⟨rfl, rfl⟩ := e
        simp only [List.mem_cons] at hs
        rcases hs with rfl | rfl | hs
        · simp [Stmt.node?] at hi
        · simp [Stmt.node?] at hi
        · obtain ⟨ty, names, n, h1, h2, h3, rfl⟩ := (mem_nodes gs comps p s).mp ⟨ns, hm, hs⟩
          simp only [nodeOf, Stmt.node?, Option.some.injEq] at hi
          exact ⟨ty, names, n, h1, h2, by simp [clusterName, h3, hp], hi.symm⟩
      · cases e
  · rintro ⟨ty, names, n, h1, h2, rfl, rfl⟩
    obtain ⟨ns, hm, hs⟩ := (mem_nodes gs comps (placeOf gs (ty, n)) (nodeOf ty n)).mpr ⟨ty, names, n, h1, h2, rfl, rfl⟩
    by_cases hp : placeOf gs (ty, n) = []
    · refine Or.inl ⟨by simp [clusterName, hp], nodeOf ty n, ?_, rfl⟩
      rw [hitem]
      exact Or.inl ⟨_, ns, hm, Or.inl ⟨hp, _, hs, rfl⟩⟩
    · refine Or.inr ⟨_, _, by rw [clusterName, if_neg hp], (hitem _).mpr (Or.inl ⟨_, ns, hm, Or.inr ⟨hp, rfl⟩⟩), nodeOf ty n, by simp [hs], rfl⟩

theorem pushName_mem (ty : ComponentType) (n : Str) (m : List (ComponentType × List Str)) (t : ComponentType) (x : Str) :
    (∃ names, (t, names) ∈ pushName ty n m ∧ x ∈ names) ↔ (t = ty ∧ x = n) ∨ ∃ names, (t, names) ∈ m ∧ x ∈ names := by
  induction m with
  | nil =>
    simp only [pushName, List.mem_singleton, Prod.mk.injEq, List.not_mem_nil, false_and, exists_false, or_false]
    constructor
    · rintro ⟨_, ⟨rfl, rfl⟩, h⟩; exact ⟨rfl, by simpa using h⟩
    · rintro ⟨rfl, rfl⟩; exact ⟨_, ⟨rfl, rfl⟩, by simp⟩
  | cons y m ih =>
    obtain ⟨t', ns⟩ := y
    simp only [pushName]
    split
    · rename_i h
      subst h
      simp only [List.mem_cons, Prod.mk.injEq]
      constructor
      · rintro ⟨names, ⟨rfl, rfl⟩ | h, hx⟩
        · simp only [List.mem_append, List.mem_singleton] at hx
          rcases hx with hx | hx
          · exact Or.inr ⟨ns, Or.inl ⟨rfl, rfl⟩, hx⟩
          · exact Or.inl ⟨rfl, hx⟩
        · exact Or.inr ⟨names, Or.inr h, hx⟩
      · rintro (⟨rfl, rfl⟩ | ⟨names, ⟨rfl, rfl⟩ | h, hx⟩)
        · exact ⟨_, Or.inl ⟨rfl, rfl⟩, by simp⟩
        · exact ⟨_, Or.inl ⟨rfl, rfl⟩, by simp [hx]⟩
        · exact ⟨names, Or.inr h, hx⟩
    · simp only [List.mem_cons, Prod.mk.injEq]
      constructor
      · rintro ⟨names, ⟨rfl, rfl⟩ | h, hx⟩
        · exact Or.inr ⟨_, Or.inl ⟨rfl, rfl⟩, hx⟩
        · rcases ih.mp ⟨names, h, hx⟩ with h | ⟨names, h, hx⟩
          · exact Or.inl h
          · exact Or.inr ⟨names, Or.inr h, hx⟩
      · rintro (h | ⟨names, ⟨rfl, rfl⟩ | h, hx⟩)
        · obtain ⟨names, h, hx⟩ := ih.mpr (Or.inl h)
          exact ⟨names, Or.inr h, hx⟩
        · exact ⟨_, Or.inl ⟨rfl, rfl⟩, hx⟩
        · obtain ⟨names, h, hx⟩ := ih.mpr (Or.inr ⟨names, h, hx⟩)
          exact ⟨names, Or.inr h, hx⟩

theorem componentsFold_mem (cs : List Connection) (acc : List (ComponentType × List Str)) (t : ComponentType) (x : Str) :
    (∃ names, (t, names) ∈ componentsFold acc cs ∧ x ∈ names) ↔ (∃ names, (t, names) ∈ acc ∧ x ∈ names) ∨ Connects cs (t, x) := by
  induction cs generalizing acc with
  | nil => simp [componentsFold, Connects]
  | cons c cs ih =>
    unfold componentsFold at ih ⊢
    rw [List.foldl_cons, ih, pushName_mem]
    simp only [Connects, List.mem_cons]
    constructor
    · rintro ((⟨rfl, rfl⟩ | h) | ⟨y, hy, e⟩)
      · exact Or.inr ⟨c, Or.inl rfl, rfl⟩
      · exact Or.inl h
      · exact Or.inr ⟨y, Or.inr hy, e⟩
    · rintro (h | ⟨y, rfl | hy, e⟩)
      · exact Or.inl (Or.inr h)
      · simp only [Prod.mk.injEq] at e
        exact Or.inl (Or.inl ⟨e.1.symm, e.2.symm⟩)
      · exact Or.inr ⟨y, hy, e⟩

theorem allComponents_mem (m : Map DConn) (t : ComponentType) (x : Str) :
    (∃ names, (t, names) ∈ allComponents m ∧ x ∈ names) ↔ ∃ y ∈ m, Connects y.2.toList (t, x) := by
  have : ∀ acc, (∃ names, (t, names) ∈ m.foldl (fun acc x => componentsFold acc x.2.toList) acc ∧ x ∈ names) ↔
      (∃ names, (t, names) ∈ acc ∧ x ∈ names) ∨ ∃ y ∈ m, Connects y.2.toList (t, x) := by
    induction m with
    | nil => simp
    | cons y m ih =>
      intro acc
      rw [List.foldl_cons, ih, componentsFold_mem]
      simp only [List.mem_cons, exists_eq_or_imp, or_assoc]
  simpa [allComponents] using this []

theorem mem_mapIdx_named {b : Str} {n : Nat} {cs : List Connection} {x : Connection} (h : x ∈ cs.mapIdx (nameMention b n)) :
    ∃ c ∈ cs, ∃ i, x = nameMention b n i c := by
  obtain ⟨i, hi, rfl⟩ := List.mem_mapIdx.mp h
  exact ⟨cs[i], List.getElem_mem _, i, rfl⟩

theorem connects_named {b : Str} {n : Nat} {cs : List Connection} {r} : Connects (cs.mapIdx (nameMention b n)) r ↔ Connects cs r := by
  constructor
  · rintro ⟨x, hx, e⟩
    obtain ⟨c, hc, i, rfl⟩ := mem_mapIdx_named hx
    exact ⟨c, hc, by simpa [nameMention, withSet_ty, withSet_name] using e⟩
  · rintro ⟨c, hc, e⟩
    obtain ⟨i, hi, rfl⟩ := List.mem_iff_getElem.mp hc
    exact ⟨nameMention b n i cs[i], List.mem_mapIdx.mpr ⟨i, hi, rfl⟩, by simpa [nameMention, withSet_ty, withSet_name] using e⟩

theorem named_mem (c : Config) (t : ComponentType) (x : Str) :
    (∃ names, (t, names) ∈ allComponents (named c.connection) ∧ x ∈ names) ↔ ∃ b, c.Connects b (t, x) := by
  rw [allComponents_mem]
  constructor
  · rintro ⟨y, hy, h⟩
    obtain ⟨⟨b, d⟩, hz, rfl⟩ := List.mem_map.mp hy
    rw [addSetName_toList, connects_named] at h
    cases d with
    | join s => obtain ⟨_, hh, _⟩ := h; cases hh
    | conns cs => exact ⟨b, cs, hz, h⟩
  · rintro ⟨b, cs, hz, h⟩
    refine ⟨_, List.mem_map.mpr ⟨_, hz, rfl⟩, ?_⟩
    rw [addSetName_toList, connects_named]
    exact h

theorem letter_inj {t t' : ComponentType} (h : t.letter = t'.letter) : t = t' := by
  cases t <;> cases t' <;> first | rfl | (revert h; decide)

/-! ## C48 -/

/-- **C48** The statements name different components differently. -/
theorem C48_identifiers (t t' : ComponentType) (n n' : Str) : nodeId t n = nodeId t' n' ↔ (t, n) = (t', n') := by
  constructor
  · intro h
    simp only [nodeId, List.cons.injEq, true_and] at h
    rw [letter_inj h.1, h.2]
  · intro h; cases h; rfl

section
variable {order : List (ComponentType × List Str) → List (ComponentType × List Str)} (horder : ∀ l, (order l).Perm l)
include horder

theorem placed_draw (c : Config) (cl : Option Str) (id : Str) :
    (cl, id) ∈ placed (draw order c) ↔ ∃ r : ComponentType × Str, (∃ b, c.Connects b r) ∧ cl = clusterName (placeOf (allGraphConns (named c.connection)) r) ∧ id = nodeId r.1 r.2 := by
  rw [draw, placed_diagram]
  constructor
  · rintro ⟨ty, names, n, h1, h2, h3⟩
    exact ⟨(ty, n), (named_mem c ty n).mp ⟨names, (horder _).mem_iff.mp h1, h2⟩, h3⟩
  · rintro ⟨⟨ty, n⟩, h1, h3⟩
    obtain ⟨names, h1, h2⟩ := (named_mem c ty n).mpr h1
    exact ⟨ty, names, n, (horder _).mem_iff.mpr h1, h2, h3⟩

/-- **C48** The nodes are those of the components that the connection sets mention. -/
theorem C48_nodes (c : Config) (id : Str) : (∃ cl, (cl, id) ∈ placed (draw order c)) ↔ ∃ b r, c.Connects b r ∧ id = nodeId r.1 r.2 := by
  constructor
  · rintro ⟨cl, h⟩
    obtain ⟨r, ⟨b, hb⟩, _, rfl⟩ := (placed_draw horder c cl id).mp h
    exact ⟨b, r, hb, rfl⟩
  · rintro ⟨b, r, hb, rfl⟩
    exact ⟨_, (placed_draw horder c _ _).mpr ⟨r, ⟨b, hb⟩, rfl, rfl⟩⟩

/-- **C48** No component is in two clusters, or in one and outside. -/
theorem C48_cluster (c : Config) {cl cl' : Option Str} {id : Str} (h : (cl, id) ∈ placed (draw order c)) (h' : (cl', id) ∈ placed (draw order c)) : cl = cl' := by
  obtain ⟨r, _, rfl, rfl⟩ := (placed_draw horder c cl id).mp h
  obtain ⟨r', _, rfl, e⟩ := (placed_draw horder c cl' _).mp h'
  have := (C48_identifiers _ _ _ _).mp e
  cases r; cases r'; cases this; rfl

end

theorem filterMap_none {α β} {f : α → Option β} {l : List α} (h : ∀ x ∈ l, f x = none) : l.filterMap f = [] := by
  induction l with
  | nil => rfl
  | cons a l ih => rw [List.filterMap_cons, h a (by simp), ih fun x hx => h x (by simp [hx])]

theorem edgesIn_diagram (comps : List (ComponentType × List Str)) (gs : List GraphConn) : edgesIn (diagram comps gs) = gs.map GraphConn.edge := by
  unfold edgesIn diagram
  rw [List.filterMap_append, filterMap_none, List.nil_append, List.filterMap_map]
  · have : ∀ l : List GraphConn, l.map GraphConn.edge = l.filterMap fun g => some g.edge := by
      intro l; induction l <;> simp_all
    rw [this]
    rfl
  · intro x hx
    rw [mem_placeSets] at hx
    rcases hx with hx | ⟨p, ns, hm, ⟨rfl, s, hs, rfl⟩ | ⟨_, rfl⟩⟩
    · cases hx
    · obtain ⟨ty, names, n, _, _, _, rfl⟩ := (mem_nodes gs comps [] s).mp ⟨ns, hm, hs⟩
      rfl
    · rfl

/-- **C48** There is one edge statement for each hop and nothing else: those of the sets, one after the other. -/
theorem C48_edges (order : List (ComponentType × List Str) → List (ComponentType × List Str)) (c : Config) :
    edgesIn (draw order c) = c.connection.flatMap fun x => setEdges x.2.toList := by
  rw [draw, edgesIn_diagram, named_edges]

/-- **C48** A set that is well formed has an edge for every hop. -/
theorem C48_hops {cs : List Connection} (hw : WellFormed cs) :
    (setEdges cs).length = cs.length - 1 ∧ ∀ i h, HopAt cs i h → (setEdges cs)[i]? = some h.edge := by
  obtain ⟨_, hin, hout⟩ := hw
  have key : ∃ f : Connection × Connection → Str × Str × Str, setEdges cs = (cs.zip cs.tail).map f ∧
      ∀ i a b o, cs[i]? = some a → cs[i + 1]? = some b → a.out = some o → f (a, b) = (nodeId o.ty o.name, nodeId b.ty b.name, edgeLabel o.port) := by
    refine ⟨fun x => ((x.1.out.map fun o => (nodeId o.ty o.name, nodeId x.2.ty x.2.name, edgeLabel o.port)).getD ([], [], [])), ?_, ?_⟩
    · unfold setEdges
      have : ∀ (l : List (Connection × Connection)) (g : Connection × Connection → Option (Str × Str × Str)), (∀ x ∈ l, g x ≠ none) →
          l.filterMap g = l.map fun x => (g x).getD ([], [], []) := by
        intro l g hg
        induction l with
        | nil => rfl
        | cons x l ih =>
          rw [List.filterMap_cons]
          cases hx : g x with
          | none => exact absurd hx (hg x (by simp))
          | some y => simp only [List.map_cons, hx, Option.getD_some]; rw [ih fun x hx => hg x (by simp [hx])]
      apply this
      intro x hx
      obtain ⟨i, hi, rfl⟩ := List.mem_iff_getElem.mp hx
      rw [List.getElem_zip]
      have hlen : i + 1 < cs.length := by rw [List.length_zip, List.length_tail] at hi; omega
      have := hout i cs[i] cs[i + 1] (List.getElem?_eq_getElem (by omega)) (List.getElem?_eq_getElem hlen)
      simpa using this
    · intro i a b o h1 h2 h3
      simp [h3]
  obtain ⟨f, e, hf⟩ := key
  refine ⟨by rw [e, List.length_map, List.length_zip, List.length_tail]; omega, ?_⟩
  rintro i h ⟨a, b, ha, hb, h1, _, h3, _⟩
  rw [e, List.getElem?_map, (List.getElem?_zip_eq_some (z := (a, b))).mpr ⟨ha, by rw [List.getElem?_tail]; exact hb⟩]
  rw [Option.map_some, hf i a b _ ha hb h1]
  have : (b.ty, b.name) = (h.dst.ty, h.dst.name) := by
    cases b with
    | start => cases h3
    | middle ty n inp o s => simp only [Connection.into, Option.some.injEq, Prod.mk.injEq] at h3; rw [← h3.1]; rfl
    | «end» ty n inp s => simp only [Connection.into, Option.some.injEq, Prod.mk.injEq] at h3; rw [← h3.1]; rfl
  simp only [Prod.mk.injEq] at this
  rw [this.1, this.2]
  rfl

/-- What the sets in graph connections are. -/
theorem graphConn_sets (c : Config) {g : GraphConn} (h : g ∈ allGraphConns (named c.connection)) :
    ∃ b, (c.Connects b (g.src.1, g.src.2.1) ∧ (g.src.2.2 = some b ∨ (g.src.2.2 = none ∧ g.src.1 = .junction))) ∧
      c.Connects b (g.dst.1, g.dst.2.1) ∧ (g.dst.2.2 = some b ∨ (g.dst.2.2 = none ∧ g.dst.1 = .junction)) := by
  rw [allGraphConns_eq] at h
  obtain ⟨y, hy, hg⟩ := List.mem_flatMap.mp h
  obtain ⟨⟨b, d⟩, hz, rfl⟩ := List.mem_map.mp hy
  obtain ⟨⟨x1, x2⟩, hx, hp⟩ := List.mem_filterMap.mp hg
  rw [addSetName_toList] at hx
  obtain ⟨hx1, hx2⟩ := List.of_mem_zip hx
  obtain ⟨c1, hc1, i, rfl⟩ := mem_mapIdx_named hx1
  obtain ⟨c2, hc2, j, rfl⟩ := mem_mapIdx_named (List.mem_of_mem_tail hx2)
  cases d with
  | join s => cases hc1
  | conns cs =>
    simp only [pairConn, nameMention, withSet_out, withSet_ty, withSet_name, withSet_setName] at hp
    cases ho : c1.out with
    | none => rw [ho] at hp; cases hp
    | some o =>
      rw [ho] at hp
      injection hp with hp
      subst hp
      have h1 : (c1.ty, c1.name) = (o.ty, o.name) := by
        cases c1 <;> simp [Connection.out] at ho <;> subst ho <;> rfl
      have h1' : c1.ty = o.ty := congrArg Prod.fst h1
      refine ⟨b, ⟨⟨cs, hz, c1, hc1, h1⟩, ?_⟩, ⟨cs, hz, c2, hc2, rfl⟩, ?_⟩
      · simp only
        split
        · rename_i hh; exact Or.inr ⟨rfl, h1' ▸ hh.2⟩
        · exact Or.inl rfl
      · simp only
        split
        · rename_i hh; exact Or.inr ⟨rfl, hh.2⟩
        · exact Or.inl rfl

/-- **C48** A cluster is named after a set that mentions the components in it. Outside are only junctions, components of a set without a name, and those that no hop is at. -/
theorem C48_set {order : List (ComponentType × List Str) → List (ComponentType × List Str)} (horder : ∀ l, (order l).Perm l) (c : Config) {cl : Option Str} {t : ComponentType} {n : Str}
    (h : (cl, nodeId t n) ∈ placed (draw order c)) :
    match (generalizing := false) cl with
    | some k => ∃ b, k = "cluster_nodes_".toList ++ b ∧ c.Connects b (t, n)
    | none => t = .junction ∨ c.Connects [] (t, n) ∨ ∀ e ∈ edgesIn (draw order c), e.1 ≠ nodeId t n ∧ e.2.1 ≠ nodeId t n := by
  obtain ⟨⟨t', n'⟩, hr, hcl, e⟩ := (placed_draw horder c cl _).mp h
  obtain ⟨rfl, rfl⟩ : t = t' ∧ n = n' := by
    have := (C48_identifiers _ _ _ _).mp e
    simp only [Prod.mk.injEq] at this
    exact this
  clear h e
  subst hcl
  have hplace : (∃ b, placeOf (allGraphConns (named c.connection)) (t, n) = b ∧ c.Connects b (t, n)) ∨
      (placeOf (allGraphConns (named c.connection)) (t, n) = [] ∧ (t = .junction ∨ findConn (allGraphConns (named c.connection)) t n = none)) := by
    unfold placeOf connSetName
    cases hf : findConn (allGraphConns (named c.connection)) t n with
    | none => exact Or.inr ⟨rfl, Or.inr rfl⟩
    | some g =>
      have hm := List.mem_of_find?_eq_some hf
      have hq := List.find?_some hf
      simp only [decide_eq_true_eq] at hq
      obtain ⟨b, ⟨h1, h2⟩, h3, h4⟩ := graphConn_sets c hm
      simp only
      by_cases hs : g.src.2.1 = n ∧ g.src.1 = t
      · rw [if_pos hs]
        rcases h2 with h2 | ⟨h2, hj⟩
        · exact Or.inl ⟨b, by rw [h2]; rfl, by rw [← hs.1, ← hs.2]; exact h1⟩
        · exact Or.inr ⟨by rw [h2]; rfl, Or.inl (hs.2 ▸ hj)⟩
      · rw [if_neg hs]
        have hd := hq.resolve_left hs
        rcases h4 with h4 | ⟨h4, hj⟩
        · exact Or.inl ⟨b, by rw [h4]; rfl, by rw [← hd.1, ← hd.2]; exact h3⟩
        · exact Or.inr ⟨by rw [h4]; rfl, Or.inl (hd.2 ▸ hj)⟩
  unfold clusterName
  rcases hplace with ⟨b, e1, hb⟩ | ⟨e1, hj⟩
  · rw [e1]
    by_cases h0 : b = []
    · rw [if_pos h0]; subst h0; exact Or.inr (Or.inl hb)
    · rw [if_neg h0]; exact ⟨b, rfl, hb⟩
  · rw [e1, if_pos rfl]
    rcases hj with hj | hj
    · exact Or.inl hj
    · refine Or.inr (Or.inr fun e he => ?_)
      rw [draw, edgesIn_diagram] at he
      obtain ⟨g, hg, rfl⟩ := List.mem_map.mp he
      have := List.find?_eq_none.mp hj g hg
      simp only [decide_eq_true_eq, not_or] at this
      refine ⟨fun e1 => this.1 ?_, fun e1 => this.2 ?_⟩ <;>
        (have := (C48_identifiers _ _ _ _).mp e1; simp only [Prod.mk.injEq] at this; exact ⟨this.2, this.1⟩)

theorem repipe_mention (f : InputPort → InputPort) (c : Connection) : (c.repipe f).mention = c.mention ∧ (c.repipe f).ty = c.ty ∧ (c.repipe f).name = c.name := by
  cases c <;> exact ⟨rfl, rfl, rfl⟩

/-- **C48, refuted** What kind a pipe is, and its priority, is not drawn. -/
theorem C48_pipes_refuted (order : List (ComponentType × List Str) → List (ComponentType × List Str)) (c : Config) (f : InputPort → InputPort) :
    draw order (c.repipe f) = draw order c := by
  have hname : ∀ b n i (x : Connection), nameMention b n i (x.repipe f) = (nameMention b n i x).repipe f := by
    intro b n i x
    cases x <;> rfl
  have hnamed : named (c.repipe f).connection = (named c.connection).map fun x => (x.1, match x.2 with | .conns cs => .conns (cs.map (Connection.repipe f)) | .join s => .join s) := by
    unfold named Config.repipe
    simp only [List.map_map]
    apply List.map_congr_left
    rintro ⟨b, d⟩ _
    cases d with
    | join s => rfl
    | conns cs =>
      simp only [Function.comp, addSetName, List.length_map, Prod.mk.injEq, true_and, DConn.conns.injEq]
      apply List.ext_getElem (by simp)
      intro i h1 h2
      simp only [List.getElem_mapIdx, List.getElem_map]
      exact hname ..
  have hloop : ∀ cs src r, graphLoop src r (cs.map (Connection.repipe f)) = graphLoop src r cs := by
    intro cs
    induction cs with
    | nil => intros; rfl
    | cons x cs ih => intro src r; simp only [List.map_cons, graphLoop, (repipe_mention f x).1, ih]
  have hfold : ∀ cs acc, componentsFold acc (cs.map (Connection.repipe f)) = componentsFold acc cs := by
    intro cs acc
    unfold componentsFold
    rw [List.foldl_map]
    congr 1
    funext acc x
    rw [(repipe_mention f x).2.1, (repipe_mention f x).2.2]
  have htl : ∀ d : DConn, (match d with | .conns cs => DConn.conns (cs.map (Connection.repipe f)) | .join s => .join s).toList = d.toList.map (Connection.repipe f) := by
    intro d; cases d <;> rfl
  unfold draw allComponents allGraphConns
  rw [hnamed, List.foldl_map, List.foldl_map]
  simp only [htl, hfold, graphConns, hloop]

/-- **C48** Of several hops between two components, the drawing shows the port of the last. -/
theorem C48_merged (order : List (ComponentType × List Str) → List (ComponentType × List Str)) (c : Config) {pre post : List (Str × Str × Str)} {s d l : Str}
    (h : (c.connection.flatMap fun x => setEdges x.2.toList) = pre ++ (s, d, l) :: post) (hlast : ∀ e ∈ post, ¬ (e.1 = s ∧ e.2.1 = d)) (l' : Str) :
    Drawn (edgesIn (draw order c)) s d l' ↔ l' = l := by
  rw [C48_edges, h, Drawn, List.filter_append, List.filter_cons]
  have : post.filter (fun e => e.1 = s ∧ e.2.1 = d) = [] := by
    rw [List.filter_eq_nil_iff]
    intro e he
    simpa using hlast e he
  rw [this]
  simp [eq_comm]

/-- **C48** A configuration is drawn if the only things wrong with it are components that are not connected; otherwise the other warnings are given. The drawing is of the configuration
as the check leaves it. -/
theorem C48_accepted (order : List (ComponentType × List Str) → List (ComponentType × List Str)) {c c' : Config} {ws : List LintWarning} (h : lint c = some (c', ws)) :
    ((∀ w ∈ ws, ∃ z ty n, w = .inConfigButMissingFlowConnection z ty n) → drawCommand order c = some (.ok (draw order c'))) ∧
    (∀ w ∈ ws, (∀ z ty n, w ≠ .inConfigButMissingFlowConnection z ty n) → ∃ l, drawCommand order c = some (.error l) ∧ l.Sublist ws ∧ w ∈ l ∧ ∀ v ∈ l, ∀ z ty n, v ≠ .inConfigButMissingFlowConnection z ty n) := by
  have hunused : ∀ w : LintWarning, w.isUnused = true ↔ ∃ z ty n, w = .inConfigButMissingFlowConnection z ty n := by
    intro w
    cases w <;> simp [LintWarning.isUnused]
  unfold drawCommand
  rw [h, Option.map_some]
  constructor
  · intro hall
    have : ws.filter (fun w => !w.isUnused) = [] := by
      rw [List.filter_eq_nil_iff]
      intro w hw
      simp [(hunused w).mpr (hall w hw)]
    simp only [this]
  · intro w hw hne
    have hm : w ∈ ws.filter (fun w => !w.isUnused) := by
      rw [List.mem_filter]
      refine ⟨hw, ?_⟩
      cases hu : w.isUnused with
      | false => rfl
      | true => obtain ⟨z, ty, n, h1⟩ := (hunused w).mp hu; exact absurd h1 (hne z ty n)
    refine ⟨ws.filter (fun w => !w.isUnused), ?_, List.filter_sublist, hm, ?_⟩
    · simp only
      split
      · next h0 => rw [h0] at hm; cases hm
      · rfl
    · rintro v hv z ty n rfl
      have := (List.mem_filter.mp hv).2
      simp [LintWarning.isUnused] at this

/-! ## Instances -/

/-- Both outputs of a program into one junction. -/
def bothOutputs : Config where
  faucet := []
  regulator := []
  drain := [("tub".toList, "-".toList)]
  launch := [("x".toList, ⟨some "ls".toList, none, [], []⟩)]
  connection := [
    ("a".toList, .conns [.start .launch "x".toList .err none, .end .junction "j".toList ⟨.terminate, 0⟩ none]),
    ("b".toList, .conns [.start .launch "x".toList .out none, .middle .junction "j".toList ⟨.consume, 3⟩ .out none, .end .drain "tub".toList ⟨.terminate, 0⟩ none])]

example : drawCommand id bothOutputs = some (.ok (draw id bothOutputs)) := by decide +kernel

/-- With a drain that nothing leads to. -/
example : ∃ c' ws, lint { bothOutputs with drain := ("spare".toList, "-".toList) :: bothOutputs.drain } = some (c', ws) ∧ ws ≠ [] ∧
    (∀ w ∈ ws, ∃ z ty n, w = .inConfigButMissingFlowConnection z ty n) := by
  refine ⟨{ bothOutputs with drain := ("spare".toList, "-".toList) :: bothOutputs.drain }, [.inConfigButMissingFlowConnection "drain".toList .drain "spare".toList], by decide +kernel, by simp, ?_⟩
  intro w hw
  rw [List.mem_singleton] at hw
  exact ⟨_, _, _, hw⟩

example : placed (draw id bothOutputs) = [(none, "j_j".toList), (none, "j_j".toList), (some "cluster_nodes_a".toList, "l_x".toList),
    (some "cluster_nodes_a".toList, "l_x".toList), (some "cluster_nodes_b".toList, "d_tub".toList)] := by decide +kernel

example : edgesIn (draw id bothOutputs) = [("l_x".toList, "j_j".toList, "Err".toList), ("l_x".toList, "j_j".toList, "\"\"".toList),
    ("j_j".toList, "d_tub".toList, "\"\"".toList)] := by decide +kernel

/-- **C48 is false of the code**: a hop of an accepted configuration is not drawn. -/
theorem C48_refuted : ¬ ∀ (order : List (ComponentType × List Str) → List (ComponentType × List Str)) (c : Config) (items : List Item), (∀ l, (order l).Perm l) →
    drawCommand order c = some (.ok items) → ∀ b cs i h, (b, .conns cs) ∈ c.connection → HopAt cs i h → Drawn (edgesIn items) h.edge.1 h.edge.2.1 h.edge.2.2 := by
  intro h
  have := h id bothOutputs (draw id bothOutputs) (fun _ => List.Perm.refl _) (by decide +kernel) "a".toList _ 0
    ⟨⟨.launch, "x".toList, .err⟩, none, ⟨.junction, "j".toList⟩, ⟨.terminate, 0⟩, none⟩ (by simp only [bothOutputs]; exact List.mem_cons_self) ⟨_, _, rfl, rfl, rfl, rfl, rfl, rfl⟩
  unfold Drawn at this
  revert this
  decide +kernel

end Verif
