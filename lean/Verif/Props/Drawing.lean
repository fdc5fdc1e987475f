import Verif.Spec.Dot
import Verif.Model.Main
import Verif.Props.Graph
import Verif.Props.Parser
/-!
# C76: whether a drawing can be read, and its legend
-/
namespace Verif
open Dot

/-! ## Identifiers -/

theorem digit_wordly {c : Char} (h : Digit c) : Wordly c := Or.inr (Or.inr (Or.inl h))

/-- What begins with a letter is an identifier only if it is a word. -/
theorem id_word {c : Char} {s : Str} (hc : ('a' ≤ c ∧ c ≤ 'z')) : Id (c :: s) ↔ (∀ x ∈ s, Wordly x) ∧ ¬ Keyword (c :: s) := by
  have nd : ¬ Digit c := by
    rintro ⟨_, h⟩
    exact absurd (Char.le_trans hc.1 h) (by decide)
  constructor
  · intro h
    generalize e : c :: s = z at h
    cases h with
    | word h1 h2 h3 => cases e; exact ⟨fun x hx => h2 x (List.mem_cons_of_mem _ hx), h3⟩
    | number h =>
      obtain ⟨sign, a, b, rfl, h1, h2⟩ := h
      exfalso
      have hd : ∀ y, (sign ++ a ++ b).head? = some y → y = '-' ∨ y = '.' ∨ Digit y := by
        intro y hy
        rcases h1 with rfl | rfl
        · rcases h2 with ⟨⟨h3, h4⟩, _⟩ | ⟨rfl, f, rfl, _⟩
          · cases a with
            | nil => exact absurd rfl h3
            | cons z a => simp at hy; exact Or.inr (Or.inr (hy ▸ h4 z (by simp)))
          · simp at hy; exact Or.inr (Or.inl hy.symm)
        · simp at hy; exact Or.inl hy.symm
      rw [← e] at hd
      rcases hd c rfl with rfl | rfl | h
      · exact absurd hc.1 (by decide)
      · exact absurd hc.1 (by decide)
      · exact nd h
    | quoted h => cases e; exact absurd hc.1 (by decide)
    | html h => cases e; exact absurd hc.1 (by decide)
  · rintro ⟨h1, h2⟩
    refine .word nd (fun x hx => ?_) h2
    rcases List.mem_cons.mp hx with rfl | hx
    · exact Or.inl hc
    · exact h1 x hx

/-- A text of word characters is an identifier if it is legible. -/
theorem id_legible {n : Str} (hw : ∀ c ∈ n, Wordly c) : Id n ↔ Legible n := by
  constructor
  · intro h
    cases h with
    | word h1 h2 h3 => exact ⟨by simp, h2, Or.inl ⟨h3, fun c hc => by simp at hc; exact hc ▸ h1⟩⟩
    | number h =>
      obtain ⟨sign, a, b, rfl, h1, h2⟩ := h
      have nw : ∀ c, c = '-' ∨ c = '.' → ¬ Wordly c := by rintro c (rfl | rfl) <;> decide
      have hs : sign = [] := by
        rcases h1 with rfl | rfl
        · rfl
        · exact absurd (hw '-' (by simp)) (nw _ (Or.inl rfl))
      subst hs
      have hb : ∀ f, b ≠ '.' :: f := by
        rintro f rfl
        exact absurd (hw '.' (by simp)) (nw _ (Or.inr rfl))
      rcases h2 with ⟨⟨h3, h4⟩, rfl | ⟨f, h5, _⟩⟩ | ⟨_, f, h5, _⟩
      · exact ⟨by simpa using h3, hw, Or.inr (by simpa using h4)⟩
      · exact absurd h5 (hb f)
      · exact absurd h5 (hb f)
    | quoted h => exact absurd (hw '"' (by simp)) (by decide)
    | html h => exact absurd (hw '<' (by simp)) (by decide)
  · rintro ⟨h1, h2, ⟨h3, h4⟩ | h3⟩
    · cases n with
      | nil => exact absurd rfl h1
      | cons c s => exact .word (h4 c rfl) h2 h3
    · exact .number ⟨[], n, [], by simp, Or.inl rfl, Or.inl ⟨⟨h1, h3⟩, Or.inl rfl⟩⟩

/-- Words that the program writes. -/
def plainWord (s : Str) : Bool := match s with
  | [] => false
  | c :: r => !decide (Digit c) && (c :: r).all (fun x => decide (Wordly x)) && !decide (Keyword (c :: r))

theorem plainWord_id {s : Str} (h : plainWord s = true) : Id s := by
  cases s with
  | nil => cases h
  | cons c r =>
    simp only [plainWord, Bool.and_eq_true, Bool.not_eq_true', decide_eq_false_iff_not, List.all_eq_true, decide_eq_true_eq] at h
    exact .word h.1.1 h.1.2 h.2

/-- No keyword has an underscore as its second character. -/
theorem no_keyword {c : Char} {s : Str} : ¬ Keyword (c :: '_' :: s) := by
  intro h
  simp only [Keyword, List.map_cons, keywords, List.map_nil, List.mem_cons, List.not_mem_nil, or_false] at h
  rw [show Char.toLower '_' = '_' by decide] at h
  rcases h with h | h | h | h | h | h <;> exact absurd (congrArg (fun l => l[1]?) h) (by simp)

theorem letter_small (ty : ComponentType) : 'a' ≤ ty.letter ∧ ty.letter ≤ 'z' := by cases ty <;> decide

theorem nodeId_id {ty : ComponentType} {n : Str} : Id (nodeId ty n) ↔ ∀ c ∈ n, Wordly c := by
  rw [nodeId, id_word (letter_small ty)]
  constructor
  · rintro ⟨h, _⟩ c hc
    exact h c (List.mem_cons_of_mem _ hc)
  · intro h
    refine ⟨fun x hx => ?_, no_keyword⟩
    rcases List.mem_cons.mp hx with rfl | hx
    · decide
    · exact h x hx

theorem nodeOf_ids {ty : ComponentType} {n : Str} : (∀ s ∈ (nodeOf ty n).ids, Id s) ↔ Legible n := by
  have hk : ∀ s ∈ ["label".toList, "style".toList, "filled".toList, (nodeShape ty).1, (nodeShape ty).2, (nodeColor ty).1, (nodeColor ty).2], Id s := by
    intro s hs
    refine plainWord_id ?_
    have : ∀ ty : ComponentType, ["label".toList, "style".toList, "filled".toList, (nodeShape ty).1, (nodeShape ty).2, (nodeColor ty).1, (nodeColor ty).2].all plainWord = true := by
      intro ty; cases ty <;> decide +kernel
    exact List.all_eq_true.mp (this ty) s hs
  have hids : ∀ s, s ∈ (nodeOf ty n).ids ↔ s = nodeId ty n ∨ s = n ∨
      s ∈ ["label".toList, "style".toList, "filled".toList, (nodeShape ty).1, (nodeShape ty).2, (nodeColor ty).1, (nodeColor ty).2] := by
    intro s
    simp only [nodeOf, Stmt.ids, List.flatMap_cons, List.flatMap_nil, List.mem_cons, List.mem_append, List.not_mem_nil, or_false]
    grind
  constructor
  · intro h
    exact (id_legible (nodeId_id.mp (h _ ((hids _).mpr (Or.inl rfl))))).mp (h _ ((hids _).mpr (Or.inr (Or.inl rfl))))
  · intro h s hs
    rcases (hids s).mp hs with rfl | rfl | hs
    · exact nodeId_id.mpr h.2.1
    · exact (id_legible h.2.1).mpr h
    · exact hk s hs

theorem inside_of {s : Str} (h : ∀ c ∈ s, c ≠ '"' ∧ c ≠ '\\') : Inside s := by
  induction s with
  | nil => exact .nil
  | cons c s ih => exact .plain (h c (by simp)).1 (h c (by simp)).2 (ih fun x hx => h x (List.mem_cons_of_mem _ hx))

theorem cluster_id {p : Str} : Id ("cluster_nodes_".toList ++ p) ↔ ∀ c ∈ p, Wordly c := by
  have e : "cluster_nodes_".toList ++ p = 'c' :: ("luster_nodes_".toList ++ p) := rfl
  rw [e, id_word ⟨by decide, by decide⟩]
  constructor
  · rintro ⟨h, _⟩ c hc
    exact h c (List.mem_append_right _ hc)
  · intro h
    constructor
    · intro x hx
      rcases List.mem_append.mp hx with hx | hx
      · have : ∀ x ∈ "luster_nodes_".toList, Wordly x := by decide +kernel
        exact this x hx
      · exact h x hx
    · intro hk
      have : ∀ k ∈ keywords, k.head? ≠ some 'c' := by decide +kernel
      exact this _ hk (by simp)

/-! ## The drawing -/

theorem mem_diagram (comps : List (ComponentType × List Str)) (gs : List GraphConn) (x : Item) :
    x ∈ diagram comps gs ↔ (∃ p ns, (p, ns) ∈ graphComponents gs comps ∧ ((p = [] ∧ ∃ s ∈ ns, x = .stmt s) ∨ (p ≠ [] ∧ x = clusterOf gs p ns))) ∨ ∃ g ∈ gs, x = edgeOf g := by
  rw [diagram, List.mem_append, mem_placeSets]
  simp only [FrontAndBack.ret, List.append_nil, List.not_mem_nil, false_or, List.mem_map]
  grind

theorem no_empty (gs : List GraphConn) (comps : List (ComponentType × List Str)) {p : Str} (h : (p, []) ∈ graphComponents gs comps) : False := by
  have key : ∀ (l : List (ComponentType × Str)) (acc : Map (List Stmt)), acc.Sorted → (∀ p, acc.get p ≠ some []) →
      (l.foldl (fun acc r => addNode gs r.1 acc r.2) acc).Sorted ∧ ∀ p, (l.foldl (fun acc r => addNode gs r.1 acc r.2) acc).get p ≠ some [] := by
    intro l
    induction l with
    | nil => exact fun acc h1 h2 => ⟨h1, h2⟩
    | cons r l ih =>
      intro acc h1 h2
      refine ih (addNode gs r.1 acc r.2) (sorted_sortedEntry h1 _ _ _) fun q => ?_
      rw [addNode, get_sortedEntry h1]
      split
      · cases acc.get _ <;> simp
      · exact h2 q
  rw [graphComponents_eq] at h
  obtain ⟨h1, h2⟩ := key (comps.flatMap fun x => x.2.map fun n => (x.1, n)) [] (by simp [Map.Sorted]) (by simp [Map.get])
  exact h2 p ((mem_get h1.nodup).mp h)

theorem edgeLabel_id (o : OutputPort) : Id (edgeLabel o) := by
  cases o with
  | out => exact .quoted (s := []) .nil
  | err => exact plainWord_id (by decide +kernel)
  | exit => exact plainWord_id (by decide +kernel)

section
variable {order : List (ComponentType × List Str) → List (ComponentType × List Str)} (horder : ∀ l, (order l).Perm l)
include horder

/-- The ends of the edges are drawn. -/
theorem ends_connected (c : Config) {e : Str × Str × Str} (he : e ∈ edgesIn (draw order c)) :
    ∃ b b' r r', c.Connects b r ∧ c.Connects b' r' ∧ e.1 = nodeId r.1 r.2 ∧ e.2.1 = nodeId r'.1 r'.2 := by
  rw [C48_edges] at he
  obtain ⟨⟨b, d⟩, hd, he⟩ := List.mem_flatMap.mp he
  obtain ⟨⟨x, y⟩, hxy, hxe⟩ := List.mem_filterMap.mp he
  clear he
  have he := hxe
  clear hxe
  cases d with
  | join s => simp [DConn.toList] at hxy
  | conns cs =>
    have hx : x ∈ cs := (List.of_mem_zip hxy).1
    have hy : y ∈ cs := List.mem_of_mem_tail (List.of_mem_zip hxy).2
    cases ho : x.out with
    | none => simp [ho] at he
    | some o =>
      simp only [ho, Option.map_some, Option.some.injEq] at he
      subst he
      refine ⟨b, b, (x.ty, x.name), (y.ty, y.name), ⟨cs, hd, x, hx, rfl⟩, ⟨cs, hd, y, hy, rfl⟩, ?_, rfl⟩
      cases x <;> simp [Connection.out] at ho <;> subst ho <;> rfl

/-- **C76** A drawing can be read exactly if the names of all components drawn are words that are no keywords, or whole numbers, and the names of the sets drawn as clusters consist of letters,
digits and underscores. -/
theorem C76_readable (c : Config) : DotReadable (draw order c) ↔
    (∀ b r, c.Connects b r → Legible r.2) ∧ ∀ b id, (some ("cluster_nodes_".toList ++ b), id) ∈ placed (draw order c) → ∀ ch ∈ b, Wordly ch := by
  constructor
  · intro h
    constructor
    · intro b r hr
      obtain ⟨cl, hcl⟩ := (C48_nodes horder c (nodeId r.1 r.2)).mpr ⟨b, r, hr, rfl⟩
      obtain ⟨⟨t, n⟩, ⟨b', hb'⟩, _, e⟩ := (placed_draw horder c cl _).mp hcl
      obtain ⟨names, h1, h2⟩ := (named_mem c r.1 r.2).mpr ⟨b, hr⟩
      obtain ⟨ns, hm, hs⟩ := (mem_nodes (allGraphConns (named c.connection)) (order (allComponents (named c.connection))) _ (nodeOf r.1 r.2)).mpr
        ⟨r.1, names, r.2, (horder _).mem_iff.mpr h1, h2, rfl, rfl⟩
      refine nodeOf_ids (ty := r.1).mp fun s hs' => ?_
      by_cases hp : placeOf (allGraphConns (named c.connection)) (r.1, r.2) = []
      · exact h _ ((mem_diagram _ _ _).mpr (Or.inl ⟨_, ns, hm, Or.inl ⟨hp, _, hs, rfl⟩⟩)) s hs'
      · refine h _ ((mem_diagram _ _ _).mpr (Or.inl ⟨_, ns, hm, Or.inr ⟨hp, rfl⟩⟩)) s ?_
        simp only [clusterOf, Item.ids, List.mem_cons, List.mem_flatMap]
        exact Or.inr ⟨_, Or.inr (Or.inr hs), hs'⟩
    · intro b id hid
      obtain ⟨cl, body, e, hx, _⟩ := (mem_placed.mp hid).resolve_left (by rintro ⟨h, _⟩; cases h)
      cases e
      exact cluster_id.mp (h _ hx _ (by simp [Item.ids]))
  · rintro ⟨h1, h2⟩ x hx s hs
    have hnode : ∀ p ns, (p, ns) ∈ graphComponents (allGraphConns (named c.connection)) (order (allComponents (named c.connection))) → ∀ st ∈ ns, ∀ s ∈ st.ids, Id s := by
      intro p ns hm st hst
      obtain ⟨ty, names, n, h3, h4, _, rfl⟩ := (mem_nodes _ _ p st).mp ⟨ns, hm, hst⟩
      obtain ⟨b, hb⟩ := (named_mem c ty n).mp ⟨names, (horder _).mem_iff.mp h3, h4⟩
      exact nodeOf_ids.mpr (h1 b _ hb)
    have hx' := hx
    rw [draw, mem_diagram] at hx
    rcases hx with ⟨p, ns, hm, ⟨_, st, hst, rfl⟩ | ⟨hp, rfl⟩⟩ | ⟨g, hg, rfl⟩
    · exact hnode p ns hm st hst s hs
    · -- there is a node in each cluster
      have hne : ∃ st, st ∈ ns := by
        cases ns with
        | nil =>
          exfalso
          exact no_empty _ _ hm
        | cons st ns => exact ⟨st, by simp⟩
      obtain ⟨st, hst⟩ := hne
      obtain ⟨ty, names, n, h3, h4, h5, rfl⟩ := (mem_nodes _ _ p st).mp ⟨ns, hm, hst⟩
      have hw : ∀ ch ∈ p, Wordly ch := h2 p (nodeId ty n) (mem_placed.mpr (Or.inr ⟨_, _, rfl, hx', nodeOf ty n, by simp [hst], rfl⟩))
      simp only [clusterOf, Item.ids, List.mem_cons, List.flatMap_cons, List.mem_append, List.mem_flatMap, Stmt.ids, List.not_mem_nil, or_false] at hs
      rcases hs with rfl | (rfl | rfl) | (rfl | rfl) | ⟨st', hst', hs⟩
      · exact cluster_id.mpr hw
      · exact plainWord_id (by decide +kernel)
      · have : '"' :: p ++ [':', '"'] = '"' :: (p ++ [':']) ++ ['"'] := by simp
        rw [this]
        refine .quoted (inside_of fun ch hch => ?_)
        rcases List.mem_append.mp hch with hch | hch
        · exact ⟨fun e => absurd (hw ch hch) (by rw [e]; decide), fun e => absurd (hw ch hch) (by rw [e]; decide)⟩
        · rw [List.mem_singleton.mp hch]; decide
      · exact plainWord_id (by decide +kernel)
      · split
        · exact plainWord_id (by decide +kernel)
        · split <;> exact plainWord_id (by decide +kernel)
      · exact hnode p ns hm st' hst' s hs
    · have he : g.edge ∈ edgesIn (draw order c) := by
        rw [draw, edgesIn, List.mem_filterMap]
        exact ⟨_, hx', rfl⟩
      obtain ⟨b, b', r, r', h3, h4, h5, h6⟩ := ends_connected horder c he
      simp only [edgeOf, Item.ids, Stmt.ids, List.flatMap_cons, List.flatMap_nil, List.append_nil, List.mem_cons, List.not_mem_nil, or_false] at hs
      rcases hs with rfl | rfl | rfl | rfl
      · exact (show nodeId g.src.1 g.src.2.1 = _ from h5) ▸ nodeId_id.mpr (h1 _ _ h3).2.1
      · exact (show nodeId g.dst.1 g.dst.2.1 = _ from h6) ▸ nodeId_id.mpr (h1 _ _ h4).2.1
      · exact plainWord_id (by decide +kernel)
      · exact edgeLabel_id _

end

/-- **C76** In a set read from a connection string, all names are words or begin with a digit: only keywords, and words that begin with a digit but are no numbers, cannot be drawn. -/
theorem C76_strings {s : Str} {cs : List Connection} (hs : s ≠ []) (h : loadConnection s = .ok cs) {x : Connection} (hx : x ∈ cs) :
    Legible x.name ↔ (¬ Keyword x.name ∧ ∀ c, x.name.head? = some c → ¬ Digit c) ∨ ∀ c ∈ x.name, Digit c := by
  obtain ⟨h1, h2⟩ := (C28_well_shaped hs h).2 x hx
  have hl : ∀ c ∈ Syntax.letters, Wordly c := by decide +kernel
  exact ⟨fun h => h.2.2, fun h => ⟨h1, fun c hc => hl c (h2 c hc), h⟩⟩

/-! ## The legend -/

/-- **C76** Every identifier of the legend is one. -/
theorem C76_legend_readable (border : Bool) : Id (legend border).1 ∧ DotReadable (legend border).2 := by
  have hq : Id "\"\"".toList := .quoted (s := []) .nil
  have hn : Id "0.3".toList := .number ⟨[], ['0'], ['.', '3'], rfl, Or.inl rfl, Or.inl ⟨⟨by simp, by decide⟩, Or.inr ⟨['3'], rfl, by decide⟩⟩⟩
  have key : ∀ b : Bool, ((legend b).1 :: (legend b).2.flatMap Item.ids).all (fun s => plainWord s || s = "\"\"".toList || s = "0.3".toList) = true := by decide +kernel
  have : ∀ s ∈ (legend border).1 :: (legend border).2.flatMap Item.ids, Id s := by
    intro s hs
    have h := List.all_eq_true.mp (key border) s hs
    simp only [Bool.or_eq_true, decide_eq_true_eq] at h
    rcases h with (h | rfl) | rfl
    · exact plainWord_id h
    · exact hq
    · exact hn
  exact ⟨this _ (by simp), fun x hx s hs => this s (List.mem_cons_of_mem _ (List.mem_flatMap.mpr ⟨x, hx, hs⟩))⟩

/-- The part of the legend for a type, with the look of its components. -/
def legendOf (t : ComponentType) : Item :=
  .sub ("cluster_legend_".toList ++ Syntax.longWord t) [.attr "label".toList (Syntax.longWord t),
    .node ("legend_".toList ++ Syntax.longWord t) [nodeColor t, ("label".toList, "\"\"".toList), nodeShape t,
      ("width".toList, "0.3".toList), ("style".toList, "filled".toList), ("height".toList, "0.3".toList)]]

theorem legend_parts (border : Bool) : (legend border).2 = [.stmt (.attr "color".toList "black".toList), .stmt (.attr "label".toList "Legend".toList)] ++
    [ComponentType.launch, .buffer, .regulator, .junction, .faucet, .drain].map legendOf := by
  cases border <;> decide +kernel

theorem node_look (t : ComponentType) (n : Str) : (nodeOf t n).look = some ((nodeShape t).2, (nodeColor t).2) := by
  cases t <;> rfl

/-- What is drawn for a component of whatever type is explained by the legend, by the word for its type and no other. -/
theorem legend_explains (border : Bool) (t : ComponentType) (n : Str) : ∃ look, (nodeOf t n).look = some look ∧
    (∃ x ∈ (legend border).2, Explains x (Syntax.longWord t) look) ∧ ∀ x ∈ (legend border).2, ∀ word, Explains x word look → word = Syntax.longWord t := by
  refine ⟨_, node_look t n, ?_, ?_⟩
  · refine ⟨legendOf t, ?_, _, _, rfl, ?_, List.mem_cons_self, _, List.mem_cons_of_mem _ List.mem_cons_self, ?_⟩
    · rw [legend_parts]
      exact List.mem_append_right _ (List.mem_map.mpr ⟨t, by cases t <;> simp, rfl⟩)
    · intro k v h
      simpa using h
    · cases t <;> rfl
  · rintro x hx word ⟨id, body, rfl, h1, h2, st, hst, hl⟩
    rw [legend_parts, List.mem_append] at hx
    rcases hx with hx | hx
    · simp at hx
    · obtain ⟨t', _, e⟩ := List.mem_map.mp hx
      simp only [legendOf, Item.sub.injEq] at e
      obtain ⟨_, rfl⟩ := e
      have hw : word = Syntax.longWord t' := by simpa using h2
      subst hw
      simp only [List.mem_cons, List.not_mem_nil, or_false] at hst
      rcases hst with rfl | rfl
      · cases hl
      · have ht : t' = t := by
          revert hl
          cases t' <;> cases t <;> first | (intro _; rfl) | (intro h; exact absurd h (by decide +kernel))
        rw [ht]

/-- **C76** Everything drawn that is a node is drawn for a component, and its look is explained by the legend, by the word for the type of the component and no other. -/
theorem C76_explained {order : List (ComponentType × List Str) → List (ComponentType × List Str)} (horder : ∀ l, (order l).Perm l) (c : Config) (border : Bool) {x : Item} {st : Stmt} {id : Str}
    (hx : x ∈ draw order c) (hst : x = .stmt st ∨ ∃ k body, x = .sub k body ∧ st ∈ body) (hid : st.node? = some id) :
    ∃ b t n look, c.Connects b (t, n) ∧ id = nodeId t n ∧ st.look = some look ∧
      (∃ y ∈ (legend border).2, Explains y (Syntax.longWord t) look) ∧ ∀ y ∈ (legend border).2, ∀ word, Explains y word look → word = Syntax.longWord t := by
  have hn : ∃ p ns, (p, ns) ∈ graphComponents (allGraphConns (named c.connection)) (order (allComponents (named c.connection))) ∧ st ∈ ns := by
    rw [draw, mem_diagram] at hx
    rcases hx with ⟨p, ns, hm, ⟨_, s, hs, rfl⟩ | ⟨hp, rfl⟩⟩ | ⟨g, hg, rfl⟩
    · rcases hst with h | ⟨_, _, h, _⟩
      · cases h; exact ⟨p, ns, hm, hs⟩
      · cases h
    · rcases hst with h | ⟨_, _, h, hb⟩
      · cases h
      · simp only [clusterOf, Item.sub.injEq] at h
        obtain ⟨_, rfl⟩ := h
        simp only [List.mem_cons] at hb
        rcases hb with rfl | rfl | hb
        · cases hid
        · cases hid
        · exact ⟨p, ns, hm, hb⟩
    · rcases hst with h | ⟨_, _, h, _⟩
      · cases h; cases hid
      · cases h
  obtain ⟨p, ns, hm, hs⟩ := hn
  obtain ⟨t, names, n, h1, h2, _, rfl⟩ := (mem_nodes _ _ p st).mp ⟨ns, hm, hs⟩
  obtain ⟨b, hb⟩ := (named_mem c t n).mp ⟨names, (horder _).mem_iff.mp h1, h2⟩
  obtain ⟨look, h3, h4, h5⟩ := legend_explains border t n
  simp only [nodeOf, Stmt.node?, Option.some.injEq] at hid
  exact ⟨b, t, n, look, hb, hid.symm, h3, h4, h5⟩

/-! ## Cases -/

/-- A faucet called like this, and a drain. -/
def tapNamed (n : Str) : Config :=
  { faucet := [(n, "-".toList)], regulator := [], drain := [("tub".toList, "-".toList)], launch := [], connection := [("a".toList, .join ("faucet:".toList ++ n ++ " | drain:tub".toList))] }

def tapDrawn (n : Str) : Config :=
  { tapNamed n with connection := [("a".toList, .conns [.start .faucet n .out none, .end .drain "tub".toList ⟨.terminate, 0⟩ none])] }

/-- **C76 is false of the code** A configuration without any fault, written with connection strings, is drawn, but what is printed cannot be read: a component is called `node`. -/
theorem C76_refuted : ¬ ∀ (order : List (ComponentType × List Str) → List (ComponentType × List Str)) (c : Config) (items : List Item), (∀ l, (order l).Perm l) →
    (lint c).map (·.2) = some [] → drawCommand order c = some (.ok items) → DotReadable items := by
  intro h
  have h1 := h id (tapNamed "node".toList) (draw id (tapDrawn "node".toList)) (fun _ => .refl _) (by decide +kernel) (by decide +kernel)
  obtain ⟨_, _, h2 | h2⟩ := ((C76_readable (fun _ => .refl _) (tapDrawn "node".toList)).mp h1).1 "a".toList (.faucet, "node".toList)
    ⟨_, List.mem_cons_self, _, List.mem_cons_self, rfl⟩
  · exact h2.1 (by decide +kernel)
  · exact absurd (h2 'n' (by simp)) (by decide)

/-- Names that begin with a digit cannot be drawn either, unless they are numbers. -/
example : ¬ Legible "2nd".toList ∧ Legible "22".toList ∧ Legible "second".toList ∧ ¬ Legible "a-b".toList := by
  unfold Legible
  refine ⟨?_, ⟨by decide, by decide +kernel, Or.inr (by decide +kernel)⟩, ⟨by decide, by decide +kernel, Or.inl ⟨by decide +kernel, by simp; decide⟩⟩, ?_⟩
  · rintro ⟨_, _, ⟨_, h⟩ | h⟩
    · exact h '2' rfl (by decide)
    · exact absurd (h 'n' (by simp)) (by decide)
  · rintro ⟨_, h, _⟩
    exact absurd (h '-' (by simp)) (by decide)

/-- Both sides of `C76_readable` are met by the same configuration with another name. -/
example : DotReadable (draw id (tapDrawn "tap".toList)) := by
  refine (C76_readable (fun _ => .refl _) _).mpr ⟨?_, ?_⟩
  · rintro b r ⟨cs, hm, x, hx, rfl⟩
    simp only [tapDrawn, List.mem_cons, Prod.mk.injEq, DConn.conns.injEq, List.not_mem_nil, or_false] at hm
    obtain ⟨_, rfl⟩ := hm
    have hl : Legible "tap".toList ∧ Legible "tub".toList :=
      ⟨⟨by decide, by decide +kernel, Or.inl ⟨by decide +kernel, by simp; decide⟩⟩, ⟨by decide, by decide +kernel, Or.inl ⟨by decide +kernel, by simp; decide⟩⟩⟩
    rcases List.mem_cons.mp hx with rfl | hx
    · exact hl.1
    · obtain rfl := List.mem_singleton.mp hx
      exact hl.2
  · intro b id h
    have hp : placed (draw (fun x => x) (tapDrawn "tap".toList)) = [(some "cluster_nodes_a".toList, "f_tap".toList), (some "cluster_nodes_a".toList, "d_tub".toList)] := by decide +kernel
    have h : (some ("cluster_nodes_".toList ++ b), id) ∈ placed (draw (fun x => x) (tapDrawn "tap".toList)) := h
    rw [hp] at h
    have hb : b = "a".toList := by
      simp only [List.mem_cons, Prod.mk.injEq, Option.some.injEq, List.not_mem_nil, or_false] at h
      rcases h with ⟨h, _⟩ | ⟨h, _⟩ <;> exact List.append_cancel_left (as := "cluster_nodes_".toList) h
    subst hb
    decide +kernel

/-- Hypotheses of `C76_explained`: the two nodes of this drawing. -/
example : ∃ body, Item.sub "cluster_nodes_a".toList body ∈ draw id (tapDrawn "tap".toList) ∧ body.filterMap Stmt.node? = ["f_tap".toList, "d_tub".toList] :=
  ⟨[.attr "label".toList "\"a:\"".toList, .attr "rank".toList "min".toList, nodeOf .faucet "tap".toList, nodeOf .drain "tub".toList], by decide +kernel, by decide +kernel⟩

end Verif
