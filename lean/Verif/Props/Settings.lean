import Verif.Lemmas.Maps
import Verif.Spec.Settings
import Verif.Props.Parser
/-!
# Properties C30–C33: connection strings in a configuration, lint, and editing a configuration
-/
namespace Verif

theorem load_not_panic (s : Str) : loadConnection s ≠ .panic := by
  intro h
  have h1 := C27_refused s
  have h2 := fun cs => C27_connection_strings s cs
  by_cases he : s = []
  · have := (h2 []).mpr (Or.inl ⟨he, rfl⟩); rw [h] at this; simp at this
  · by_cases hd : ∃ d : Syntax.Desc, d.Ok ∧ s = d.text
    · obtain ⟨d, hd, e⟩ := hd
      have := (h2 d.meaning).mpr (Or.inr ⟨d, hd, e, rfl⟩); rw [h] at this; simp at this
    · have := h1.mpr ⟨he, fun d hk e => hd ⟨d, hk, e⟩⟩; rw [h] at this; simp at this

/-- What becomes of one connection set. -/
def converted (d : DConn) : DConn :=
  match d with
  | .conns l => .conns l
  | .join s => match loadConnection s with
    | .ok l => .conns l
    | _ => .join s

theorem convert_eq (m : Map DConn) : ∃ ws, convertConnections m = some (m.map (fun x => (x.1, converted x.2)), ws) ∧
    ∀ w, w ∈ ws ↔ ∃ k s, (k, .join s) ∈ m ∧ loadConnection s = .parseError ∧ w = .invalidConnection k s := by
  induction m with
  | nil => exact ⟨[], rfl, by simp⟩
  | cons x m ih =>
    obtain ⟨ws, h1, h2⟩ := ih
    obtain ⟨k, d⟩ := x
    cases d with
    | conns l =>
      refine ⟨ws, by simp [convertConnections, h1, converted], ?_⟩
      intro w; rw [h2]; simp
    | join s =>
      cases hl : loadConnection s with
      | ok l =>
        refine ⟨ws, by simp [convertConnections, h1, converted, hl], ?_⟩
        intro w; rw [h2]
        constructor
        · rintro ⟨k', s', h, h', h''⟩; exact ⟨k', s', List.mem_cons_of_mem _ h, h', h''⟩
        · rintro ⟨k', s', h, h', h''⟩
          rcases List.mem_cons.mp h with h | h
          · cases h; rw [hl] at h'; simp at h'
          · exact ⟨k', s', h, h', h''⟩
      | parseError =>
        refine ⟨.invalidConnection k s :: ws, by simp [convertConnections, h1, converted, hl], ?_⟩
        intro w
        rw [List.mem_cons, h2]
        constructor
        · rintro (rfl | ⟨k', s', h, h', h''⟩)
          · exact ⟨k, s, by simp, hl, rfl⟩
          · exact ⟨k', s', List.mem_cons_of_mem _ h, h', h''⟩
        · rintro ⟨k', s', h, h', h''⟩
          rcases List.mem_cons.mp h with h | h
          · cases h; left; exact h''
          · right; exact ⟨k', s', h, h', h''⟩
      | panic => exact absurd hl (load_not_panic s)

/-- **C30** Converting never aborts; the keys stay, in order; every connection set that says something becomes the list of what it says (so lists stay as they are), an
invalid string stays as it is; the warnings are exactly about the invalid strings. -/
theorem C30_convert (m : Map DConn) : ∃ m' ws, convertConnections m = some (m', ws) ∧ m'.keys = m.keys ∧
    (∀ (i : Nat) k d, m[i]? = some (k, d) → ∃ d', m'[i]? = some (k, d') ∧ (∀ cs, d.Means cs → d' = .conns cs) ∧ (d.Invalid → d' = d)) ∧
    (∀ w, w ∈ ws ↔ ∃ k s, (k, .join s) ∈ m ∧ (DConn.join s).Invalid ∧ w = .invalidConnection k s) := by
  obtain ⟨ws, h1, h2⟩ := convert_eq m
  refine ⟨_, ws, h1, by simp [Map.keys, Function.comp_def], ?_, h2⟩
  intro i k d hi
  refine ⟨converted d, by simp [hi], ?_, ?_⟩
  · intro cs hcs
    cases d with
    | conns l => cases hcs; rfl
    | join s => simp only [DConn.Means] at hcs; simp [converted, hcs]
  · intro hi
    cases d with
    | conns l => rfl
    | join s => simp only [DConn.Invalid] at hi; simp [converted, hi]

/-- **C30** Every connection set either says something or is invalid. -/
theorem C30_either (d : DConn) : (∃ cs, d.Means cs) ∨ d.Invalid := by
  cases d with
  | conns l => exact Or.inl ⟨l, rfl⟩
  | join s =>
    cases h : loadConnection s with
    | ok l => exact Or.inl ⟨l, h⟩
    | parseError => exact Or.inr h
    | panic => exact absurd h (load_not_panic s)

/-- **C30** Doing it twice is the same as doing it once. -/
theorem C30_idempotent {m m' : Map DConn} {ws} (h : convertConnections m = some (m', ws)) :
    ∃ ws', convertConnections m' = some (m', ws') ∧ ∀ w, w ∈ ws' ↔ w ∈ ws := by
  obtain ⟨ws₁, h1, h2⟩ := convert_eq m
  rw [h] at h1
  simp only [Option.some.injEq, Prod.mk.injEq] at h1
  obtain ⟨rfl, rfl⟩ := h1
  obtain ⟨ws₂, h3, h4⟩ := convert_eq (m.map fun x => (x.1, converted x.2))
  have cc : ∀ d, converted (converted d) = converted d := by
    intro d
    cases d with
    | conns l => rfl
    | join s => cases hl : loadConnection s <;> simp [converted, hl]
  refine ⟨ws₂, ?_, ?_⟩
  · rw [h3]; simp [cc]
  · intro w
    rw [h4, h2]
    constructor
    · rintro ⟨k, s, hm, hi, rfl⟩
      simp only [List.mem_map, Prod.mk.injEq] at hm
      obtain ⟨⟨k', d⟩, hm, rfl, hd⟩ := hm
      refine ⟨k', s, ?_, hi, rfl⟩
      cases d with
      | conns l => simp [converted] at hd
      | join s' => cases hl : loadConnection s' <;> simp [converted, hl] at hd <;> subst hd <;> exact hm
    · rintro ⟨k, s, hm, hi, rfl⟩
      refine ⟨k, s, ?_, hi, rfl⟩
      simp only [List.mem_map, Prod.mk.injEq]
      exact ⟨_, hm, rfl, by simp [converted, hi]⟩

/-- A configuration with a good string, a bad one and a list. -/
example : convertConnections [("a".toList, .join "faucet:f | drain:d".toList), ("b".toList, .join "no".toList), ("c".toList, .conns [])] =
    some ([("a".toList, .conns [.start .faucet "f".toList .out none, .end .drain "d".toList ⟨.terminate, 0⟩ none]),
      ("b".toList, .join "no".toList), ("c".toList, .conns [])], [.invalidConnection "b".toList "no".toList]) := by
  decide +kernel

theorem foldl_append_map {α β} (f : α → List β) (l : List α) (acc : List β) :
    l.foldl (fun acc x => acc ++ f x) acc = acc ++ l.flatMap f := by
  induction l generalizing acc with
  | nil => simp
  | cons x l ih => simp [ih]

theorem mem_known (c : Config) (ty : ComponentType) (n : Str) :
    (ty, n) ∈ knownComponents c ↔ ∃ k cs x, (k, .conns cs) ∈ c.connection ∧ x ∈ cs ∧ x.ty = ty ∧ x.name = n := by
  unfold knownComponents
  rw [foldl_append_map (fun kd : Str × DConn => kd.2.toList.map fun x => (x.ty, x.name))]
  simp only [List.nil_append, List.mem_flatMap, List.mem_map, Prod.mk.injEq]
  constructor
  · rintro ⟨⟨k, d⟩, h, x, hx, rfl, rfl⟩
    cases d with
    | join s => simp [DConn.toList] at hx
    | conns l => exact ⟨k, l, x, h, hx, rfl, rfl⟩
  · rintro ⟨k, cs, x, h, hx, rfl, rfl⟩
    exact ⟨_, h, x, hx, rfl, rfl⟩

theorem mem_monitored (c : Config) (r b : Str) :
    (r, b) ∈ regulatorBuffers c ↔ ∃ rc, (r, rc) ∈ c.regulator ∧ b ∈ rc.monitored := by
  unfold regulatorBuffers
  rw [foldl_append_map (fun kv : Str × RegulatorConfig => kv.2.monitored.map fun mb => (kv.1, mb))]
  simp only [List.nil_append, List.mem_flatMap, List.mem_map, Prod.mk.injEq]
  constructor
  · rintro ⟨⟨k, d⟩, h, x, hx, rfl, rfl⟩; exact ⟨d, h, hx⟩
  · rintro ⟨rc, h, hx⟩; exact ⟨_, h, b, hx, rfl, rfl⟩

/-- The names of the sections of a configuration. -/
def sectionName : ComponentType → Str
  | .faucet => "faucet".toList
  | .drain => "drain".toList
  | .launch => "launch".toList
  | .regulator => "regulator".toList
  | .junction => "junction".toList
  | .buffer => "buffer".toList

/-- The kinds of component that are configured. -/
def Configurable (ty : ComponentType) : Prop := ty ≠ .junction ∧ ty ≠ .buffer

/-- What lint is to find in a configuration without invalid strings. -/
inductive Discrepancy (c : Config) : LintWarning → Prop
  | watching {r rc b} : (r, rc) ∈ c.regulator → b ∈ rc.monitored → ¬ c.Uses .buffer b →
      Discrepancy c (.regulatorWatchingMissingBuffer ("regulator[\"".toList ++ r ++ "\"].monitored_buffers".toList) .buffer b)
  | unused {ty n} : c.Has (.component ty n) → ¬ c.Uses ty n →
      Discrepancy c (.inConfigButMissingFlowConnection (sectionName ty) ty n)
  | unconfigured {ty n} : c.Uses ty n → Configurable ty → ¬ c.Has (.component ty n) →
      Discrepancy c (.inFlowConnectionButMissingConfig ty n)

theorem lint_valid {c : Config} (h : ∀ k d, (k, d) ∈ c.connection → ¬ d.Invalid) :
    ∃ c' ws, lint c = some (c', ws) ∧ c' = { c with connection := c.connection.map (fun x => (x.1, converted x.2)) } ∧
      ∀ w, w ∈ ws ↔ Discrepancy c w := by
  obtain ⟨ws, h1, h2⟩ := convert_eq c.connection
  have hws : ws = [] := by
    rw [List.eq_nil_iff_forall_not_mem]
    intro w hw
    obtain ⟨k, s, hm, hi, _⟩ := (h2 w).mp hw
    exact h k _ hm hi
  subst hws
  have known : ∀ ty n, (knownComponents { c with connection := c.connection.map (fun x => (x.1, converted x.2)) }).contains (ty, n) = true ↔ c.Uses ty n := by
    intro ty n
    rw [List.contains_iff_mem, mem_known]
    constructor
    · rintro ⟨k, cs, x, hm, hx, ht, hn⟩
      simp only [List.mem_map, Prod.mk.injEq] at hm
      obtain ⟨⟨k', d⟩, hm, rfl, hd⟩ := hm
      refine ⟨k', d, cs, x, hm, ?_, hx, ht, hn⟩
      cases d with
      | conns l => simp [converted] at hd; exact hd
      | join s => cases hl : loadConnection s <;> simp [converted, hl] at hd; subst hd; exact hl
    · rintro ⟨k, d, cs, x, hm, hd, hx, ht, hn⟩
      refine ⟨k, cs, x, ?_, hx, ht, hn⟩
      simp only [List.mem_map, Prod.mk.injEq]
      refine ⟨_, hm, rfl, ?_⟩
      cases d with
      | conns l => cases hd; rfl
      | join s => simp only [DConn.Means] at hd; simp [converted, hd]
  have hreg : registered { c with connection := c.connection.map (fun x => (x.1, converted x.2)) } = registered c := rfl
  have hmon : regulatorBuffers { c with connection := c.connection.map (fun x => (x.1, converted x.2)) } = regulatorBuffers c := rfl
  have t1 : lintType "regulator".toList = some .regulator := by decide +kernel
  have t2 : lintType "drain".toList = some .drain := by decide +kernel
  have t3 : lintType "faucet".toList = some .faucet := by decide +kernel
  have t4 : lintType "launch".toList = some .launch := by decide +kernel
  unfold lint
  rw [h1]
  simp only [ne_eq, not_true_eq_false, if_false, hreg]
  generalize hk : knownComponents { c with connection := c.connection.map (fun x => (x.1, converted x.2)) } = known' at known
  simp only [registered, lintRegistered, t1, t2, t3, t4, List.append_nil, List.nil_append]
  refine ⟨_, _, rfl, rfl, ?_⟩
  have memF : ∀ (key : Str) (ty : ComponentType) (names : List Str) (w : LintWarning),
      w ∈ names.filterMap (fun n => if known'.contains (ty, n) then none else some (LintWarning.inConfigButMissingFlowConnection key ty n)) ↔
      ∃ n, n ∈ names ∧ ¬ c.Uses ty n ∧ w = .inConfigButMissingFlowConnection key ty n := by
    intro key ty names w
    rw [List.mem_filterMap]
    constructor
    · rintro ⟨n, hn, hw⟩
      split at hw
      · simp at hw
      · rename_i hu
        rw [known] at hu
        simp at hw
        exact ⟨n, hn, hu, hw.symm⟩
    · rintro ⟨n, hn, hu, rfl⟩
      refine ⟨n, hn, ?_⟩
      rw [if_neg (by rw [known]; exact hu)]
  intro w
  simp only [List.mem_append, memF]
  have hM : w ∈ lintMonitored { c with connection := c.connection.map (fun x => (x.1, converted x.2)) } known' ↔
      ∃ r rc b, (r, rc) ∈ c.regulator ∧ b ∈ rc.monitored ∧ ¬ c.Uses .buffer b ∧ w = .regulatorWatchingMissingBuffer (monitoredSection r) .buffer b := by
    unfold lintMonitored
    rw [hmon, List.mem_filterMap]
    constructor
    · rintro ⟨⟨r, b⟩, hb, hw⟩
      obtain ⟨rc, hr, hb⟩ := (mem_monitored c r b).mp hb
      split at hw
      · simp at hw
      · rename_i hu
        rw [known] at hu
        simp at hw
        exact ⟨r, rc, b, hr, hb, hu, hw.symm⟩
    · rintro ⟨r, rc, b, hr, hb, hu, rfl⟩
      refine ⟨(r, b), (mem_monitored c r b).mpr ⟨rc, hr, hb⟩, ?_⟩
      rw [if_neg (by rw [known]; exact hu)]
  have hn : ∀ ty n, missingConfig (registered c) ty n = true ↔ Configurable ty ∧ ¬ c.Has (.component ty n) := by
    intro ty n
    have g1 : (registered c).get "regulator".toList = some c.regulator.keys := by simp [registered, Map.get]
    have g2 : (registered c).get "drain".toList = some c.drain.keys := by simp [registered, Map.get]
    have g3 : (registered c).get "faucet".toList = some c.faucet.keys := by simp [registered, Map.get]
    have g4 : (registered c).get "launch".toList = some c.launch.keys := by simp [registered, Map.get]
    cases ty <;> simp only [missingConfig, notRegistered, g1, g2, g3, g4, Configurable, Config.Has] <;> simp
  have hK : w ∈ lintKnown (registered c) known' ↔
      ∃ ty n, c.Uses ty n ∧ Configurable ty ∧ ¬ c.Has (.component ty n) ∧ w = .inFlowConnectionButMissingConfig ty n := by
    unfold lintKnown
    rw [List.mem_filterMap]
    constructor
    · rintro ⟨⟨ty, n⟩, hm, hw⟩
      split at hw
      · rename_i hu
        rw [hn] at hu
        simp at hw
        rw [← List.contains_iff_mem, known] at hm
        exact ⟨ty, n, hm, hu.1, hu.2, hw.symm⟩
      · simp at hw
    · rintro ⟨ty, n, hu, hc, hh, rfl⟩
      refine ⟨(ty, n), ?_, ?_⟩
      · rw [← List.contains_iff_mem, known]; exact hu
      · rw [if_pos ((hn ty n).mpr ⟨hc, hh⟩)]
  have hreg' : [("regulator".toList, c.regulator.keys), ("drain".toList, c.drain.keys), ("faucet".toList, c.faucet.keys), ("launch".toList, c.launch.keys)] = registered c := rfl
  rw [hM, hreg', hK]
  constructor
  · rintro ((⟨r, rc, b, hr, hb, hu, rfl⟩ | ⟨n, h1, h2, rfl⟩ | ⟨n, h1, h2, rfl⟩ | ⟨n, h1, h2, rfl⟩ | ⟨n, h1, h2, rfl⟩) | ⟨ty, n, hu, hc, hh, rfl⟩)
    · exact .watching hr hb hu
    · exact .unused (ty := .regulator) h1 h2
    · exact .unused (ty := .drain) h1 h2
    · exact .unused (ty := .faucet) h1 h2
    · exact .unused (ty := .launch) h1 h2
    · exact .unconfigured hu hc hh
  · intro hd
    cases hd with
    | watching hr hb hu => exact Or.inl (Or.inl ⟨_, _, _, hr, hb, hu, rfl⟩)
    | @unused ty n hh hu =>
      cases ty with
      | regulator => exact Or.inl (Or.inr (Or.inl ⟨n, hh, hu, rfl⟩))
      | drain => exact Or.inl (Or.inr (Or.inr (Or.inl ⟨n, hh, hu, rfl⟩)))
      | faucet => exact Or.inl (Or.inr (Or.inr (Or.inr (Or.inl ⟨n, hh, hu, rfl⟩))))
      | launch => exact Or.inl (Or.inr (Or.inr (Or.inr (Or.inr ⟨n, hh, hu, rfl⟩))))
      | junction => exact absurd hh id
      | buffer => exact absurd hh id
    | unconfigured hu hc hh => exact Or.inr ⟨_, _, hu, hc, hh, rfl⟩

/-- **C31** Lint never aborts. With invalid connection strings it reports exactly these. -/
theorem C31_invalid (c : Config) (h : ∃ k d, (k, d) ∈ c.connection ∧ d.Invalid) :
    ∃ c' ws, lint c = some (c', ws) ∧ ws ≠ [] ∧
      ∀ w, w ∈ ws ↔ ∃ k s, (k, .join s) ∈ c.connection ∧ (DConn.join s).Invalid ∧ w = .invalidConnection k s := by
  obtain ⟨ws, h1, h2⟩ := convert_eq c.connection
  have hne : ws ≠ [] := by
    obtain ⟨k, d, hm, hi⟩ := h
    cases d with
    | conns l => exact absurd hi id
    | join s => exact List.ne_nil_of_mem ((h2 (.invalidConnection k s)).mpr ⟨k, s, hm, hi, rfl⟩)
  refine ⟨{ c with connection := c.connection.map (fun x => (x.1, converted x.2)) }, ws, by simp [lint, h1, hne], hne, h2⟩

/-- **C31** Without invalid connection strings lint reports exactly the discrepancies. -/
theorem C31_valid (c : Config) (h : ∀ k d, (k, d) ∈ c.connection → ¬ d.Invalid) :
    ∃ c' ws, lint c = some (c', ws) ∧ ∀ w, w ∈ ws ↔ Discrepancy c w := by
  obtain ⟨c', ws, h1, _, h2⟩ := lint_valid h
  exact ⟨c', ws, h1, h2⟩

/-- **C31** An empty report means that everything is in order: no invalid string, every monitored buffer is used, everything configured is used, and
everything used that needs a configuration has one; and the other way round. -/
theorem C31_clean (c : Config) : (∃ c', lint c = some (c', [])) ↔
    (∀ k d, (k, d) ∈ c.connection → ¬ d.Invalid) ∧
    (∀ r rc b, (r, rc) ∈ c.regulator → b ∈ rc.monitored → c.Uses .buffer b) ∧
    (∀ ty n, c.Has (.component ty n) → c.Uses ty n) ∧
    (∀ ty n, c.Uses ty n → Configurable ty → c.Has (.component ty n)) := by
  constructor
  · rintro ⟨c', h⟩
    have hv : ∀ k d, (k, d) ∈ c.connection → ¬ d.Invalid := by
      intro k d hm hi
      obtain ⟨c'', ws, h', hne, _⟩ := C31_invalid c ⟨k, d, hm, hi⟩
      rw [h] at h'; simp at h'; exact hne h'.2
    obtain ⟨c'', ws, h', hw⟩ := C31_valid c hv
    rw [h] at h'
    simp at h'
    rw [h'.2] at hw
    refine ⟨hv, ?_, ?_, ?_⟩
    · intro r rc b hr hb
      apply Classical.byContradiction
      intro hu
      exact absurd ((hw _).mpr (.watching hr hb hu)) (by simp)
    · intro ty n hh
      apply Classical.byContradiction
      intro hu
      exact absurd ((hw _).mpr (.unused hh hu)) (by simp)
    · intro ty n hu hc
      apply Classical.byContradiction
      intro hh
      exact absurd ((hw _).mpr (.unconfigured hu hc hh)) (by simp)
  · rintro ⟨hv, h1, h2, h3⟩
    obtain ⟨c', ws, h, hw⟩ := C31_valid c hv
    have : ws = [] := by
      rw [List.eq_nil_iff_forall_not_mem]
      intro w hm
      cases (hw w).mp hm with
      | watching hr hb hu => exact hu (h1 _ _ _ hr hb)
      | unused hh hu => exact hu (h2 _ _ hh)
      | unconfigured hu hc hh => exact hh (h3 _ _ hu hc)
    exact ⟨c', by rw [h, this]⟩

/-- **C31** Lint changes nothing but that it converts the connection strings. -/
theorem C31_config {c c' : Config} {ws} (h : lint c = some (c', ws)) :
    ∃ es, convertConnections c.connection = some (c'.connection, es) ∧ c'.faucet = c.faucet ∧ c'.regulator = c.regulator ∧ c'.drain = c.drain ∧
      c'.launch = c.launch := by
  unfold lint at h
  split at h
  · simp at h
  · rename_i conns errs hc
    simp only [] at h
    split at h
    · simp at h; obtain ⟨rfl, rfl⟩ := h; exact ⟨_, hc, rfl, rfl, rfl, rfl⟩
    · split at h
      · simp at h
      · simp at h; obtain ⟨rfl, rfl⟩ := h; exact ⟨_, hc, rfl, rfl, rfl, rfl⟩

/-- A configuration with all three kinds of discrepancy. -/
example : (lint ⟨[("f".toList, "-".toList)], [("r".toList, ⟨none, ["b".toList]⟩)], [], [], [("a".toList, .join "faucet:f | drain:d".toList)]⟩).map Prod.snd =
    some [.regulatorWatchingMissingBuffer "regulator[\"r\"].monitored_buffers".toList .buffer "b".toList,
      .inConfigButMissingFlowConnection "regulator".toList .regulator "r".toList,
      .inFlowConnectionButMissingConfig .drain "d".toList] := by
  decide +kernel

/-- **C32** An edit gives its setting its value. -/
theorem C32_sets (c : Config) (hs : c.connection.Sorted) (e : Edit) : (e.run c).read e.place = e.value := by
  cases e with
  | source n s => simp [Edit.run, setSource, Edit.place, Config.read, get_entry, Edit.value]; cases Map.get c.faucet n <;> rfl
  | destination n s => simp [Edit.run, setDestination, Edit.place, Config.read, get_entry, Edit.value]; cases Map.get c.drain n <;> rfl
  | watermarks n a b =>
    simp only [Edit.run, setWatermark, Edit.place, Config.read, get_entry, Edit.value, if_true]
    by_cases h : a > b
    · cases Map.get c.regulator n <;> simp [h] <;> omega
    · cases Map.get c.regulator n <;> simp [h] <;> omega
  | command n s => simp only [Edit.run, setCommand, Edit.place, Config.read, get_entry, Edit.value, if_true]; cases Map.get c.launch n <;> rfl
  | path n s => simp only [Edit.run, setPath, Edit.place, Config.read, get_entry, Edit.value, if_true]; cases Map.get c.launch n <;> rfl
  | arguments n s => simp only [Edit.run, setArgs, Edit.place, Config.read, get_entry, Edit.value, if_true]; cases Map.get c.launch n <;> rfl
  | environment n s => simp only [Edit.run, setEnv, Edit.place, Config.read, get_entry, Edit.value, if_true]; cases Map.get c.launch n <;> rfl
  | connections k d => simp only [Edit.run, connectionJoin, Edit.place, Config.read, get_sortedEntry hs, Edit.value, if_true]; cases Map.get c.connection k <;> rfl

/-- **C32** An edit changes no other setting of any component. -/
theorem C32_only (c : Config) (hs : c.connection.Sorted) (e : Edit) (p : Setting) (h : p ≠ e.place) : (e.run c).read p = c.read p := by
  cases e with
  | source n s =>
    cases p <;> simp only [Edit.run, setSource, Config.read, get_entry]
    rename_i m
    have : m ≠ n := fun e => h (by rw [e]; rfl)
    simp [this]
  | destination n s =>
    cases p <;> simp only [Edit.run, setDestination, Config.read, get_entry]
    rename_i m
    have : m ≠ n := fun e => h (by rw [e]; rfl)
    simp [this]
  | watermarks n a b =>
    cases p <;> simp only [Edit.run, setWatermark, Config.read, get_entry]
    · rename_i m
      have : m ≠ n := fun e => h (by rw [e]; rfl)
      simp [this]
    · rename_i m
      by_cases hm : m = n
      · subst hm; cases Map.get c.regulator m <;> simp; split <;> rfl
      · simp [hm]
  | command n s =>
    cases p <;> simp only [Edit.run, setCommand, Config.read, get_entry] <;> rename_i m <;> by_cases hm : m = n <;> simp only [hm, if_true, if_false]
    · exact absurd (by rw [hm]; rfl) h
    all_goals cases Map.get c.launch n <;> rfl
  | path n s =>
    cases p <;> simp only [Edit.run, setPath, Config.read, get_entry] <;> rename_i m <;> by_cases hm : m = n <;> simp only [hm, if_true, if_false]
    rotate_left
    · exact absurd (by rw [hm]; rfl) h
    all_goals cases Map.get c.launch n <;> rfl
  | arguments n s =>
    cases p <;> simp only [Edit.run, setArgs, Config.read, get_entry] <;> rename_i m <;> by_cases hm : m = n <;> simp only [hm, if_true, if_false]
    rotate_left 2
    · exact absurd (by rw [hm]; rfl) h
    all_goals cases Map.get c.launch n <;> rfl
  | environment n s =>
    cases p <;> simp only [Edit.run, setEnv, Config.read, get_entry] <;> rename_i m <;> by_cases hm : m = n <;> simp only [hm, if_true, if_false]
    rotate_left 3
    · exact absurd (by rw [hm]; rfl) h
    all_goals cases Map.get c.launch n <;> rfl
  | connections k d =>
    cases p <;> simp only [Edit.run, connectionJoin, Config.read, get_sortedEntry hs]
    rename_i m
    have : m ≠ k := fun e => h (by rw [e]; rfl)
    simp [this]

/-- **C32** An edit removes nothing and adds at most the component (or connection) it names. -/
theorem C32_adds (c : Config) (hs : c.connection.Sorted) (e : Edit) (o : Owner) : (e.run c).Has o ↔ o = e.place.owner ∨ c.Has o := by
  cases e with
  | connections k d =>
    cases o with
    | connection k' => simp only [Edit.run, connectionJoin, Config.Has, mem_keys_sortedEntry hs, Edit.place, Setting.owner, Owner.connection.injEq]
    | component ty m => cases ty <;> simp [Edit.run, connectionJoin, Config.Has, Edit.place, Setting.owner]
  | _ =>
    cases o with
    | connection k' => simp [Edit.run, setSource, setDestination, setWatermark, setCommand, setPath, setArgs, setEnv, Config.Has, Edit.place, Setting.owner]
    | component ty m => cases ty <;> simp [Edit.run, setSource, setDestination, setWatermark, setCommand, setPath, setArgs, setEnv, Config.Has, Edit.place, Setting.owner, mem_keys_entry]

theorem sortedEntry_twice {α} {m : Map α} (hm : m.Sorted) (d d' : α) (k : Str) :
    (m.sortedEntry (fun _ => d) d k).sortedEntry (fun _ => d') d' k = m.sortedEntry (fun _ => d') d' k := by
  have h1 := sorted_sortedEntry hm (fun _ => d) d k
  apply sorted_ext (sorted_sortedEntry h1 _ _ _) (sorted_sortedEntry hm _ _ _)
  intro x
  rw [get_sortedEntry h1, get_sortedEntry hm, get_sortedEntry hm, get_sortedEntry hm]
  by_cases hx : x = k
  · subst hx; simp only [if_true]; cases Map.get m x <;> rfl
  · simp [hx]

/-- **C32** The last edit of a setting wins: after it, it is as if the earlier one had not been made. -/
theorem C32_last_wins (c : Config) (hs : c.connection.Sorted) (e e' : Edit) (h : e.place = e'.place) :
    e'.run (e.run c) = e'.run c := by
  cases e <;> cases e' <;> simp only [Edit.place] at h <;> (first | injection h | skip) <;> (try contradiction) <;> rename_i hn <;> subst hn
  case connections => simp only [Edit.run, connectionJoin, sortedEntry_twice hs]
  all_goals
    simp only [Edit.run, setSource, setDestination, setWatermark, setCommand, setPath, setArgs, setEnv, entry_entry]
  split <;> split <;> rfl

/-- **C32** Repeating an edit changes nothing. -/
theorem C32_idempotent (c : Config) (hs : c.connection.Sorted) (e : Edit) : e.run (e.run c) = e.run c :=
  C32_last_wins c hs e e rfl

/-- **C32** Edits of different settings commute. -/
theorem C32_commute (c : Config) (hs : c.connection.Sorted) (e e' : Edit) (h : e.place ≠ e'.place) :
    (e'.run (e.run c)).Same (e.run (e'.run c)) := by
  have swap : ∀ {α} (m : Map α) (f g : α → α) (a b : α) (k k' : Str), (k = k' → ∀ v, g (f v) = f (g v)) → (k = k' → g a = f b) →
      ∀ x, ((m.entry f a k).entry g b k').get x = ((m.entry g b k').entry f a k).get x := by
    intro α m f g a b k k' h1 h2 x
    by_cases hk : k = k'
    · subst hk
      rw [entry_entry, entry_entry, get_entry, get_entry, h2 rfl, funext (h1 rfl)]
    · simp only [get_entry]
      by_cases hx : x = k
      · subst hx; simp [hk]
      · simp only [hx, if_false]
        by_cases hx' : x = k'
        · subst hx'; simp [hx]
        · simp [hx']
  cases e <;> cases e' <;> refine ⟨fun x => ?_, fun x => ?_, fun x => ?_, fun x => ?_, ?_⟩ <;> (try rfl) <;> (try (
    simp only [Edit.run, setSource, setDestination, setWatermark, setCommand, setPath, setArgs, setEnv]
    apply swap
    · rintro rfl v
      first | rfl | exact absurd rfl h
    · rintro rfl
      first | rfl | exact absurd rfl h))
  · rename_i k d k' d'
    have hk : k ≠ k' := fun e => h (by rw [e]; rfl)
    simp only [Edit.run, connectionJoin]
    have s1 := sorted_sortedEntry hs (fun _ => d) d k
    have s2 := sorted_sortedEntry hs (fun _ => d') d' k'
    apply sorted_ext (sorted_sortedEntry s1 _ _ _) (sorted_sortedEntry s2 _ _ _)
    intro x
    rw [get_sortedEntry s1, get_sortedEntry s2, get_sortedEntry hs, get_sortedEntry hs, get_sortedEntry hs, get_sortedEntry hs]
    by_cases hx : x = k
    · subst hx; simp [hk]
    · simp only [hx, if_false]
      by_cases hx' : x = k'
      · subst hx'; simp [hx]
      · simp [hx']

/-- A missing launch is given a command and, in the other order, a path; the result is the same configuration. -/
example : (Edit.path "l".toList "/".toList).run ((Edit.command "l".toList "ls".toList).run ⟨[], [], [], [], []⟩) =
    (Edit.command "l".toList "ls".toList).run ((Edit.path "l".toList "/".toList).run ⟨[], [], [], [], []⟩) ∧
    (Edit.connections "b".toList (.conns [])).run ((Edit.connections "c".toList (.conns [])).run ⟨[], [], [], [], [("a".toList, .conns [])]⟩) =
      ⟨[], [], [], [], [("a".toList, .conns []), ("b".toList, .conns []), ("c".toList, .conns [])]⟩ := by
  decide +kernel

/-- Edits keep the connections in the order of their keys, as the theorems above require. -/
theorem C32_sorted (c : Config) (hs : c.connection.Sorted) (e : Edit) : (e.run c).connection.Sorted := by
  cases e with
  | connections k d => exact sorted_sortedEntry hs _ _ _
  | _ => exact hs

/-- **C33** Whatever two numbers are given, the smaller becomes the low and the larger the high watermark, and the monitored buffers stay. -/
theorem C33_watermarks (c : Config) (r : Str) (a b : Nat) :
    ∃ low high, (setWatermark c r a b).read (.watermarks r) = .marks low high ∧ low ≤ high ∧
      (low = a ∧ high = b ∨ low = b ∧ high = a) ∧
      (setWatermark c r a b).read (.monitored r) = c.read (.monitored r) := by
  refine ⟨min a b, max a b, ?_, by omega, by omega, ?_⟩
  · simp only [setWatermark, Config.read, get_entry, if_true]
    by_cases h : a > b
    · cases Map.get c.regulator r <;> simp [h] <;> omega
    · cases Map.get c.regulator r <;> simp [h] <;> omega
  · simp only [setWatermark, Config.read, get_entry, if_true]
    cases Map.get c.regulator r <;> simp; split <;> rfl

end Verif
