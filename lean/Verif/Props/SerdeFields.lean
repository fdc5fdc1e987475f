import Verif.Props.Serde
import Verif.Props.Hops
/-!
# Property C49, records written by hand; property C68: unreadable records are refused
-/
namespace Verif

/-- The two records have the same (single, multiple or missing) values for the given fields. -/
def Alike (ks : List Str) (r r' : Map Data) : Prop := ∀ k ∈ ks, r.filter (fun x => x.1 = k) = r'.filter (fun x => x.1 = k)

def inputFields : List Str := ["breakable".toList, "priority".toList]
def connectionFields : List Str := ["component_type".toList, "component_name".toList, "output_port".toList, "connection_set".toList] ++ inputFields
def launchFields : List Str := ["cmd".toList, "path".toList, "env".toList, "arg".toList]
def regulatorFields : List Str := ["buffered".toList, "monitored_buffers".toList]
def configFields : List Str := ["faucet".toList, "regulator".toList, "drain".toList, "launch".toList, "connection".toList]

theorem Alike.field {ks : List Str} {r r' : Map Data} (h : Alike ks r r') {k : Str} (hk : k ∈ ks) : field r k = field r' k := by
  unfold Verif.field; rw [h k hk]

theorem Alike.required {ks : List Str} {r r' : Map Data} (h : Alike ks r r') {k : Str} (hk : k ∈ ks) : required r k = required r' k := by
  unfold Verif.required; rw [h.field hk]

theorem Alike.optional {α} {f : Data → Option α} {ks : List Str} {r r' : Map Data} (h : Alike ks r r') {k : Str} (hk : k ∈ ks) :
    optional f r k = optional f r' k := by
  unfold Verif.optional; rw [h.field hk]

theorem Alike.defaulted {α} {f : Data → Option α} {d : α} {ks : List Str} {r r' : Map Data} (h : Alike ks r r') {k : Str} (hk : k ∈ ks) :
    defaulted f d r k = defaulted f d r' k := by
  unfold Verif.defaulted; rw [h.field hk]

/-- **C49** Only the fields with known names matter, each by itself: neither other fields nor the order of the fields. -/
theorem C49_known_fields {r r' : Map Data} :
    (Alike connectionFields r r' → decodeConnection (.record r) = decodeConnection (.record r')) ∧
    (Alike ["source".toList] r r' → decodeFaucet (.record r) = decodeFaucet (.record r')) ∧
    (Alike ["destination".toList] r r' → decodeDrain (.record r) = decodeDrain (.record r')) ∧
    (Alike regulatorFields r r' → decodeRegulator (.record r) = decodeRegulator (.record r')) ∧
    (Alike launchFields r r' → decodeLaunch (.record r) = decodeLaunch (.record r')) ∧
    (Alike configFields r r' → decodeConfig (.record r) = decodeConfig (.record r')) := by
  refine ⟨fun h => ?_, fun h => ?_, fun h => ?_, fun h => ?_, fun h => ?_, fun h => ?_⟩
  · have m : ∀ k, k ∈ connectionFields → k ∈ connectionFields := fun _ h => h
    have e1 := h.required (k := "component_type".toList) (by decide)
    have e2 := h.required (k := "component_name".toList) (by decide)
    have e3 := h.required (k := "output_port".toList) (by decide)
    have e4 := h.optional (f := decodeStr) (k := "connection_set".toList) (by decide)
    have e5 := h.required (k := "priority".toList) (by decide)
    have e6 := h.defaulted (f := decodeBreakable) (d := .terminate) (k := "breakable".toList) (by decide)
    simp only [decodeConnection, decodeMiddle, decodeStart, decodeEnd, decodeInput, e1, e2, e3, e4, e5, e6]
  · simp only [decodeFaucet, h.required (k := "source".toList) (by decide)]
  · simp only [decodeDrain, h.defaulted (k := "destination".toList) (by decide)]
  · simp only [decodeRegulator, h.optional (k := "buffered".toList) (by decide), h.defaulted (k := "monitored_buffers".toList) (by decide)]
  · simp only [decodeLaunch, h.optional (k := "cmd".toList) (by decide), h.optional (k := "path".toList) (by decide), h.defaulted (k := "env".toList) (by decide),
      h.defaulted (k := "arg".toList) (by decide)]
  · simp only [decodeConfig, h.defaulted (k := "faucet".toList) (by decide), h.defaulted (k := "regulator".toList) (by decide), h.defaulted (k := "drain".toList) (by decide),
      h.defaulted (k := "launch".toList) (by decide), h.defaulted (k := "connection".toList) (by decide)]

/-- The field is not there. -/
def Lacks (r : Map Data) (k : Str) : Prop := ∀ x ∈ r, x.1 ≠ k

theorem Lacks.filter {r : Map Data} {k : Str} (h : Lacks r k) : r.filter (fun x => x.1 = k) = [] := by
  rw [List.filter_eq_nil_iff]; intro x hx; simpa using h x hx

theorem Lacks.field {r : Map Data} {k : Str} (h : Lacks r k) : field r k = some none := by
  unfold Verif.field; rw [h.filter]

theorem Lacks.given {r : Map Data} {k : Str} {d : Data} (h : Lacks r k) : Verif.field ((k, d) :: r) k = some (some d) := by
  unfold Verif.field
  rw [List.filter_cons_of_pos (by simp), h.filter]

theorem field_other {r : Map Data} {k k' : Str} {d : Data} (h : k ≠ k') : field ((k, d) :: r) k' = field r k' := by
  unfold field
  rw [List.filter_cons_of_neg (by simpa using h)]

theorem required_other {r : Map Data} {k k' : Str} {d : Data} (h : k ≠ k') : required ((k, d) :: r) k' = required r k' := by
  unfold required; rw [field_other h]

theorem optional_other {α} {f : Data → Option α} {r : Map Data} {k k' : Str} {d : Data} (h : k ≠ k') : optional f ((k, d) :: r) k' = optional f r k' := by
  unfold optional; rw [field_other h]

theorem defaulted_other {α} {f : Data → Option α} {x : α} {r : Map Data} {k k' : Str} {d : Data} (h : k ≠ k') :
    defaulted f x ((k, d) :: r) k' = defaulted f x r k' := by
  unfold defaulted; rw [field_other h]

theorem Lacks.optional {α} {f : Data → Option α} {r : Map Data} {k : Str} (h : Lacks r k) : optional f ((k, .null) :: r) k = Verif.optional f r k := by
  unfold Verif.optional; rw [h.given, h.field]

theorem Lacks.defaulted {α} {f : Data → Option α} {x : α} {r : Map Data} {k : Str} {d : Data} (h : Lacks r k) (hd : f d = some x) :
    defaulted f x ((k, d) :: r) k = Verif.defaulted f x r k := by
  unfold Verif.defaulted; rw [h.given, h.field]; exact hd

/-- **C49** Leaving a field out is giving it its default: pipes are `terminate`, connections come from no set, drains write to standard output, regulators have no marks and watch
nothing, launches have no command, path, environment or arguments, configurations lack what they do not mention. -/
theorem C49_defaults {r : Map Data} :
    (Lacks r "breakable".toList → decodeConnection (.record (("breakable".toList, .text "terminate".toList) :: r)) = decodeConnection (.record r)) ∧
    (Lacks r "connection_set".toList → decodeConnection (.record (("connection_set".toList, .null) :: r)) = decodeConnection (.record r)) ∧
    (Lacks r "destination".toList → decodeDrain (.record (("destination".toList, .text "-".toList) :: r)) = decodeDrain (.record r)) ∧
    (Lacks r "buffered".toList → decodeRegulator (.record (("buffered".toList, .null) :: r)) = decodeRegulator (.record r)) ∧
    (Lacks r "monitored_buffers".toList → decodeRegulator (.record (("monitored_buffers".toList, .list []) :: r)) = decodeRegulator (.record r)) ∧
    (∀ k ∈ ["cmd".toList, "path".toList], Lacks r k → decodeLaunch (.record ((k, .null) :: r)) = decodeLaunch (.record r)) ∧
    (Lacks r "env".toList → decodeLaunch (.record (("env".toList, .record []) :: r)) = decodeLaunch (.record r)) ∧
    (Lacks r "arg".toList → decodeLaunch (.record (("arg".toList, .list []) :: r)) = decodeLaunch (.record r)) ∧
    (∀ k ∈ configFields, Lacks r k → decodeConfig (.record ((k, .record []) :: r)) = decodeConfig (.record r)) := by
  refine ⟨fun h => ?_, fun h => ?_, fun h => ?_, fun h => ?_, fun h => ?_, ?_, fun h => ?_, fun h => ?_, ?_⟩
  · have e := h.defaulted (f := decodeBreakable) (x := .terminate) (d := .text "terminate".toList) rfl
    simp (discharger := decide) only [decodeConnection, decodeMiddle, decodeStart, decodeEnd, decodeInput, e, required_other, optional_other]
  · have e := h.optional (f := decodeStr)
    simp (discharger := decide) only [decodeConnection, decodeMiddle, decodeStart, decodeEnd, decodeInput, e, required_other, defaulted_other]
  · have e := h.defaulted (f := decodeStr) (x := "-".toList) (d := .text "-".toList) rfl
    simp only [decodeDrain, e]
  · have e := h.optional (f := decodeMarks)
    simp (discharger := decide) only [decodeRegulator, e, defaulted_other]
  · have e := h.defaulted (f := decodeList decodeStr) (x := []) (d := .list []) rfl
    simp (discharger := decide) only [decodeRegulator, e, optional_other]
  · intro k hk h
    have e := h.optional (f := decodeStr)
    rcases List.mem_cons.mp hk with rfl | hk
    · simp (discharger := decide) only [decodeLaunch, e, optional_other, defaulted_other]
    · rw [List.mem_singleton] at hk; subst hk
      simp (discharger := decide) only [decodeLaunch, e, optional_other, defaulted_other]
  · have e := h.defaulted (f := decodeHash decodeStr) (x := []) (d := .record []) rfl
    simp (discharger := decide) only [decodeLaunch, e, optional_other, defaulted_other]
  · have e := h.defaulted (f := decodeList decodeStr) (x := []) (d := .list []) rfl
    simp (discharger := decide) only [decodeLaunch, e, optional_other, defaulted_other]
  · intro k hk h
    have e1 := h.defaulted (f := decodeHash decodeFaucet) (x := []) (d := .record []) rfl
    have e2 := h.defaulted (f := decodeHash decodeRegulator) (x := []) (d := .record []) rfl
    have e3 := h.defaulted (f := decodeHash decodeDrain) (x := []) (d := .record []) rfl
    have e4 := h.defaulted (f := decodeHash decodeLaunch) (x := []) (d := .record []) rfl
    have e5 := h.defaulted (f := decodeTree decodeDConn) (x := []) (d := .record []) rfl
    simp only [configFields, List.mem_cons, List.not_mem_nil, or_false] at hk
    rcases hk with rfl | rfl | rfl | rfl | rfl <;>
      simp (discharger := decide) only [decodeConfig, e1, e2, e3, e4, e5, defaulted_other]

example : decodeConnection (.record [("component_type".toList, .text "drain".toList), ("component_name".toList, .text "d".toList), ("priority".toList, .num 4), ("colour".toList, .null)]) =
    some (.end .drain "d".toList ⟨.terminate, 4⟩ none) := rfl
example : Lacks [("component_type".toList, .text "drain".toList)] "breakable".toList := by simp [Lacks]
example : Alike launchFields [("cmd".toList, .null), ("arg".toList, .list [])] [("arg".toList, .list []), ("note".toList, .null), ("cmd".toList, .null)] := by
  intro k hk
  simp only [launchFields, List.mem_cons, List.not_mem_nil, or_false] at hk
  rcases hk with rfl | rfl | rfl | rfl <;> rfl

theorem ite_cases {α} {p : Prop} [Decidable p] {a t : α} {b : Option α} (h : (if p then some a else b) = some t) : (p ∧ a = t) ∨ b = some t := by
  by_cases hp : p
  · rw [if_pos hp] at h; exact Or.inl ⟨hp, Option.some.inj h⟩
  · rw [if_neg hp] at h; exact Or.inr h

/-- **C49** Type names are read in the three ways of writing them and no other; each names the type itself. -/
theorem C49_type_names (s : Str) (t : ComponentType) :
    ComponentType.fromStr s = some t ↔ ∃ x y z, encodeType t = .text x ∧ (s = x ∨ s = y ∨ s = z) ∧ y = (x.take 1).map Char.toUpper ++ x.drop 1 ∧ z = x.map Char.toUpper := by
  constructor
  · intro h
    unfold ComponentType.fromStr at h
    iterate 18
      rcases ite_cases h with ⟨e, rfl⟩ | h
      · rw [e]; exact ⟨_, _, _, rfl, by decide, rfl, rfl⟩
    cases h
  · rintro ⟨x, y, z, hx, hs, rfl, rfl⟩
    cases t <;> (simp only [encodeType, Data.text.injEq] at hx; subst hx; rcases hs with rfl | rfl | rfl <;> decide)

/-! ## C68 -/

/-- The field is given once and can be read. -/
def Readable {α} (f : Data → Option α) (r : Map Data) (k : Str) : Prop := ∃ d, r.filter (fun x => x.1 = k) = [(k, d)] ∧ f d ≠ none
/-- The field is given once, but cannot be read. -/
def Unreadable {α} (f : Data → Option α) (r : Map Data) (k : Str) : Prop := ∃ d, r.filter (fun x => x.1 = k) = [(k, d)] ∧ f d = none
/-- The field is left out, or given once and can be read. -/
def OptReadable {α} (f : Data → Option α) (r : Map Data) (k : Str) : Prop := Lacks r k ∨ Readable f r k
/-- Like that, or null. -/
def NullReadable {α} (f : Data → Option α) (r : Map Data) (k : Str) : Prop := OptReadable f r k ∨ r.filter (fun x => x.1 = k) = [(k, .null)]

theorem field_cases (r : Map Data) (k : Str) :
    (Lacks r k ∧ field r k = some none) ∨ (∃ d, r.filter (fun x => x.1 = k) = [(k, d)] ∧ field r k = some (some d)) ∨
    ((∃ a b l, r.filter (fun x => x.1 = k) = a :: b :: l) ∧ field r k = none) := by
  unfold field
  cases h : r.filter (fun x => x.1 = k) with
  | nil => exact Or.inl ⟨fun x hx hk => by have := List.filter_eq_nil_iff.mp h x hx; simp [hk] at this, rfl⟩
  | cons a l =>
    cases l with
    | nil =>
      have ha : a ∈ r.filter (fun x => x.1 = k) := by rw [h]; simp
      have : a.1 = k := by simpa using (List.mem_filter.mp ha).2
      exact Or.inr (Or.inl ⟨a.2, by rw [← this], rfl⟩)
    | cons b l => exact Or.inr (Or.inr ⟨⟨a, b, l, rfl⟩, rfl⟩)

theorem required_iff {α} {f : Data → Option α} {r : Map Data} {k : Str} : (required r k).bind f ≠ none ↔ Readable f r k := by
  unfold required Readable
  rcases field_cases r k with ⟨h, e⟩ | ⟨d, h, e⟩ | ⟨⟨a, b, l, h⟩, e⟩ <;> rw [e]
  · simp [h.filter]
  · rw [h]; simp
  · rw [h]; simp

theorem defaulted_iff {α} {f : Data → Option α} {x : α} {r : Map Data} {k : Str} : defaulted f x r k ≠ none ↔ OptReadable f r k := by
  unfold defaulted OptReadable Readable
  rcases field_cases r k with ⟨h, e⟩ | ⟨d, h, e⟩ | ⟨⟨a, b, l, h⟩, e⟩ <;> rw [e]
  · simp [h]
  · have : ¬ Lacks r k := fun hl => by rw [hl.filter] at h; simp at h
    rw [h]; simp [this]
  · have : ¬ Lacks r k := fun hl => by rw [hl.filter] at h; simp at h
    rw [h]; simp [this]

theorem optional_iff {α} {f : Data → Option α} {r : Map Data} {k : Str} : optional f r k ≠ none ↔ NullReadable f r k := by
  unfold optional NullReadable OptReadable Readable
  rcases field_cases r k with ⟨h, e⟩ | ⟨d, h, e⟩ | ⟨⟨a, b, l, h⟩, e⟩ <;> rw [e]
  · simp [h]
  · have : ¬ Lacks r k := fun hl => by rw [hl.filter] at h; simp at h
    rw [h]; cases d <;> simp [this]
  · have : ¬ Lacks r k := fun hl => by rw [hl.filter] at h; simp at h
    rw [h]; simp [this]

/-- **C68** for everything but connections: a record is read exactly if all its known fields can be. -/
theorem C68_records_partial {r : Map Data} :
    (decodeFaucet (.record r) ≠ none ↔ Readable decodeStr r "source".toList) ∧
    (decodeDrain (.record r) ≠ none ↔ OptReadable decodeStr r "destination".toList) ∧
    (decodeRegulator (.record r) ≠ none ↔ NullReadable decodeMarks r "buffered".toList ∧ OptReadable (decodeList decodeStr) r "monitored_buffers".toList) ∧
    (decodeLaunch (.record r) ≠ none ↔ NullReadable decodeStr r "cmd".toList ∧ NullReadable decodeStr r "path".toList ∧
      OptReadable (decodeHash decodeStr) r "env".toList ∧ OptReadable (decodeList decodeStr) r "arg".toList) ∧
    (decodeConfig (.record r) ≠ none ↔ OptReadable (decodeHash decodeFaucet) r "faucet".toList ∧ OptReadable (decodeHash decodeRegulator) r "regulator".toList ∧
      OptReadable (decodeHash decodeDrain) r "drain".toList ∧ OptReadable (decodeHash decodeLaunch) r "launch".toList ∧ OptReadable (decodeTree decodeDConn) r "connection".toList) := by
  refine ⟨required_iff, defaulted_iff, ?_, ?_, ?_⟩
  · rw [← optional_iff, ← defaulted_iff (x := [])]
    simp only [decodeRegulator]
    cases optional decodeMarks r "buffered".toList <;> cases defaulted (decodeList decodeStr) [] r "monitored_buffers".toList <;> simp
  · rw [← optional_iff, ← optional_iff, ← defaulted_iff (x := []), ← defaulted_iff (x := [])]
    simp only [decodeLaunch]
    cases optional decodeStr r "cmd".toList <;> cases optional decodeStr r "path".toList <;> cases defaulted (decodeHash decodeStr) [] r "env".toList <;>
      cases defaulted (decodeList decodeStr) [] r "arg".toList <;> simp
  · rw [← defaulted_iff (x := []), ← defaulted_iff (x := []), ← defaulted_iff (x := []), ← defaulted_iff (x := []), ← defaulted_iff (x := [])]
    simp only [decodeConfig]
    cases defaulted (decodeHash decodeFaucet) [] r "faucet".toList <;> cases defaulted (decodeHash decodeRegulator) [] r "regulator".toList <;>
      cases defaulted (decodeHash decodeDrain) [] r "drain".toList <;> cases defaulted (decodeHash decodeLaunch) [] r "launch".toList <;>
      cases defaulted (decodeTree decodeDConn) [] r "connection".toList <;> simp

/-- **C68** for connections: type, name and set must be readable, and an output port *or* a priority and variation. What of these cannot be read is taken for missing. -/
theorem C68_connection_partial {r : Map Data} :
    decodeConnection (.record r) ≠ none ↔ Readable decodeType r "component_type".toList ∧ Readable decodeStr r "component_name".toList ∧
      NullReadable decodeStr r "connection_set".toList ∧
      (Readable decodePort r "output_port".toList ∨ (Readable decodeInt r "priority".toList ∧ OptReadable decodeBreakable r "breakable".toList)) := by
  rw [← required_iff, ← required_iff, ← required_iff, ← required_iff, ← optional_iff, ← defaulted_iff (x := .terminate)]
  simp only [decodeConnection, decodeMiddle, decodeStart, decodeEnd, decodeInput]
  cases (required r "component_type".toList).bind decodeType <;> cases (required r "component_name".toList).bind decodeStr <;>
    cases optional decodeStr r "connection_set".toList <;> cases (required r "output_port".toList).bind decodePort <;>
    cases (required r "priority".toList).bind decodeInt <;> cases defaulted decodeBreakable .terminate r "breakable".toList <;> simp

/-- **C68** is false: whenever the output port of something in the middle is misspelt, it is read as the end of a connection set; and whenever its priority is no number or its
variation is misspelt, as the beginning. -/
theorem C68_refuted {r : Map Data} (ht : Readable decodeType r "component_type".toList) (hn : Readable decodeStr r "component_name".toList)
    (hs : NullReadable decodeStr r "connection_set".toList) :
    (Unreadable decodePort r "output_port".toList → Readable decodeInt r "priority".toList → OptReadable decodeBreakable r "breakable".toList →
      ∃ ty n i s, decodeConnection (.record r) = some (.end ty n i s)) ∧
    (Readable decodePort r "output_port".toList → Unreadable decodeInt r "priority".toList ∨ Unreadable decodeBreakable r "breakable".toList →
      ∃ ty n o s, decodeConnection (.record r) = some (.start ty n o s)) := by
  rw [← required_iff] at ht hn
  rw [← optional_iff] at hs
  obtain ⟨t, ht⟩ := Option.ne_none_iff_exists'.mp ht
  obtain ⟨n, hn⟩ := Option.ne_none_iff_exists'.mp hn
  obtain ⟨s, hs⟩ := Option.ne_none_iff_exists'.mp hs
  have un : ∀ {α : Type} {f : Data → Option α} {k : Str}, Unreadable f r k → (required r k).bind f = none ∧ ∀ x, defaulted f x r k = none := by
    intro α f k ⟨d, h, e⟩
    have hf : field r k = some (some d) := by unfold field; rw [h]
    exact ⟨by simp [required, hf, e], fun x => by simp [defaulted, hf, e]⟩
  constructor
  · intro ho hp hb
    rw [← required_iff] at hp
    rw [← defaulted_iff (x := .terminate)] at hb
    obtain ⟨p, hp⟩ := Option.ne_none_iff_exists'.mp hp
    obtain ⟨b, hb⟩ := Option.ne_none_iff_exists'.mp hb
    exact ⟨t, n, ⟨b, p⟩, s, by simp only [decodeConnection, decodeMiddle, decodeStart, decodeEnd, decodeInput, ht, hn, hs, hp, hb, (un ho).1]⟩
  · intro ho hp
    rw [← required_iff] at ho
    obtain ⟨o, ho⟩ := Option.ne_none_iff_exists'.mp ho
    have hi : decodeInput r = none := by
      rcases hp with hp | hp
      · simp only [decodeInput, (un hp).1]
        cases defaulted decodeBreakable .terminate r "breakable".toList <;> rfl
      · simp only [decodeInput, (un hp).2]
    exact ⟨t, n, o, s, by simp only [decodeConnection, decodeMiddle, decodeStart, ht, hn, hs, ho, hi]⟩

example : Readable decodeType [("component_type".toList, .text "launch".toList), ("output_port".toList, .text "stdout".toList)] "component_type".toList :=
  ⟨.text "launch".toList, rfl, by decide⟩
example : Unreadable decodePort [("component_type".toList, .text "launch".toList), ("output_port".toList, .text "stdout".toList)] "output_port".toList :=
  ⟨.text "stdout".toList, rfl, by decide⟩

/-- A faucet, a program and a drain, the output port of the program being misspelt. -/
def misspelt : Data := .record [("connection".toList, .record [("c".toList, .list [
  .record [("component_type".toList, .text "faucet".toList), ("component_name".toList, .text "f".toList), ("output_port".toList, .text "out".toList)],
  .record [("component_type".toList, .text "launch".toList), ("component_name".toList, .text "l".toList), ("priority".toList, .num 0), ("output_port".toList, .text "stdout".toList)],
  .record [("component_type".toList, .text "drain".toList), ("component_name".toList, .text "d".toList), ("priority".toList, .num 0)]])])]

/-- **C68** Such a configuration is read without complaint, and processing it aborts. -/
theorem C68_refuted_aborts {perm perm' spyOrder} (hp : ∀ l, (perm l : List OutRef).Perm l) (hp' : ∀ l, (perm' l : List InRef).Perm l) :
    ∃ c, decodeConfig misspelt = some c ∧ manipulate perm perm' spyOrder c = none := by
  refine ⟨⟨[], [], [], [], [("c".toList, .conns [.start .faucet "f".toList .out none, .end .launch "l".toList ⟨.terminate, 0⟩ none, .end .drain "d".toList ⟨.terminate, 0⟩ none])]⟩, rfl, ?_⟩
  refine ((C35_aborts _ (by decide) hp hp').2).mpr ⟨_, _, List.mem_singleton.mpr rfl, Or.inr ⟨_, rfl, ?_⟩⟩
  rintro ⟨_, _, h⟩
  exact h 1 _ _ rfl rfl rfl

end Verif
