import Verif.Lemmas.ParserRules
/-!
# Properties C27, C28, C29: connection strings
-/
namespace Verif
open Syntax

/-- **C27**: a string is accepted, with result `cs`, iff it is empty (and `cs` too) or there is a description of the documented syntax that is written
so and means `cs`. -/
theorem C27_connection_strings (s : Str) (cs : List Connection) :
    loadConnection s = .ok cs ↔ (s = [] ∧ cs = []) ∨ ∃ d : Desc, d.Ok ∧ s = d.text ∧ cs = d.meaning := by
  unfold loadConnection
  constructor
  · intro h
    split at h
    · rename_i l hl
      rcases set_inv hl with ⟨rfl, rfl⟩ | ⟨d, hd, rfl, rfl⟩
      · simp [applyPipes] at h; exact Or.inl ⟨rfl, h⟩
      · rw [plain_pipes] at h
        simp at h
        exact Or.inr ⟨d, hd, rfl, h.symm⟩
    · simp at h
  · rintro (⟨rfl, rfl⟩ | ⟨d, hd, rfl, rfl⟩)
    · rfl
    · rw [set_ok d hd]; simp only [plain_pipes]

/-- **C27**, every other string is refused as such; none makes the program panic. -/
theorem C27_refused (s : Str) : loadConnection s = .parseError ↔ s ≠ [] ∧ ∀ d : Desc, d.Ok → s ≠ d.text := by
  have np : loadConnection s ≠ .panic := by
    unfold loadConnection
    split
    · rename_i l hl
      rcases set_inv hl with ⟨rfl, rfl⟩ | ⟨d, hd, rfl, rfl⟩
      · simp [applyPipes]
      · rw [plain_pipes]; simp
    · simp
  constructor
  · intro h
    refine ⟨?_, ?_⟩
    · rintro rfl; rw [(C27_connection_strings [] []).mpr (Or.inl ⟨rfl, rfl⟩)] at h; simp at h
    · rintro d hd rfl; rw [(C27_connection_strings _ _).mpr (Or.inr ⟨d, hd, rfl, rfl⟩)] at h; simp at h
  · rintro ⟨h1, h2⟩
    cases h : loadConnection s with
    | ok cs =>
      rcases (C27_connection_strings s cs).mp h with ⟨rfl, _⟩ | ⟨d, hd, rfl, _⟩
      · exact absurd rfl h1
      · exact absurd rfl (h2 d hd)
    | parseError => rfl
    | panic => exact absurd h np

/-- **C27**: the meaning of a text does not depend on how it is taken apart. -/
theorem C27_unambiguous (d d' : Desc) (h : d.Ok) (h' : d'.Ok) (e : d.text = d'.text) : d.meaning = d'.meaning := by
  have h1 := (C27_connection_strings d.text d.meaning).mpr (Or.inr ⟨d, h, rfl, rfl⟩)
  have h2 := (C27_connection_strings d'.text d'.meaning).mpr (Or.inr ⟨d', h', rfl, rfl⟩)
  rw [e, h2] at h1
  simpa using h1.symm

/-- A description in mixed spelling: `f:in [E]`… with priority, variation and odd spacing. -/
example : let d : Desc := ⟨⟨.faucet, false, "in".toList⟩, some .err, ⟨2, some .finish, 0⟩, [⟨some ⟨true, "07".toList⟩, ⟨.launch, true, "x_1".toList⟩, none, ⟨0, none, 1⟩⟩], none, ⟨.drain, false, "d".toList⟩⟩
    d.Ok ∧ d.text = "f:in[E]  |F|[-07]launch:x_1| d:d".toList ∧
    d.meaning = [.start .faucet "in".toList .err none, .middle .launch "x_1".toList ⟨.finish, -7⟩ .out none, .end .drain "d".toList ⟨.terminate, 0⟩ none] := by
  refine ⟨⟨⟨by decide, by decide +kernel⟩, ?_, trivial, ⟨by decide, by decide +kernel⟩⟩, by decide +kernel, by decide +kernel⟩
  intro m hm
  simp at hm
  subst hm
  exact ⟨⟨by decide, by decide +kernel⟩, (by decide +kernel : ∀ c ∈ "07".toList, c ∈ digits)⟩

/-- Refused strings. -/
example : loadConnection "f:in".toList = .parseError := by decide +kernel
example : loadConnection "f:in | x:out".toList = .parseError := by decide +kernel
example : loadConnection "f:in | d:out ".toList = .parseError := by decide +kernel

/-! ### C28 -/

/-- One start, then middles, then one end. -/
def WellShaped (cs : List Connection) : Prop :=
  ∃ s ms e, cs = s :: ms ++ [e] ∧ (∃ t n o, s = .start t n o none) ∧ (∀ m ∈ ms, ∃ t n i o, m = .middle t n i o none) ∧
    ∃ t n i, e = .end t n i none

theorem rest_shape (b prio last ms) : ∃ l e, restMeaning b prio last ms = l ++ [e] ∧ (∀ m ∈ l, ∃ t n i o, m = .middle t n i o none) ∧
    ∃ t n i, e = .end t n i none := by
  induction ms generalizing b with
  | nil => exact ⟨[], _, rfl, by simp, _, _, _, rfl⟩
  | cons m ms ih =>
    obtain ⟨l, e, h1, h2, h3⟩ := ih m.pipe.meaning
    refine ⟨_ :: l, e, by rw [restMeaning, h1, List.cons_append], ?_, h3⟩
    intro x hx
    rcases List.mem_cons.mp hx with rfl | hx
    · exact ⟨_, _, _, _, rfl⟩
    · exact h2 x hx

theorem rest_names {b prio last ms} (h1 : ∀ m ∈ ms, m.id.Ok) (h2 : last.Ok) :
    ∀ c ∈ restMeaning b prio last ms, c.name ≠ [] ∧ ∀ x ∈ c.name, x ∈ letters := by
  induction ms generalizing b with
  | nil => intro c hc; simp [restMeaning] at hc; subst hc; exact h2
  | cons m ms ih =>
    intro c hc
    rcases List.mem_cons.mp hc with rfl | hc
    · exact h1 m (by simp)
    · exact ih (fun m hm => h1 m (by simp [hm])) c hc

/-- **C28**: a non-empty accepted string gives a start, any number of middles and an end; every name consists of letters, digits and underscores, at
least one. -/
theorem C28_well_shaped {s : Str} {cs : List Connection} (hs : s ≠ []) (h : loadConnection s = .ok cs) :
    WellShaped cs ∧ ∀ c ∈ cs, c.name ≠ [] ∧ ∀ x ∈ c.name, x ∈ letters := by
  rcases (C27_connection_strings s cs).mp h with ⟨rfl, _⟩ | ⟨d, hd, rfl, rfl⟩
  · exact absurd rfl hs
  · obtain ⟨l, e, h1, h2, h3⟩ := rest_shape d.pipe.meaning d.prio d.last d.middles
    refine ⟨⟨_, l, e, by rw [Desc.meaning, h1]; rfl, ⟨_, _, _, rfl⟩, h2, h3⟩, ?_⟩
    intro c hc
    rcases List.mem_cons.mp hc with rfl | hc
    · exact hd.first
    · exact rest_names (fun m hm => (hd.middles m hm).1) hd.last c hc

/-- The pipe variation stored on a component. -/
def inputBreakable : Connection → Option Breakable
  | .middle _ _ i _ _ => some i.breakable
  | .start .. => none
  | .end _ _ i _ => some i.breakable

/-- **C28**: the variation of each pipe is stored on the component after it, in order. -/
theorem C28_variations (d : Desc) (h : d.Ok) :
    ∃ cs, loadConnection d.text = .ok cs ∧ cs.map inputBreakable = none :: (d.pipe :: d.middles.map (·.pipe)).map fun p => some p.meaning := by
  refine ⟨_, (C27_connection_strings _ _).mpr (Or.inr ⟨d, h, rfl, rfl⟩), ?_⟩
  have : ∀ b ms, (restMeaning b d.prio d.last ms).map inputBreakable = some b :: (ms.map (·.pipe)).map fun p => some p.meaning := by
    intro b ms
    induction ms generalizing b with
    | nil => rfl
    | cons m ms ih => simp only [restMeaning, List.map_cons, ih]; rfl
  simp only [Desc.meaning, List.map_cons, this]
  rfl

example : loadConnection "f:a |C| l:b | d:c".toList = .ok [.start .faucet "a".toList .out none, .middle .launch "b".toList ⟨.consume, 0⟩ .out none,
    .end .drain "c".toList ⟨.terminate, 0⟩ none] := by decide +kernel

/-! ### C29 -/

/-- The priority stored on a component. -/
def inputPriority : Connection → Option Int
  | .middle _ _ i _ _ => some i.priority
  | .start .. => none
  | .end _ _ i _ => some i.priority

/-- **C29**: a priority written with at least one digit and fitting into 64 bits is stored as the number written, any other as 0; left out it is 0. The text
is any accepted one in which the last component has the priority in question. -/
theorem C29_priorities (d : Desc) (h : d.Ok) :
    ∃ cs, loadConnection d.text = .ok cs ∧
      cs.map inputPriority = none :: (d.middles.map (·.prio) ++ [d.prio]).map fun p => some (match p with
        | none => 0
        | some p => if p.ds ≠ [] ∧ -2 ^ 63 ≤ p.value ∧ p.value < 2 ^ 63 then p.value else 0) := by
  refine ⟨_, (C27_connection_strings _ _).mpr (Or.inr ⟨d, h, rfl, rfl⟩), ?_⟩
  have e : (fun p : Option Prio => some (match p with
        | none => 0
        | some p => if p.ds ≠ [] ∧ -2 ^ 63 ≤ p.value ∧ p.value < 2 ^ 63 then p.value else 0)) = fun p => some (prioMeaning p) := by
    funext p
    cases p <;> rfl
  rw [e]
  have : ∀ b ms, (restMeaning b d.prio d.last ms).map inputPriority = (ms.map (·.prio) ++ [d.prio]).map fun p => some (prioMeaning p) := by
    intro b ms
    induction ms generalizing b with
    | nil => rfl
    | cons m ms ih => simp only [restMeaning, List.map_cons, ih]; rfl
  simp only [Desc.meaning, List.map_cons, this]
  rfl

/-- Decimal notation means what it should: the number followed by one more digit. -/
theorem number_snoc (s : Str) (c : Char) : number (s ++ [c]) = number s * 10 + digits.idxOf c := by
  induction s with
  | nil => simp [number]
  | cons d s ih =>
    simp only [List.cons_append, number, ih, List.length_append, List.length_cons, List.length_nil, Nat.pow_succ, Nat.zero_add, Nat.add_mul, Nat.mul_assoc]
    omega

/-- The bounds, on both sides. -/
example : (Prio.mk false "9223372036854775807".toList).meaning = 9223372036854775807 ∧ (Prio.mk false "9223372036854775808".toList).meaning = 0 ∧
    (Prio.mk true "9223372036854775808".toList).meaning = -9223372036854775808 ∧ (Prio.mk true []).meaning = 0 ∧ (Prio.mk false "0042".toList).meaning = 42 := by
  decide +kernel

end Verif
