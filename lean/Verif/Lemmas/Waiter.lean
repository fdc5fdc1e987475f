import Verif.Spec.Wiring
import Verif.Lemmas.Insert
namespace Verif

section
variable {κ α : Type} [DecidableEq κ]

theorem Table.get_put (m : Table κ α) (k : κ) (v : α) (x : κ) : (Table.put k v m).get x = if x = k then some v else m.get x := by
  induction m with
  | nil => simp only [Table.put, Table.get]; by_cases h : x = k <;> simp [h, eq_comm (a := k)]
  | cons a m ih =>
    obtain ⟨k', v'⟩ := a
    simp only [Table.put]
    by_cases h : k' = k
    · subst h
      by_cases hx : x = k'
      · simp [Table.get, hx]
      · have : k' ≠ x := fun e => hx e.symm
        simp [Table.get, hx, this]
    · rw [if_neg h]
      simp only [Table.get, ih]
      by_cases hx : k' = x
      · subst hx; simp [h]
      · simp [hx]

theorem Table.get_orInsert (m : Table κ α) (k : κ) (v : α) (x : κ) (hk : m.get k = none) : (Table.orInsert k v m).get x = if x = k then some v else m.get x := by
  simp only [Table.orInsert, hk, Option.isSome_none]
  exact Table.get_put m k v x
end

theorem erase_get {α} (m : Map α) (k x : Str) : (Map.erase k m).get x = if x = k then none else m.get x := by
  induction m with
  | nil => simp [Map.erase, Map.get]
  | cons a m ih =>
    obtain ⟨k', v'⟩ := a
    simp only [Map.erase, List.filter_cons] at ih ⊢
    by_cases h : k' = k
    · subst h
      simp only [ne_eq, not_true_eq_false, decide_false, Bool.false_eq_true, if_false]
      simp only [ne_eq] at ih
      rw [ih]
      by_cases hx : x = k'
      · simp [hx]
      · have : k' ≠ x := fun e => hx e.symm
        simp [Map.get, hx, this]
    · simp only [ne_eq, h, not_false_eq_true, decide_true, if_true, Map.get]
      simp only [ne_eq] at ih
      rw [ih]
      by_cases hx : k' = x
      · subst hx; simp [h]
      · simp [hx]

/-! ## The ends of channels -/

theorem pushEnds_congr {id id' : CompRef → Nat} {hs : List (Hop × Nat)} {q : Hop → Bool} (h : ∀ x ∈ hs, id x.1.from = id' x.1.from ∧ id x.1.to = id' x.1.to) :
    pushEnds id hs q = pushEnds id' hs q := by
  refine List.map_congr_left fun x hx => ?_
  have := h x ((List.mem_filter.mp hx).1)
  simp [Hop.pushEnd, this.1, this.2]

theorem pullEnds_congr {id id' : CompRef → Nat} {hs : List (Hop × Nat)} {q : Hop → Bool} (h : ∀ x ∈ hs, id x.1.from = id' x.1.from ∧ id x.1.to = id' x.1.to) :
    pullEnds id hs q = pullEnds id' hs q := by
  refine List.map_congr_left fun x hx => ?_
  have := h x ((List.mem_filter.mp hx).1)
  simp [Hop.pullEnd, this.1, this.2]

theorem expected_congr (c : Config) {id id' : CompRef → Nat} {outs ins : List (Hop × Nat)} {r : CompRef}
    (ho : ∀ x ∈ outs, id x.1.from = id' x.1.from ∧ id x.1.to = id' x.1.to)
    (hi : ∀ x ∈ ins, id x.1.from = id' x.1.from ∧ id x.1.to = id' x.1.to) (hr : id r = id' r) :
    expected c id outs ins r = expected c id' outs ins r := by
  unfold expected
  simp only [pushEnds_congr ho, pullEnds_congr hi, hr]

theorem pushEnds_none {id : CompRef → Nat} {hs : List (Hop × Nat)} {q : Hop → Bool} (h : ∀ x ∈ hs, q x.1 = false) : pushEnds id hs q = [] := by
  simp only [pushEnds, List.map_eq_nil_iff, List.filter_eq_nil_iff]
  intro x hx; simp [h x hx]

theorem pullEnds_none {id : CompRef → Nat} {hs : List (Hop × Nat)} {q : Hop → Bool} (h : ∀ x ∈ hs, q x.1 = false) : pullEnds id hs q = [] := by
  simp only [pullEnds, List.map_eq_nil_iff, List.filter_eq_nil_iff]
  intro x hx; simp [h x hx]

theorem pushEnds_head_none {id : CompRef → Nat} {hs : List (Hop × Nat)} {q : Hop → Bool} : (pushEnds id hs q).head? = none ↔ ∀ x ∈ hs, q x.1 = false := by
  simp [pushEnds, List.head?_eq_none_iff, List.filter_eq_nil_iff]

theorem pullEnds_head_none {id : CompRef → Nat} {hs : List (Hop × Nat)} {q : Hop → Bool} : (pullEnds id hs q).head? = none ↔ ∀ x ∈ hs, q x.1 = false := by
  simp [pullEnds, List.head?_eq_none_iff, List.filter_eq_nil_iff]

theorem pushEnds_snoc {id : CompRef → Nat} {hs : List (Hop × Nat)} {q : Hop → Bool} {h : Hop} {i : Nat} :
    pushEnds id (hs ++ [(h, i)]) q = pushEnds id hs q ++ if q h then [h.pushEnd id i] else [] := by
  simp only [pushEnds, List.filter_append, List.map_append, List.filter_cons, List.filter_nil]
  cases q h <;> simp

theorem pullEnds_snoc {id : CompRef → Nat} {hs : List (Hop × Nat)} {q : Hop → Bool} {h : Hop} {i : Nat} :
    pullEnds id (hs ++ [(h, i)]) q = pullEnds id hs q ++ if q h then [(h.pullEnd id i, h.input.priority)] else [] := by
  simp only [pullEnds, List.filter_append, List.map_append, List.filter_cons, List.filter_nil]
  cases q h <;> simp

theorem expected_snoc_other (c : Config) {id : CompRef → Nat} {outs ins : List (Hop × Nat)} {r : CompRef} {h : Hop} {i : Nat} (hr : h.from ≠ r) :
    expected c id (outs ++ [(h, i)]) ins r = expected c id outs ins r := by
  obtain ⟨ty, n⟩ := r
  have hs : ∀ p, ty = .launch → h.src ≠ ⟨.launch, n, p⟩ := by
    rintro p rfl e
    exact hr (by simp [Hop.from, e])
  unfold expected
  cases ty <;> simp [pushEnds_snoc, hr, hs]

theorem expected_ins_other (c : Config) {id : CompRef → Nat} {outs ins : List (Hop × Nat)} {r : CompRef} {h : Hop} {i : Nat} (hr : h.to ≠ r) :
    expected c id outs (ins ++ [(h, i)]) r = expected c id outs ins r := by
  obtain ⟨ty, n⟩ := r
  unfold expected
  cases ty <;> simp [pullEnds_snoc, hr]

theorem expected_faucet (c : Config) (id : CompRef → Nat) (outs ins : List (Hop × Nat)) {r : CompRef} (h : r.1 = .faucet) :
    expected c id outs ins r = .faucet ((c.faucet.get r.2).getD []) (pushEnds id outs fun h => h.from = r).head? := by
  unfold expected; rw [h]

theorem expected_drain (c : Config) (id : CompRef → Nat) (outs ins : List (Hop × Nat)) {r : CompRef} (h : r.1 = .drain) :
    expected c id outs ins r = .drain ((c.drain.get r.2).getD []) ((pullEnds id ins fun h => h.to = r).head?.map Prod.fst) := by
  unfold expected; rw [h]

theorem expected_regulator (c : Config) (id : CompRef → Nat) (outs ins : List (Hop × Nat)) {r : CompRef} (h : r.1 = .regulator) :
    expected c id outs ins r = .regulator ((pullEnds id ins fun h => h.to = r).head?.map Prod.fst) (pushEnds id outs fun h => h.from = r).head? false := by
  unfold expected; rw [h]

theorem expected_buffer (c : Config) (id : CompRef → Nat) (outs ins : List (Hop × Nat)) {r : CompRef} (h : r.1 = .buffer) :
    expected c id outs ins r = .buffer ((pullEnds id ins fun h => h.to = r).head?.map Prod.fst) (pushEnds id outs fun h => h.from = r).head? false := by
  unfold expected; rw [h]

theorem expected_junction (c : Config) (id : CompRef → Nat) (outs ins : List (Hop × Nat)) {r : CompRef} (h : r.1 = .junction) :
    expected c id outs ins r = .junction (pullEnds id ins fun h => h.to = r) (pushEnds id outs fun h => h.from = r) := by
  unfold expected; rw [h]

theorem expected_launch (c : Config) (id : CompRef → Nat) (outs ins : List (Hop × Nat)) {r : CompRef} (h : r.1 = .launch) :
    expected c id outs ins r = .launch (id r) ((c.launch.get r.2).getD ⟨none, none, [], []⟩).orNone.1 ((c.launch.get r.2).getD ⟨none, none, [], []⟩).path
      (((c.launch.get r.2).getD ⟨none, none, [], []⟩).command.getD []) ((c.launch.get r.2).getD ⟨none, none, [], []⟩).orNone.2
      ((pullEnds id ins fun h => h.to = r).head?.map Prod.fst)
      (pushEnds id outs fun h => h.src = ⟨.launch, r.2, .out⟩).head?
      (pushEnds id outs fun h => h.src = ⟨.launch, r.2, .err⟩).head?
      (pushEnds id outs fun h => h.src = ⟨.launch, r.2, .exit⟩).head? := by
  unfold expected; rw [h]

/-- Handing out the writing end of a hop. -/
theorem addOutput_expected (c : Config) {id : CompRef → Nat} {outs ins : List (Hop × Nat)} {h : Hop} {i : Nat} :
    (CanSend (outs.map Prod.fst) h ∧
      (expected c id outs ins h.from).addOutput h.src.port h.input.breakable (id h.from) (id h.to) i = .ok (expected c id (outs ++ [(h, i)]) ins h.from)) ∨
    (¬ CanSend (outs.map Prod.fst) h ∧ ∃ e,
      (expected c id outs ins h.from).addOutput h.src.port h.input.breakable (id h.from) (id h.to) i = .error e ∧ Reason c (outs.map Prod.fst) h (.addOutput h.from e)) := by
  have once (hj : h.src.ty ≠ .junction) (hl : h.src.ty ≠ .launch) :
      ((∀ g ∈ outs.map Prod.fst, g.from ≠ h.from) ∧ (pushEnds id outs fun g => g.from = h.from).head? = none ∧
        (pushEnds id (outs ++ [(h, i)]) fun g => g.from = h.from).head? = some (h.pushEnd id i)) ∨
      (¬ (∀ g ∈ outs.map Prod.fst, g.from ≠ h.from) ∧ (pushEnds id outs fun g => g.from = h.from).head?.isSome = true ∧
        ∃ g ∈ outs.map Prod.fst, g.from = h.from) := by
    by_cases hn : (pushEnds id outs fun g => g.from = h.from).head? = none
    · left
      have := pushEnds_head_none.mp hn
      refine ⟨?_, hn, ?_⟩
      · intro g hg
        obtain ⟨x, hx, rfl⟩ := List.mem_map.mp hg
        simpa using this x hx
      · rw [pushEnds_snoc, List.head?_append, hn]; simp
    · right
      have he : ∃ g ∈ outs.map Prod.fst, g.from = h.from := by
        apply Classical.byContradiction
        intro hne
        apply hn
        rw [pushEnds_head_none]
        intro x hx
        simp only [decide_eq_false_iff_not]
        exact fun e => hne ⟨x.1, List.mem_map.mpr ⟨x, hx, rfl⟩, e⟩
      refine ⟨?_, Option.isSome_iff_ne_none.mpr hn, he⟩
      obtain ⟨g, hg, e⟩ := he
      exact fun hall => hall g hg e
  have onceL (hl : h.src.ty = .launch) :
      ((∀ g ∈ outs.map Prod.fst, g.src ≠ h.src) ∧ (pushEnds id outs fun g => g.src = h.src).head? = none ∧
        (pushEnds id (outs ++ [(h, i)]) fun g => g.src = h.src).head? = some (h.pushEnd id i)) ∨
      (¬ (∀ g ∈ outs.map Prod.fst, g.src ≠ h.src) ∧ (pushEnds id outs fun g => g.src = h.src).head?.isSome = true ∧
        ∃ g ∈ outs.map Prod.fst, g.src = h.src) := by
    by_cases hn : (pushEnds id outs fun g => g.src = h.src).head? = none
    · left
      have := pushEnds_head_none.mp hn
      refine ⟨?_, hn, ?_⟩
      · intro g hg
        obtain ⟨x, hx, rfl⟩ := List.mem_map.mp hg
        simpa using this x hx
      · rw [pushEnds_snoc, List.head?_append, hn]; simp
    · right
      have he : ∃ g ∈ outs.map Prod.fst, g.src = h.src := by
        apply Classical.byContradiction
        intro hne
        apply hn
        rw [pushEnds_head_none]
        intro x hx
        simp only [decide_eq_false_iff_not]
        exact fun e => hne ⟨x.1, List.mem_map.mpr ⟨x, hx, rfl⟩, e⟩
      refine ⟨?_, Option.isSome_iff_ne_none.mpr hn, he⟩
      obtain ⟨g, hg, e⟩ := he
      exact fun hall => hall g hg e
  cases hty : h.src.ty with
  | faucet =>
    have hr : h.from.1 = .faucet := hty
    by_cases hp : h.src.port = .out
    · rcases once (by simp [hty]) (by simp [hty]) with ⟨a, b, d⟩ | ⟨a, b, d⟩
      · left
        refine ⟨by rw [CanSend, hty]; exact ⟨hp, a⟩, ?_⟩
        rw [expected_faucet _ _ _ _ hr, expected_faucet _ _ _ _ hr, b, d]
        simp [Comp.addOutput, hp, Hop.pushEnd, hty]
      · right
        refine ⟨by rw [CanSend, hty]; exact fun hc => a hc.2, .alreadyAllocated h.src.port, ?_, ?_⟩
        · rw [expected_faucet _ _ _ _ hr]
          simp [Comp.addOutput, b, hp]
        · obtain ⟨g, hg, e⟩ := d
          exact ⟨rfl, rfl, by simp [hr], g, hg, e, by simp [hr]⟩
    · right
      refine ⟨by rw [CanSend, hty]; exact fun hc => hp hc.1, .unsupportedPort h.src.port, ?_, ?_⟩
      · rw [expected_faucet _ _ _ _ hr]; simp [Comp.addOutput, hp]
      · exact ⟨rfl, rfl, Or.inr ⟨Or.inl hr, hp⟩⟩
  | regulator =>
    have hr : h.from.1 = .regulator := hty
    by_cases hp : h.src.port = .out
    · rcases once (by simp [hty]) (by simp [hty]) with ⟨a, b, d⟩ | ⟨a, b, d⟩
      · left
        refine ⟨by rw [CanSend, hty]; exact ⟨hp, a⟩, ?_⟩
        rw [expected_regulator _ _ _ _ hr, expected_regulator _ _ _ _ hr, b, d]
        simp [Comp.addOutput, hp, Hop.pushEnd, hty]
      · right
        refine ⟨by rw [CanSend, hty]; exact fun hc => a hc.2, .alreadyAllocated h.src.port, ?_, ?_⟩
        · rw [expected_regulator _ _ _ _ hr]
          simp [Comp.addOutput, b, hp]
        · obtain ⟨g, hg, e⟩ := d
          exact ⟨rfl, rfl, by simp [hr], g, hg, e, by simp [hr]⟩
    · right
      refine ⟨by rw [CanSend, hty]; exact fun hc => hp hc.1, .unsupportedPort h.src.port, ?_, ?_⟩
      · rw [expected_regulator _ _ _ _ hr]; simp [Comp.addOutput, hp]
      · exact ⟨rfl, rfl, Or.inr ⟨Or.inr hr, hp⟩⟩
  | buffer =>
    have hr : h.from.1 = .buffer := hty
    rcases once (by simp [hty]) (by simp [hty]) with ⟨a, b, d⟩ | ⟨a, b, d⟩
    · left
      refine ⟨by rw [CanSend, hty]; exact a, ?_⟩
      rw [expected_buffer _ _ _ _ hr, expected_buffer _ _ _ _ hr, b, d]
      simp [Comp.addOutput, Hop.pushEnd, hty]
    · right
      refine ⟨by rw [CanSend, hty]; exact a, .alreadyAllocated h.src.port, ?_, ?_⟩
      · rw [expected_buffer _ _ _ _ hr]
        simp [Comp.addOutput, b]
      · obtain ⟨g, hg, e⟩ := d
        exact ⟨rfl, rfl, by simp [hr], g, hg, e, by simp [hr]⟩
  | drain =>
    have hr : h.from.1 = .drain := hty
    right
    refine ⟨by rw [CanSend, hty]; exact fun h => h, .unsupportedPort h.src.port, ?_, rfl, rfl, Or.inl hr⟩
    rw [expected_drain _ _ _ _ hr]; rfl
  | junction =>
    have hr : h.from.1 = .junction := hty
    left
    refine ⟨by rw [CanSend, hty]; trivial, ?_⟩
    rw [expected_junction _ _ _ _ hr, expected_junction _ _ _ _ hr, pushEnds_snoc]
    simp [Comp.addOutput, Hop.pushEnd, hty]
  | launch =>
    have hr : h.from.1 = .launch := hty
    have hs : ∀ p, h.src.port = p → h.src = ⟨.launch, h.from.2, p⟩ := by
      intro p hp; rw [← hty, ← hp]; rfl
    have ho : ∀ p, h.src.port ≠ p → h.src ≠ ⟨.launch, h.from.2, p⟩ := by
      intro p hp e; exact hp (by rw [e])
    have hn : ∀ q, h.src ≠ q → pushEnds id (outs ++ [(h, i)]) (fun g => g.src = q) = pushEnds id outs (fun g => g.src = q) := by
      intro q hq; rw [pushEnds_snoc]; simp [hq]
    rcases onceL hty with ⟨a, b, d⟩ | ⟨a, b, d⟩
    · left
      refine ⟨by rw [CanSend, hty]; exact a, ?_⟩
      rw [expected_launch _ _ _ _ hr, expected_launch _ _ _ _ hr]
      cases hp : h.src.port with
      | err =>
        rw [hs _ hp] at b d
        have h1 := ho .out (by simp [hp])
        have h2 := ho .exit (by simp [hp])
        rw [d, hn _ h1, hn _ h2]
        simp [Comp.addOutput, b, Hop.pushEnd, hty, hp]
      | out =>
        rw [hs _ hp] at b d
        have h1 := ho .err (by simp [hp])
        have h2 := ho .exit (by simp [hp])
        rw [d, hn _ h1, hn _ h2]
        simp [Comp.addOutput, b, Hop.pushEnd, hty, hp]
      | exit =>
        rw [hs _ hp] at b d
        have h1 := ho .out (by simp [hp])
        have h2 := ho .err (by simp [hp])
        rw [d, hn _ h1, hn _ h2]
        simp [Comp.addOutput, b, Hop.pushEnd, hty, hp]
    · right
      refine ⟨by rw [CanSend, hty]; exact a, .alreadyAllocated h.src.port, ?_, ?_⟩
      · rw [expected_launch _ _ _ _ hr]
        cases hp : h.src.port <;> (rw [hs _ hp] at b; simp [Comp.addOutput, b])
      · obtain ⟨g, hg, e⟩ := d
        exact ⟨rfl, rfl, by simp [hr], g, hg, by simp [Hop.from, e], fun _ => by simp [e]⟩

/-- Handing out the reading end of a hop. -/
theorem addInput_expected (c : Config) {id : CompRef → Nat} {outs ins : List (Hop × Nat)} {h : Hop} {i : Nat} :
    (CanReceive (ins.map Prod.fst) h ∧
      (expected c id outs ins h.to).addInput (h.pullEnd id i) h.input.priority = .ok (expected c id outs (ins ++ [(h, i)]) h.to)) ∨
    (¬ CanReceive (ins.map Prod.fst) h ∧ ∃ e,
      (expected c id outs ins h.to).addInput (h.pullEnd id i) h.input.priority = .error e ∧ Reason c (ins.map Prod.fst) h (.addInput h.to e)) := by
  have once :
      ((∀ g ∈ ins.map Prod.fst, g.dst ≠ h.dst) ∧ (pullEnds id ins fun g => g.to = h.to).head? = none ∧
        (pullEnds id (ins ++ [(h, i)]) fun g => g.to = h.to).head? = some (h.pullEnd id i, h.input.priority)) ∨
      (¬ (∀ g ∈ ins.map Prod.fst, g.dst ≠ h.dst) ∧ (pullEnds id ins fun g => g.to = h.to).head?.isSome = true ∧
        ∃ g ∈ ins.map Prod.fst, g.to = h.to) := by
    have key : ∀ g : Hop, g.to = h.to ↔ g.dst = h.dst := by
      intro g
      obtain ⟨_, _, ⟨t, n⟩, _, _⟩ := g
      obtain ⟨_, _, ⟨t', n'⟩, _, _⟩ := h
      simp [Hop.to]
    by_cases hn : (pullEnds id ins fun g => g.to = h.to).head? = none
    · left
      have := pullEnds_head_none.mp hn
      refine ⟨?_, hn, ?_⟩
      · intro g hg
        obtain ⟨x, hx, rfl⟩ := List.mem_map.mp hg
        rw [ne_eq, ← key]
        simpa using this x hx
      · rw [pullEnds_snoc, List.head?_append, hn]; simp
    · right
      have he : ∃ g ∈ ins.map Prod.fst, g.to = h.to := by
        apply Classical.byContradiction
        intro hne
        apply hn
        rw [pullEnds_head_none]
        intro x hx
        simp only [decide_eq_false_iff_not]
        exact fun e => hne ⟨x.1, List.mem_map.mpr ⟨x, hx, rfl⟩, e⟩
      refine ⟨?_, Option.isSome_iff_ne_none.mpr hn, he⟩
      obtain ⟨g, hg, e⟩ := he
      exact fun hall => hall g hg ((key g).mp e)
  cases hty : h.dst.ty with
  | faucet =>
    have hr : h.to.1 = .faucet := hty
    right
    refine ⟨by rw [CanReceive, hty]; exact fun h => h, .unsupportedForControl, ?_, rfl, hr⟩
    rw [expected_faucet _ _ _ _ hr]; rfl
  | junction =>
    have hr : h.to.1 = .junction := hty
    left
    refine ⟨by rw [CanReceive, hty]; trivial, ?_⟩
    rw [expected_junction _ _ _ _ hr, expected_junction _ _ _ _ hr, pullEnds_snoc]
    simp [Comp.addInput]
  | launch =>
    have hr : h.to.1 = .launch := hty
    by_cases hp : h.input.priority = 0
    · rcases once with ⟨a, b, d⟩ | ⟨a, b, d⟩
      · left
        refine ⟨by rw [CanReceive, hty]; exact ⟨hp, a⟩, ?_⟩
        rw [expected_launch _ _ _ _ hr, expected_launch _ _ _ _ hr, b, d]
        simp [Comp.addInput, hp]
      · right
        refine ⟨by rw [CanReceive, hty]; exact fun hc => a hc.2, .alreadyAllocated, ?_, ?_⟩
        · rw [expected_launch _ _ _ _ hr]
          simp [Comp.addInput, b, hp]
        · obtain ⟨g, hg, e⟩ := d
          exact ⟨rfl, by simp [hr], by simp [hr], g, hg, e⟩
    · right
      refine ⟨by rw [CanReceive, hty]; exact fun hc => hp hc.1, .unsupportedPriority h.input.priority, ?_, ?_⟩
      · rw [expected_launch _ _ _ _ hr]; simp [Comp.addInput, hp]
      · exact ⟨rfl, by simp [hr], by simp [hr], rfl, hp⟩
  | buffer =>
    have hr : h.to.1 = .buffer := hty
    by_cases hp : h.input.priority = 0
    · rcases once with ⟨a, b, d⟩ | ⟨a, b, d⟩
      · left
        refine ⟨by rw [CanReceive, hty]; exact ⟨hp, a⟩, ?_⟩
        rw [expected_buffer _ _ _ _ hr, expected_buffer _ _ _ _ hr, b, d]
        simp [Comp.addInput, hp]
      · right
        refine ⟨by rw [CanReceive, hty]; exact fun hc => a hc.2, .alreadyAllocated, ?_, ?_⟩
        · rw [expected_buffer _ _ _ _ hr]
          simp [Comp.addInput, b, hp]
        · obtain ⟨g, hg, e⟩ := d
          exact ⟨rfl, by simp [hr], by simp [hr], g, hg, e⟩
    · right
      refine ⟨by rw [CanReceive, hty]; exact fun hc => hp hc.1, .unsupportedPriority h.input.priority, ?_, ?_⟩
      · rw [expected_buffer _ _ _ _ hr]; simp [Comp.addInput, hp]
      · exact ⟨rfl, by simp [hr], by simp [hr], rfl, hp⟩
  | drain =>
    have hr : h.to.1 = .drain := hty
    by_cases hp : h.input.priority = 0
    · rcases once with ⟨a, b, d⟩ | ⟨a, b, d⟩
      · left
        refine ⟨by rw [CanReceive, hty]; exact ⟨hp, a⟩, ?_⟩
        rw [expected_drain _ _ _ _ hr, expected_drain _ _ _ _ hr, b, d]
        simp [Comp.addInput, hp]
      · right
        refine ⟨by rw [CanReceive, hty]; exact fun hc => a hc.2, .alreadyAllocated, ?_, ?_⟩
        · rw [expected_drain _ _ _ _ hr]
          simp [Comp.addInput, b, hp]
        · obtain ⟨g, hg, e⟩ := d
          exact ⟨rfl, by simp [hr], by simp [hr], g, hg, e⟩
    · right
      refine ⟨by rw [CanReceive, hty]; exact fun hc => hp hc.1, .unsupportedPriority h.input.priority, ?_, ?_⟩
      · rw [expected_drain _ _ _ _ hr]; simp [Comp.addInput, hp]
      · exact ⟨rfl, by simp [hr], by simp [hr], rfl, hp⟩
  | regulator =>
    have hr : h.to.1 = .regulator := hty
    by_cases hp : h.input.priority = 0
    · rcases once with ⟨a, b, d⟩ | ⟨a, b, d⟩
      · left
        refine ⟨by rw [CanReceive, hty]; exact ⟨hp, a⟩, ?_⟩
        rw [expected_regulator _ _ _ _ hr, expected_regulator _ _ _ _ hr, b, d]
        simp [Comp.addInput, hp]
      · right
        refine ⟨by rw [CanReceive, hty]; exact fun hc => a hc.2, .alreadyAllocated, ?_, ?_⟩
        · rw [expected_regulator _ _ _ _ hr]
          simp [Comp.addInput, b, hp]
        · obtain ⟨g, hg, e⟩ := d
          exact ⟨rfl, by simp [hr], by simp [hr], g, hg, e⟩
    · right
      refine ⟨by rw [CanReceive, hty]; exact fun hc => hp hc.1, .unsupportedPriority h.input.priority, ?_, ?_⟩
      · rw [expected_regulator _ _ _ _ hr]; simp [Comp.addInput, hp]
      · exact ⟨rfl, by simp [hr], by simp [hr], rfl, hp⟩

/-! ## The loop -/

/-- The state after the components in `ms` have been mentioned and the ends of some hops handed out. -/
structure WireInv (c : Config) (ms : CompRef → Prop) (outs ins : List (Hop × Nat)) (w : Waiter) (L : Map LaunchConfig) : Prop where
  comps : ∀ r, ms r → w.comps.get r = some (expected c w.idOf outs ins r)
  only : ∀ r, ¬ ms r → w.comps.get r = none
  ids : ∀ r, (∃ i, w.getId r = some i) ↔ ms r
  names : ∀ r i, w.getId r = some i ↔ w.names.get i = some r
  below : ∀ r i, w.getId r = some i → i < w.id
  outsIn : ∀ x ∈ outs, ms x.1.from ∧ ms x.1.to
  insIn : ∀ x ∈ ins, ms x.1.from ∧ ms x.1.to
  chans : w.chans = outs.length
  taken : ∀ n, ¬ ms (.launch, n) → L.get n = c.launch.get n
  settings : w.settings = []

theorem WireInv.getId {c ms outs ins w L} (h : WireInv c ms outs ins w L) {r : CompRef} (hr : ms r) : w.getId r = some (w.idOf r) := by
  obtain ⟨i, hi⟩ := (h.ids r).mpr hr
  simp [Waiter.idOf, hi]

/-- A new component. -/
theorem WireInv.add {c ms outs ins w L} (h : WireInv c ms outs ins w L) {r : CompRef} (hr : ¬ ms r) {L' : Map LaunchConfig}
    (hL : ∀ n, ¬ (ms (.launch, n) ∨ (.launch, n) = r) → L'.get n = L.get n) {k : Comp}
    (hk : ∀ id : CompRef → Nat, id r = w.id → k = expected c id outs ins r) :
    WireInv c (fun x => ms x ∨ x = r) outs ins { (w.incrId r).2 with comps := (w.incrId r).2.comps.put r k } L' ∧
    Waiter.idOf { (w.incrId r).2 with comps := (w.incrId r).2.comps.put r k } r = w.id := by
  have hnone : w.ids.get r = none := by
    cases hg : w.ids.get r with
    | none => rfl
    | some i => exact absurd ((h.ids r).mp ⟨i, hg⟩) hr
  have hget : ∀ x, (w.ids.orInsert r w.id).get x = if x = r then some w.id else w.ids.get x := fun x => Table.get_orInsert _ _ _ _ hnone
  generalize hw : ({ (w.incrId r).2 with comps := (w.incrId r).2.comps.put r k } : Waiter) = w'
  have hids : ∀ x, w'.getId x = if x = r then some w.id else w.getId x := by
    intro x; subst hw; exact hget x
  have hidr : w'.idOf r = w.id := by simp [Waiter.idOf, hids]
  have hido : ∀ x, x ≠ r → w'.idOf x = w.idOf x := by
    intro x hx; simp [Waiter.idOf, hids, hx]
  have hcomps : ∀ x, w'.comps.get x = if x = r then some k else w.comps.get x := by
    intro x; subst hw; exact Table.get_put _ _ _ _
  have hne : ∀ x, ms x → x ≠ r := fun x hx e => hr (e ▸ hx)
  refine ⟨?_, hidr⟩
  refine ⟨?_, ?_, ?_, ?_, ?_, ?_, ?_, ?_, ?_, ?_⟩
  · rintro x (hx | rfl)
    · rw [hcomps, if_neg (hne x hx), h.comps x hx]
      congr 1
      refine expected_congr c (fun y hy => ?_) (fun y hy => ?_) ?_
      · exact ⟨(hido _ (hne _ (h.outsIn y hy).1)).symm, (hido _ (hne _ (h.outsIn y hy).2)).symm⟩
      · exact ⟨(hido _ (hne _ (h.insIn y hy).1)).symm, (hido _ (hne _ (h.insIn y hy).2)).symm⟩
      · exact (hido _ (hne _ hx)).symm
    · rw [hcomps, if_pos rfl, hk w'.idOf hidr]
  · intro x hx
    rw [hcomps, if_neg (fun e => hx (Or.inr e))]
    exact h.only x (fun hm => hx (Or.inl hm))
  · intro x
    rw [hids]
    by_cases hx : x = r
    · simp [hx]
    · rw [if_neg hx, h.ids x]; simp [hx]
  · intro x i
    rw [hids]
    have : w'.names.get i = if i = w.id then some r else w.names.get i := by subst hw; exact Table.get_put _ _ _ _
    rw [this]
    by_cases hx : x = r
    · subst hx
      rw [if_pos rfl]
      by_cases hi : i = w.id
      · simp [hi]
      · rw [if_neg hi]
        constructor
        · intro e; cases e; exact absurd rfl hi
        · intro e; exact absurd ((h.ids x).mp ⟨i, (h.names x i).mpr e⟩) hr
    · rw [if_neg hx]
      by_cases hi : i = w.id
      · rw [if_pos hi]
        constructor
        · intro e; exact absurd (h.below x i e) (by omega)
        · intro e; cases e; exact absurd rfl hx
      · rw [if_neg hi]; exact h.names x i
  · intro x i hx
    rw [hids] at hx
    have : w'.id = w.id + 1 := by subst hw; rfl
    rw [this]
    by_cases hx' : x = r
    · rw [if_pos hx'] at hx; cases hx; omega
    · rw [if_neg hx'] at hx; have := h.below x i hx; omega
  · intro x hx; exact ⟨Or.inl (h.outsIn x hx).1, Or.inl (h.outsIn x hx).2⟩
  · intro x hx; exact ⟨Or.inl (h.insIn x hx).1, Or.inl (h.insIn x hx).2⟩
  · rw [← h.chans]; subst hw; rfl
  · intro n hn
    rw [hL n hn]
    exact h.taken n (fun hm => hn (Or.inl hm))
  · rw [← h.settings]; subst hw; rfl

theorem WireInv.congr {c ms ms' outs ins w L} (h : WireInv c ms outs ins w L) (he : ∀ x, ms x ↔ ms' x) : WireInv c ms' outs ins w L := by
  have : ms = ms' := funext fun x => propext (he x)
  exact this ▸ h

/-- What an error says about a launch is so. -/
def LaunchReason (c : Config) (r : CompRef) (e : WireError) : Prop :=
  r.1 = .launch ∧ ((e = .noLaunchConfig r.2 ∧ c.launch.get r.2 = none) ∨ (e = .noCommand r.2 ∧ ∃ cfg, c.launch.get r.2 = some cfg ∧ cfg.command = none))

theorem findOrConstruct_spec {c ms outs ins w L} (h : WireInv c ms outs ins w L) (r : CompRef) (last : Option (Nat × OutputPort))
    (hrun : ms r → c.Runnable r) :
    (c.Runnable r ∧ ∃ w' L', findOrConstruct c ⟨w, L, last⟩ r = .ok (w'.idOf r, w', L') ∧ WireInv c (fun x => ms x ∨ x = r) outs ins w' L' ∧
      ∀ x, ms x → w'.idOf x = w.idOf x) ∨
    (¬ c.Runnable r ∧ ∃ e, findOrConstruct c ⟨w, L, last⟩ r = .err e ∧ LaunchReason c r e) := by
  by_cases hm : ms r
  · left
    refine ⟨hrun hm, w, L, ?_, h.congr (fun x => ⟨Or.inl, fun hx => hx.elim (fun hx => hx) (fun e => e ▸ hm)⟩), fun _ _ => rfl⟩
    simp only [findOrConstruct, h.getId hm]
  · have hn : w.getId r = none := by
      cases hg : w.getId r with
      | none => rfl
      | some i => exact absurd ((h.ids r).mp ⟨i, hg⟩) hm
    have hp : ∀ (id : CompRef → Nat) q, (∀ g : Hop, q g = true → g.from = r) → pushEnds id outs q = [] := by
      intro id q hq
      refine pushEnds_none fun x hx => ?_
      cases hb : q x.1 with
      | false => rfl
      | true => exact absurd ((hq _ hb) ▸ (h.outsIn x hx).1) hm
    have hq : ∀ (id : CompRef → Nat), pullEnds id ins (fun g => g.to = r) = [] := by
      intro id
      refine pullEnds_none fun x hx => ?_
      simp only [decide_eq_false_iff_not]
      exact fun e => hm (e ▸ (h.insIn x hx).2)
    have hp' : ∀ (id : CompRef → Nat), pushEnds id outs (fun g => g.from = r) = [] := fun id => hp id _ (by simp)
    have keep : ∀ n, ¬ (ms (.launch, n) ∨ (.launch, n) = r) → L.get n = L.get n := fun _ _ => rfl
    have same : ∀ k : Comp, ∀ x, ms x → Waiter.idOf { (w.incrId r).2 with comps := (w.incrId r).2.comps.put r k } x = w.idOf x := by
      intro k x hx
      have : x ≠ r := fun e => hm (e ▸ hx)
      simp only [Waiter.idOf, Waiter.getId, Waiter.incrId]
      rw [Table.get_orInsert _ _ _ _ hn, if_neg this]
    simp only [findOrConstruct, hn, construct]
    cases hty : r.1 with
    | faucet =>
      left
      have := h.add hm keep (k := .faucet ((c.faucet.get r.2).getD []) none) (fun id _ => by rw [expected_faucet _ _ _ _ hty, hp' id]; rfl)
      exact ⟨fun e => by simp [hty] at e, _, _, by rw [this.2]; rfl, this.1, same _⟩
    | drain =>
      left
      have := h.add hm keep (k := .drain ((c.drain.get r.2).getD []) none) (fun id _ => by rw [expected_drain _ _ _ _ hty, hq id]; rfl)
      exact ⟨fun e => by simp [hty] at e, _, _, by rw [this.2]; rfl, this.1, same _⟩
    | regulator =>
      left
      have := h.add hm keep (k := .regulator none none false) (fun id _ => by rw [expected_regulator _ _ _ _ hty, hp' id, hq id]; rfl)
      exact ⟨fun e => by simp [hty] at e, _, _, by rw [this.2]; rfl, this.1, same _⟩
    | buffer =>
      left
      have := h.add hm keep (k := .buffer none none false) (fun id _ => by rw [expected_buffer _ _ _ _ hty, hp' id, hq id]; rfl)
      exact ⟨fun e => by simp [hty] at e, _, _, by rw [this.2]; rfl, this.1, same _⟩
    | junction =>
      left
      have := h.add hm keep (k := .junction [] []) (fun id _ => by rw [expected_junction _ _ _ _ hty, hp' id, hq id])
      exact ⟨fun e => by simp [hty] at e, _, _, by rw [this.2]; rfl, this.1, same _⟩
    | launch =>
      have hr2 : r = (.launch, r.2) := by rw [← hty]
      have ht : L.get r.2 = c.launch.get r.2 := h.taken r.2 (by rw [← hr2]; exact hm)
      simp only [ht]
      cases hc : c.launch.get r.2 with
      | none =>
        right
        refine ⟨fun e => ?_, _, rfl, hty, Or.inl ⟨rfl, hc⟩⟩
        obtain ⟨cfg, h1, _⟩ := e hty
        rw [hc] at h1; cases h1
      | some cfg =>
        cases hcmd : cfg.command with
        | none =>
          right
          refine ⟨fun e => ?_, _, by simp [hcmd], hty, Or.inr ⟨rfl, cfg, hc, hcmd⟩⟩
          obtain ⟨cfg', h1, h2⟩ := e hty
          rw [hc] at h1; cases h1; exact h2 hcmd
        | some cmd =>
          left
          have hsrc : ∀ (id : CompRef → Nat) p, pushEnds id outs (fun g => g.src = ⟨.launch, r.2, p⟩) = [] := by
            intro id p
            refine hp id _ fun g hg => ?_
            have : g.src = ⟨.launch, r.2, p⟩ := by simpa using hg
            rw [hr2]; simp [Hop.from, this]
          have := h.add hm (L' := L.erase r.2) (fun n hn => by
            rw [erase_get, if_neg]
            intro e; subst e
            exact hn (Or.inr hr2.symm)) (k := newLaunch w.id cfg cmd) (fun id hid => by
              rw [expected_launch _ _ _ _ hty, hq id, hsrc, hsrc, hsrc, hid, hc]
              simp [newLaunch, LaunchConfig.orNone, hcmd])
          refine ⟨fun _ => ⟨cfg, hc, by simp [hcmd]⟩, _, _, ?_, this.1, same _⟩
          rw [this.2]
          simp only [Waiter.incrId, hcmd]

theorem WireInv.compOf {c ms outs ins w L} (h : WireInv c ms outs ins w L) {r : CompRef} (hr : ms r) :
    w.compOf (w.idOf r) = some (r, expected c w.idOf outs ins r) := by
  simp only [Waiter.compOf, (h.names r _).mp (h.getId hr), h.comps r hr]

theorem join_spec {c ms w L} {hs : List (Hop × Nat)} (h : WireInv c ms hs hs w L) {x : Hop} (hf : ms x.from) (ht : ms x.to) :
    (CanSend (hs.map Prod.fst) x ∧ CanReceive (hs.map Prod.fst) x ∧
      ∃ w', w.join (w.idOf x.from) x.src.port (w.idOf x.to) x.input = .ok w' ∧ WireInv c ms (hs ++ [(x, hs.length)]) (hs ++ [(x, hs.length)]) w' L) ∨
    (¬ (CanSend (hs.map Prod.fst) x ∧ CanReceive (hs.map Prod.fst) x) ∧ ∃ e, w.join (w.idOf x.from) x.src.port (w.idOf x.to) x.input = .error e ∧
      Reason c (hs.map Prod.fst) x (wireError w e)) := by
  simp only [Waiter.join, Waiter.getSrcPull, h.compOf hf, h.chans]
  rcases addOutput_expected c (id := w.idOf) (outs := hs) (ins := hs) (h := x) (i := hs.length) with ⟨hc, ho⟩ | ⟨hc, e, ho, hwhy⟩
  · rw [ho]
    simp only
    -- the state between the two halves
    generalize hw : ({ w with comps := w.comps.put x.from (expected c w.idOf (hs ++ [(x, hs.length)]) hs x.from), chans := hs.length + 1 } : Waiter) = w1
    have hg1 : ∀ r, w1.getId r = w.getId r := by intro r; subst hw; rfl
    have hi1 : w1.idOf = w.idOf := by funext r; simp only [Waiter.idOf, hg1]
    have h1 : WireInv c ms (hs ++ [(x, hs.length)]) hs w1 L := by
      have hcomps : ∀ r, w1.comps.get r = if r = x.from then some (expected c w.idOf (hs ++ [(x, hs.length)]) hs x.from) else w.comps.get r := by
        intro r; subst hw; exact Table.get_put _ _ _ _
      refine ⟨?_, ?_, ?_, ?_, ?_, ?_, h.insIn, ?_, h.taken, ?_⟩
      · intro r hr
        rw [hcomps, hi1]
        by_cases e : r = x.from
        · rw [if_pos e, e]
        · rw [if_neg e, h.comps r hr, expected_snoc_other c (fun e' => e e'.symm)]
      · intro r hr
        rw [hcomps, if_neg (fun e : r = x.from => hr (e.symm ▸ hf))]
        exact h.only r hr
      · intro r; simp only [hg1]; exact h.ids r
      · intro r i; rw [hg1, h.names]; subst hw; rfl
      · intro r i hri; rw [hg1] at hri; have := h.below r i hri; subst hw; exact this
      · intro y hy
        rcases List.mem_append.mp hy with hy | hy
        · exact h.outsIn y hy
        · simp only [List.mem_singleton] at hy; subst hy; exact ⟨hf, ht⟩
      · subst hw; simp
      · rw [← h.settings]; subst hw; rfl
    have hcomp := h1.compOf ht
    rw [hi1] at hcomp
    simp only [Waiter.giveInput, hcomp]
    rcases addInput_expected c (id := w.idOf) (outs := hs ++ [(x, hs.length)]) (ins := hs) (h := x) (i := hs.length) with ⟨hc', ho'⟩ | ⟨hc', e, ho', hwhy⟩
    · left
      refine ⟨hc, hc', ?_⟩
      rw [show (⟨w.idOf x.from, w.idOf x.to, hs.length⟩ : PullEnd) = x.pullEnd w.idOf hs.length from rfl, ho']
      refine ⟨_, rfl, ?_⟩
      generalize hw2 : ({ w1 with comps := w1.comps.put x.to (expected c w.idOf (hs ++ [(x, hs.length)]) (hs ++ [(x, hs.length)]) x.to) } : Waiter) = w2
      have hg2 : ∀ r, w2.getId r = w1.getId r := by intro r; subst hw2; rfl
      have hi2 : w2.idOf = w.idOf := by funext r; rw [← hi1]; simp only [Waiter.idOf, hg2]
      have hcomps : ∀ r, w2.comps.get r = if r = x.to then some (expected c w.idOf (hs ++ [(x, hs.length)]) (hs ++ [(x, hs.length)]) x.to) else w1.comps.get r := by
        intro r; subst hw2; exact Table.get_put _ _ _ _
      refine ⟨?_, ?_, ?_, ?_, ?_, h1.outsIn, h1.outsIn, ?_, h1.taken, ?_⟩
      · intro r hr
        rw [hcomps, hi2]
        by_cases e : r = x.to
        · rw [if_pos e, e]
        · rw [if_neg e, h1.comps r hr, hi1, expected_ins_other c (fun e' => e e'.symm)]
      · intro r hr
        rw [hcomps, if_neg (fun e : r = x.to => hr (e.symm ▸ ht))]
        exact h1.only r hr
      · intro r; simp only [hg2]; exact h1.ids r
      · intro r i; rw [hg2, h1.names]; subst hw2; rfl
      · intro r i hri; rw [hg2] at hri; have := h1.below r i hri; subst hw2; exact this
      · rw [← h1.chans]; subst hw2; rfl
      · rw [← h1.settings]; subst hw2; rfl
    · right
      refine ⟨fun hh => hc' hh.2, ?_⟩
      rw [show (⟨w.idOf x.from, w.idOf x.to, hs.length⟩ : PullEnd) = x.pullEnd w.idOf hs.length from rfl, ho']
      refine ⟨_, rfl, ?_⟩
      simp only [wireError, (h.names _ _).mp (h.getId ht)]
      exact hwhy
  · right
    refine ⟨fun hh => hc hh.1, ?_⟩
    rw [ho]
    refine ⟨_, rfl, ?_⟩
    simp only [wireError, (h.names _ _).mp (h.getId hf)]
    exact hwhy

/-- Both connections of a hop. -/
def Hop.pair (h : Hop) : List Connection := [.start h.src.ty h.src.name h.src.port h.set, .end h.dst.ty h.dst.name h.input h.dset]

theorem launchReason_reason {c : Config} {pre : List Hop} {x : Hop} {r : CompRef} {e : WireError} (hr : x.from = r ∨ x.to = r) (h : LaunchReason c r e) :
    Reason c pre x e := by
  obtain ⟨hl, h | h⟩ := h
  · obtain ⟨rfl, h⟩ := h
    refine ⟨?_, h⟩
    rcases hr with rfl | rfl
    · left; rw [← hl]
    · right; rw [← hl]
  · obtain ⟨rfl, h⟩ := h
    refine ⟨?_, h⟩
    rcases hr with rfl | rfl
    · left; rw [← hl]
    · right; rw [← hl]

theorem wire_hop {c : Config} {w L} {pre : List Hop} (h : WireInv c (Mentioned pre) pre.zipIdx pre.zipIdx w L) (hrun : ∀ r, Mentioned pre r → c.Runnable r) (x : Hop) (rest : List Connection) :
    (Makeable c pre x ∧ ∃ w' L', wireAll c ⟨w, L, none⟩ (x.pair ++ rest) = wireAll c ⟨w', L', none⟩ rest ∧
      WireInv c (Mentioned (pre ++ [x])) (pre ++ [x]).zipIdx (pre ++ [x]).zipIdx w' L') ∨
    (¬ Makeable c pre x ∧ ∃ e, wireAll c ⟨w, L, none⟩ (x.pair ++ rest) = .err e ∧ Reason c pre x e) := by
  have hmap : pre.zipIdx.map Prod.fst = pre := by simp [List.zipIdx_map_fst]
  simp only [Hop.pair, List.cons_append, List.nil_append, wireAll, wireStep, Connection.ty, Connection.name, Connection.inputPort, Connection.outputPort]
  rcases findOrConstruct_spec h x.from none (hrun _) with ⟨r1, w1, L1, e1, h1, i1⟩ | ⟨r1, e, e1, hwhy⟩
  · rw [show findOrConstruct c ⟨w, L, none⟩ (x.src.ty, x.src.name) = _ from e1]
    simp only [joinLast, nextLast]
    have hrun1 : (Mentioned pre x.to ∨ x.to = x.from) → c.Runnable x.to := by
      rintro (hm | e)
      · exact hrun _ hm
      · rw [e]; exact r1
    rcases findOrConstruct_spec h1 x.to (some (w1.idOf x.from, x.src.port)) hrun1 with ⟨r2, w2, L2, e2, h2, i2⟩ | ⟨r2, e, e2, hwhy⟩
    · rw [show findOrConstruct c ⟨w1, L1, some (w1.idOf x.from, x.src.port)⟩ (x.dst.ty, x.dst.name) = _ from e2]
      simp only [joinLast, nextLast]
      rw [← i2 x.from (Or.inr rfl)]
      rcases join_spec h2 (x := x) (Or.inl (Or.inr rfl)) (Or.inr rfl) with ⟨s1, s2, w3, e3, h3⟩ | ⟨s, e, e3, hwhy⟩
      · left
        rw [hmap] at s1 s2
        refine ⟨⟨r1, r2, s1, s2⟩, w3, L2, ?_, ?_⟩
        · rw [e3]
        · have : (pre ++ [x]).zipIdx = pre.zipIdx ++ [(x, pre.zipIdx.length)] := by simp [List.zipIdx_append]
          rw [this]
          refine h3.congr fun r => ?_
          simp only [Mentioned, List.mem_append, List.mem_singleton]
          constructor
          · rintro ((⟨g, hg, e⟩ | rfl) | rfl)
            · exact ⟨g, Or.inl hg, e⟩
            · exact ⟨x, Or.inr rfl, Or.inl rfl⟩
            · exact ⟨x, Or.inr rfl, Or.inr rfl⟩
          · rintro ⟨g, hg | rfl, e⟩
            · exact Or.inl (Or.inl ⟨g, hg, e⟩)
            · rcases e with rfl | rfl
              · exact Or.inl (Or.inr rfl)
              · exact Or.inr rfl
      · right
        rw [hmap] at s hwhy
        refine ⟨fun hm => s ⟨hm.2.2.1, hm.2.2.2⟩, _, ?_, hwhy⟩
        rw [e3]
    · right
      refine ⟨fun hm => r2 hm.2.1, e, ?_, launchReason_reason (Or.inr rfl) hwhy⟩
      rw [show findOrConstruct c ⟨w1, L1, some (w1.idOf x.from, x.src.port)⟩ (x.dst.ty, x.dst.name) = _ from e2]
  · right
    refine ⟨fun hm => r1 hm.1, e, ?_, launchReason_reason (Or.inl rfl) hwhy⟩
    rw [show findOrConstruct c ⟨w, L, none⟩ (x.src.ty, x.src.name) = _ from e1]

theorem wire_hops {c : Config} (hs : List Hop) : ∀ {w L} {pre : List Hop} (_ : WireInv c (Mentioned pre) pre.zipIdx pre.zipIdx w L) (_ : ∀ r, Mentioned pre r → c.Runnable r),
    ((∀ a x b, hs = a ++ x :: b → Makeable c (pre ++ a) x) ∧ ∃ w' L', wireAll c ⟨w, L, none⟩ (hs.flatMap Hop.pair) = .ok ⟨w', L', none⟩ ∧
      WireInv c (Mentioned (pre ++ hs)) (pre ++ hs).zipIdx (pre ++ hs).zipIdx w' L') ∨
    (∃ a x b e, hs = a ++ x :: b ∧ (∀ a' x' b', a = a' ++ x' :: b' → Makeable c (pre ++ a') x') ∧ ¬ Makeable c (pre ++ a) x ∧
      wireAll c ⟨w, L, none⟩ (hs.flatMap Hop.pair) = .err e ∧ Reason c (pre ++ a) x e) := by
  induction hs with
  | nil =>
    intro w L pre h hrun
    left
    refine ⟨by intro a x b h; simp at h, w, L, rfl, by simpa using h⟩
  | cons x hs ih =>
    intro w L pre h hrun
    simp only [List.flatMap_cons]
    rcases wire_hop h hrun x (hs.flatMap Hop.pair) with ⟨hm, w1, L1, e1, h1⟩ | ⟨hm, e, e1, hwhy⟩
    · have hrun1 : ∀ r, Mentioned (pre ++ [x]) r → c.Runnable r := by
        rintro r ⟨g, hg, e⟩
        rcases List.mem_append.mp hg with hg | hg
        · exact hrun r ⟨g, hg, e⟩
        · simp only [List.mem_singleton] at hg; subst hg
          rcases e with rfl | rfl
          · exact hm.1
          · exact hm.2.1
      rcases ih h1 hrun1 with ⟨hall, w2, L2, e2, h2⟩ | ⟨a, y, b, e, heq, hall, hno, e2, hwhy⟩
      · left
        refine ⟨?_, w2, L2, by rw [e1, e2], by simpa using h2⟩
        intro a y b heq
        cases a with
        | nil => simp only [List.nil_append, List.cons.injEq] at heq; rw [List.append_nil, ← heq.1]; exact hm
        | cons a0 a =>
          simp only [List.cons_append, List.cons.injEq] at heq
          rw [← heq.1]
          simpa using hall a y b heq.2
      · right
        refine ⟨x :: a, y, b, e, by rw [heq]; rfl, ?_, by simpa using hno, by rw [e1, e2], by simpa using hwhy⟩
        intro a' x' b' heq'
        cases a' with
        | nil => simp only [List.nil_append, List.cons.injEq] at heq'; rw [List.append_nil, ← heq'.1]; exact hm
        | cons a0 a' =>
          simp only [List.cons_append, List.cons.injEq] at heq'
          rw [← heq'.1]
          simpa using hall a' x' b' heq'.2
    · right
      exact ⟨[], x, hs, e, rfl, by intro a x b h; simp at h, by simpa using hm, e1, by simpa using hwhy⟩

theorem wireInv_new (c : Config) : WireInv c (Mentioned []) ([] : List Hop).zipIdx ([] : List Hop).zipIdx Waiter.new c.launch := by
  have hm : ∀ r, ¬ Mentioned [] r := by rintro r ⟨h, hh, _⟩; simp at hh
  refine ⟨fun r hr => absurd hr (hm r), fun r _ => rfl, fun r => ?_, fun r i => ?_, fun r i h => ?_, by simp, by simp, rfl, fun _ _ => rfl, rfl⟩
  · constructor
    · rintro ⟨i, h⟩; simp [Waiter.getId, Waiter.new, Table.get] at h
    · exact fun h => absurd h (hm r)
  · simp [Waiter.getId, Waiter.new, Table.get]
  · simp [Waiter.getId, Waiter.new, Table.get] at h

theorem allConnections_conns (R : Map Hop) : allConnections (conns R) = some ((R.map (·.2)).flatMap Hop.pair) := by
  induction R with
  | nil => rfl
  | cons x R ih =>
    simp only [conns, List.map_cons, Hop.conn, allConnections] at ih ⊢
    rw [ih]; rfl

theorem configureOne_comps (w : Waiter) (x : Str × RegulatorConfig) :
    (configureOne w x).comps = w.comps ∧ (configureOne w x).ids = w.ids ∧ (configureOne w x).names = w.names := by
  unfold configureOne
  split
  · exact ⟨rfl, rfl, rfl⟩
  · unfold Waiter.configureRegulator
    split <;> exact ⟨rfl, rfl, rfl⟩

theorem configure_comps (l : Map RegulatorConfig) (w : Waiter) :
    (l.foldl configureOne w).comps = w.comps ∧ (l.foldl configureOne w).ids = w.ids ∧ (l.foldl configureOne w).names = w.names := by
  induction l generalizing w with
  | nil => exact ⟨rfl, rfl, rfl⟩
  | cons x l ih =>
    obtain ⟨a, b, d⟩ := ih (configureOne w x)
    obtain ⟨a', b', d'⟩ := configureOne_comps w x
    exact ⟨a.trans a', b.trans b', d.trans d'⟩

end Verif
