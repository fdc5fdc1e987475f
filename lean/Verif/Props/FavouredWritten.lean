import Verif.Props.EndlessWritten
/-!
# C105: what goes on by the least numbers, by the configuration as it is written
-/
namespace Verif
section
variable {c : Config} {hs : List Hop} {M R R' : Map Hop} {S : List SIns} {E : List EIns} {T : List Spy} {a : Who}

/-- From there on, every connection has the least number of those that end at the same place. -/
def FavouredEnds (hs : List Hop) (a : Who) : Prop :=
  ∀ h ∈ hs, ¬ h.isExit → (a = h.writer ∨ Relation.TransGen (Feeds hs) a h.writer) → ∀ f ∈ hs, f.dst = h.dst → h.input.priority ≤ f.input.priority

theorem EvenEnds.favoured (h : EvenEnds hs) (a : Who) : FavouredEnds hs a := by
  intro g hg _ _ f hf e
  rw [h f hf g hg e]
  exact Int.le_refl _

/-- What can be reached in what is made of the configuration, in terms of the configuration as it is written. -/
inductive Traced (hs : List Hop) (S : List SIns) (E : List EIns) (a : Who) : Who → Prop
  | here {z : Who} : (a = z ∨ Relation.TransGen (Feeds hs) a z) → Traced hs S E a z
  | start {x : SIns} : x ∈ S → (∀ h ∈ hs, h.src = x.ref → (a = h.writer ∨ Relation.TransGen (Feeds hs) a h.writer) ∧ ¬ h.isExit) → Traced hs S E a (atJunction x.junction)
  | merge {y : EIns} : y ∈ E → (∀ h ∈ hs, h.dst = y.ref → Relation.TransGen (Feeds hs) a h.reader) → Traced hs S E a (atJunction y.junction)

theorem atJunction_inj {x y : Str} (h : atJunction x = atJunction y) : x = y := by
  simpa [atJunction] using h

/-- The hop as it is written is reached. -/
theorem Laid.origin (P : Laid c M R R' S E T) (hhs : ∀ h, h ∈ hs ↔ ∃ b i, c.HopOf b i h) (hS : ∀ x ∈ S, a ≠ atJunction x.junction) (hE : ∀ y ∈ E, a ≠ atJunction y.junction)
    {z : Who} (hz : Traced hs S E a z) : (∀ {h}, h ∈ hs → z = h.writer → a = z ∨ Relation.TransGen (Feeds hs) a z) ∧
      (∀ {x}, x ∈ S → z = atJunction x.junction → ∀ h ∈ hs, h.src = x.ref → (a = h.writer ∨ Relation.TransGen (Feeds hs) a h.writer) ∧ ¬ h.isExit) ∧
      (∀ {y}, y ∈ E → z = atJunction y.junction → ∀ h ∈ hs, h.dst = y.ref → Relation.TransGen (Feeds hs) a h.reader) := by
  have known : ∀ {h}, h ∈ hs → ∃ k, M.get k = some h := by
    intro h hh
    obtain ⟨b, i, h1⟩ := (hhs h).mp hh
    obtain ⟨k, hk⟩ := counted_exists b i
    exact ⟨k, (P.hops k h).mpr ⟨b, i, h1, hk⟩⟩
  have oldW : ∀ {h J}, h ∈ hs → h.writer = atJunction J → JunctionIn M J := by
    intro h J hh e
    obtain ⟨k, hk⟩ := known hh
    have := writer_atJunction e
    simp only [Hop.from, Prod.mk.injEq] at this
    exact ⟨k, h, hk, Or.inl this⟩
  have oldR : ∀ {h J}, h ∈ hs → h.reader = atJunction J → JunctionIn M J := by
    intro h J hh e
    obtain ⟨k, hk⟩ := known hh
    have := reader_atJunction e
    simp only [Hop.to, Prod.mk.injEq] at this
    exact ⟨k, h, hk, Or.inr this⟩
  have reached : ∀ {J}, Relation.TransGen (Feeds hs) a (atJunction J) → JunctionIn M J := by
    intro J h
    have one : ∀ {b z}, Feeds hs b z → z = atJunction J → JunctionIn M J := by
      intro b z hf e
      cases hf with
      | hop h1 _ => exact oldR h1 e
      | buffer _ => simp [atJunction] at e
    cases h with
    | single h => exact one h rfl
    | tail _ h => exact one h rfl
  cases hz with
  | here h =>
    refine ⟨fun _ _ => h, fun {x} hx e => ?_, fun {y} hy e => ?_⟩
    · subst e
      rcases h with h | h
      · exact absurd h (hS x hx)
      · exact absurd (reached h) (P.ins.newNames.1 x hx)
    · subst e
      rcases h with h | h
      · exact absurd h (hE y hy)
      · exact absurd (reached h) (P.ins.newNames.2 y hy)
  | @start x hx h =>
    refine ⟨fun hh e => absurd (oldW hh e.symm) (P.ins.newNames.1 x hx), fun {x'} hx' e => ?_, fun {y} hy e => absurd (atJunction_inj e) (P.ins.startEndNames hx hy)⟩
    rw [P.ins.uniqueStart hx' hx (Or.inl (atJunction_inj e).symm)]
    exact h
  | @merge y hy h =>
    refine ⟨fun hh e => absurd (oldW hh e.symm) (P.ins.newNames.2 y hy), fun {x} hx e => absurd (atJunction_inj e).symm (P.ins.startEndNames hx hy), fun {y'} hy' e => ?_⟩
    rw [P.ins.uniqueEnd hy' hy (Or.inl (atJunction_inj e).symm)]
    exact h

/-- A hop that was written, and out of which something was made that can be reached, can be reached. -/
theorem Laid.source (P : Laid c M R R' S E T) (hhs : ∀ h, h ∈ hs ↔ ∃ b i, c.HopOf b i h) (hS : ∀ x ∈ S, a ≠ atJunction x.junction) (hE : ∀ y ∈ E, a ≠ atJunction y.junction)
    {h h₀ : Hop} (hz : Traced hs S E a h.writer) (hx : ¬ h.isExit) (h0 : h₀ ∈ hs) (e : h.src = newSrc S h₀.src) :
    (a = h₀.writer ∨ Relation.TransGen (Feeds hs) a h₀.writer) ∧ ¬ h₀.isExit := by
  obtain ⟨o1, o2, _⟩ := P.origin hhs hS hE hz
  rcases newSrc_cases S h₀.src with ⟨x, hx', e1, e2⟩ | ⟨_, e2⟩
  · exact o2 hx' (writer_junction (by rw [e, e2])) h₀ h0 e1.symm
  · rw [e2] at e
    have h1 := o1 h0 (writer_src e)
    rw [writer_src e] at h1
    exact ⟨h1, fun h2 => hx ((isExit_src e).mpr h2)⟩

theorem Laid.traced (P : Laid c M R R' S E T) (hhs : ∀ h, h ∈ hs ↔ ∃ b i, c.HopOf b i h) (hS : ∀ x ∈ S, a ≠ atJunction x.junction) (hE : ∀ y ∈ E, a ≠ atJunction y.junction)
    {z z' : Who} (hz : Traced hs S E a z) (hf : Feeds (R'.map (·.2)) z z') : Traced hs S E a z' := by
  have lM : Lists M hs := fun h => by
    rw [hhs]
    constructor
    · rintro ⟨b, i, h1⟩
      obtain ⟨k, hk⟩ := counted_exists b i
      exact ⟨k, (P.hops k h).mpr ⟨b, i, h1, hk⟩⟩
    · rintro ⟨k, hk⟩
      obtain ⟨b, i, h1, _⟩ := (P.hops k h).mp hk
      exact ⟨b, i, h1⟩
  have further : ∀ {b d}, (a = b ∨ Relation.TransGen (Feeds hs) a b) → Feeds hs b d → Relation.TransGen (Feeds hs) a d := by
    rintro b d (rfl | h) h1
    · exact .single h1
    · exact h.tail h1
  cases hf with
  | @hop h hh hx =>
    obtain ⟨k, hk⟩ := (lists_map P.sorted' _).mp hh
    rcases P.split k h hk with ⟨t, _, _, rfl⟩ | hR
    · exact absurd ⟨rfl, rfl⟩ hx
    · rcases P.ins.kinds hR with ⟨h₀, h0, q1, q2, _⟩ | ⟨x, hx', _, _, q1, q2, _⟩ | ⟨y, hy, _, _, q1, q2, _⟩
      · have h0 := (lM _).mpr ⟨k, h0⟩
        obtain ⟨h1, h2⟩ := P.source hhs hS hE hz hx h0 q1
        have h3 := further h1 (.hop h0 h2)
        rcases newDst_cases E h₀.dst with ⟨y, hy, e1, e2⟩ | ⟨_, e2⟩
        · rw [reader_junction (h := h) (by rw [q2, e2])]
          refine .merge hy fun g _ e => ?_
          rw [reader_dst (h' := h₀) (by rw [e, e1])]
          exact h3
        · rw [reader_dst (h' := h₀) (by rw [q2, e2])]
          exact .here (Or.inr h3)
      · rw [reader_junction q2]
        refine .start hx' fun g hg e => ?_
        have e3 : h.src = g.src := by rw [q1, e]
        have h1 := (P.origin hhs hS hE hz).1 hg (writer_src e3)
        rw [writer_src e3] at h1
        exact ⟨h1, fun h2 => hx ((isExit_src e3).mpr h2)⟩
      · obtain ⟨g, ⟨k', h1, h2, _⟩, _⟩ := P.ins.ends y hy
        have h3 := (P.origin hhs hS hE hz).2.2 hy (writer_junction q1) g ((lM _).mpr ⟨k', h1⟩) h2
        rw [reader_dst (h' := g) (by rw [q2, h2])]
        exact .here (Or.inr h3)
  | @buffer x hm =>
    have hm' : Mentioned hs (.buffer, x) := by
      obtain ⟨h, hh, e⟩ := hm
      obtain ⟨k, hk⟩ := (lists_map P.sorted' _).mp hh
      rcases P.split k h hk with ⟨t, _, _, rfl⟩ | hR
      · rcases e with e | e <;> simp [Hop.from, Hop.to, Spy.hop] at e
      · exact P.ins.mentioned lM (lists_map P.ins.sorted) (by simp) ⟨h, (lists_map P.ins.sorted _).mpr ⟨k, hR⟩, e⟩
    generalize hw : Who.part (.buffer, x) .input = z at hz
    cases hz with
    | here h =>
      subst hw
      exact .here (Or.inr (further h (.buffer hm')))
    | start => simp [atJunction] at hw
    | merge => simp [atJunction] at hw

theorem Laid.favoured (P : Laid c M R R' S E T) (hhs : ∀ h, h ∈ hs ↔ ∃ b i, c.HopOf b i h) (hS : ∀ x ∈ S, a ≠ atJunction x.junction) (hE : ∀ y ∈ E, a ≠ atJunction y.junction)
    (hA : FavouredEnds hs a) : Favoured (R'.map (·.2)) a := by
  intro h hh hx hj hp f hf ht
  have hz : Traced hs S E a h.writer := by
    rcases hp with e | hp
    · exact .here (Or.inl e)
    · have key : ∀ {z}, Relation.TransGen (Feeds (R'.map (·.2))) a z → Traced hs S E a z := by
        intro z hp
        induction hp with
        | single h => exact P.traced hhs hS hE (.here (Or.inl rfl)) h
        | tail _ h ih => exact P.traced hhs hS hE ih h
      exact key hp
  obtain ⟨k, hk⟩ := (lists_map P.sorted' _).mp hh
  obtain ⟨k', hk'⟩ := (lists_map P.sorted' _).mp hf
  have hd : h.dst = f.dst := by
    simp only [Hop.to, Prod.mk.injEq] at ht
    cases h1 : f.dst; cases h2 : h.dst
    rw [h1, h2] at ht
    obtain ⟨e1, e2⟩ := ht
    simp only at e1 e2
    rw [e1, e2]
  have inR : ∀ {k h}, R'.get k = some h → h.dst.ty = .junction → R.get k = some h := by
    intro k h hk hj
    rcases P.split k h hk with ⟨t, _, _, rfl⟩ | h1
    · simp [Spy.hop] at hj
    · exact h1
  have h1 := inR hk hj
  have h2 := inR hk' (by rw [← hd]; exact hj)
  have same : k = k' → h.input.priority ≤ f.input.priority := by
    rintro rfl
    rw [hk] at hk'
    cases hk'; exact Int.le_refl _
  have old : h.dst.Old M → h.input.priority ≤ f.input.priority := fun ho => same ((P.one _ _ _ _ h1 h2).2 hd ho)
  rcases P.ins.kinds h1 with ⟨h₀, h0, q1, q, q3⟩ | ⟨x, hx, rfl, _, _, q, _⟩ | ⟨y, hy, _, _, _, q, _⟩
  · rcases newDst_cases E h₀.dst with ⟨y, hy, e1, e2⟩ | ⟨_, e2⟩
    · have hto : f.to = (.junction, y.junction) := by rw [ht]; simp [Hop.to, q, e2]
      obtain ⟨b1, n1, f₀, a1, a2, a3⟩ := P.intoMerge hy hf hto
      have hm : h₀ ∈ hs := by
        obtain ⟨b, i, h3, _⟩ := (P.hops k h₀).mp h0
        exact (hhs _).mpr ⟨b, i, h3⟩
      obtain ⟨r1, r2⟩ := P.source hhs hS hE hz hx hm q1
      rw [a3, q3]
      exact hA h₀ hm r2 r1 f₀ ((hhs _).mpr ⟨_, _, a1⟩) (by rw [a2, e1])
    · refine old ?_
      rw [q, e2]
      exact JunctionIn.dst h0
  · exact same (P.intoStart hx h2 (by rw [← hd]; exact q)).symm
  · refine old ?_
    rw [q]
    exact P.ins.endRef hy

/-- What is connected to something is none of the junctions that are put in. -/
theorem Laid.apart (P : Laid c M R R' S E T) (hhs : ∀ h, h ∈ hs ↔ ∃ b i, c.HopOf b i h) {z : Who} (hpath : Relation.TransGen (Feeds hs) a z) :
    (∀ x ∈ S, a ≠ atJunction x.junction) ∧ ∀ y ∈ E, a ≠ atJunction y.junction := by
  have old : ∀ J, a = atJunction J → JunctionIn M J := by
    intro J e
    have one : ∀ {z}, Feeds hs a z → JunctionIn M J := by
      intro z hz
      generalize hb : a = b at hz
      cases hz with
      | @hop h h4 _ =>
        obtain ⟨b, i, h5⟩ := (hhs h).mp h4
        obtain ⟨k, hk⟩ := counted_exists b i
        have := writer_atJunction (h := h) (J := J) (by rw [← hb, e])
        simp only [Hop.from, Prod.mk.injEq] at this
        exact ⟨k, h, (P.hops k h).mpr ⟨b, i, h5, hk⟩, Or.inl this⟩
      | buffer _ => rw [e] at hb; simp [atJunction] at hb
    have first : ∀ {z}, Relation.TransGen (Feeds hs) a z → ∃ z, Feeds hs a z := by
      intro z h
      induction h with
      | single h => exact ⟨_, h⟩
      | tail _ _ ih => exact ih
    obtain ⟨_, h⟩ := first hpath
    exact one h
  exact ⟨fun x hx e => P.ins.newNames.1 x hx (old _ e), fun y hy e => P.ins.newNames.2 y hy (old _ e)⟩

/-- Both the path and the numbers along it carry over to what is made of the configuration. -/
theorem Laid.favoured_path (P : Laid c M R R' S E T) (hhs : ∀ h, h ∈ hs ↔ ∃ b i, c.HopOf b i h) (he : FavouredEnds hs a) {z : Who} (hpath : Relation.TransGen (Feeds hs) a z) :
    Favoured (R'.map (·.2)) a ∧ Relation.TransGen (Feeds (R'.map (·.2))) a z := by
  have hpath' : Relation.TransGen (Feeds (R'.map (·.2))) a z := by
    clear he
    induction hpath with
    | single h => exact P.feeds hhs h
    | tail _ h ih => exact ih.trans (P.feeds hhs h)
  exact ⟨P.favoured hhs (P.apart hhs hpath).1 (P.apart hhs hpath).2 he, hpath'⟩

end

section
variable {c c' : Config} {hs : List Hop} {perm : List OutRef → List OutRef} {perm' : List InRef → List InRef} {spyOrder : List Str → List Str} {printed : List Str}
  {w w' : Waiter} {order : List (Str × Watch)} {cap : Caps} {σ : Nat → Option (Who × Ev)}

/-- **C105** In terms of the configuration as it is written: without circles and managers, everything a component has received gets to every component connected to it, be it through others, other than programs, in order, if
from there on every connection has the least number of those that end at the same place. -/
theorem C105_written_favoured (hS : c.Sound hs) (hcf : CircleFree hs) (hp : ∀ l, (perm l).Perm l) (hp' : ∀ l, (perm' l).Perm l) (ho : ∀ l, (spyOrder l).Perm l)
    (hm : manipulate perm perm' spyOrder c = some (c', printed)) (hw : getWaiter c' = .ok w) (hq : w.regulatorSettings order = .ok ([], w')) (hcap : ∀ k ch, cap k ch ≠ some 0)
    (hσ : w'.Fair [] cap σ) (hf : ∀ n i, ∀ f ∈ acts (proj i (upTo σ n)), f.trouble = false) {a z : Who} (he : FavouredEnds hs a) (hpath : Relation.TransGen (Feeds hs) a z) (n : Nat) :
    ∃ m, n ≤ m ∧ (received (proj a (upTo σ n))).Sublist (received (proj z (upTo σ m))) := by
  obtain ⟨M, R, R', S, E, T, drain', printed', h1, P, h3⟩ := hS.laid hp hp' ho
  rw [hm] at h1
  cases h1
  obtain ⟨hfav, hpath'⟩ := P.favoured_path hS.hops he hpath
  exact C105_favoured_reaches rfl hw hq (P.complete hS.hops hS.complete) (P.circleFree hS.hops hS.legal.notDrain hcf) hcap hσ hf hfav hpath' n

/-- **C105** A file or stream from which on every connection has the least number of those that end at the same place is read to its end, or for ever. -/
theorem C105_written_favoured_reads (hS : c.Sound hs) (hcf : CircleFree hs) (hp : ∀ l, (perm l).Perm l) (hp' : ∀ l, (perm' l).Perm l) (ho : ∀ l, (spyOrder l).Perm l)
    (hm : manipulate perm perm' spyOrder c = some (c', printed)) (hw : getWaiter c' = .ok w) (hq : w.regulatorSettings order = .ok ([], w')) (hcap : ∀ k ch, cap k ch ≠ some 0)
    (hσ : w'.Fair [] cap σ) (hf : ∀ n i, ∀ f ∈ acts (proj i (upTo σ n)), f.trouble = false) {i : Who} {v : Node} (hn : w'.node i = some v) {h : Nat} (hs' : .handle h ∈ v.sources)
    (hi : ∀ J, i ≠ atJunction J) (he : FavouredEnds hs i) :
    (∃ m, Act.ended (.handle h) ∈ acts (proj i (upTo σ m))) ∨ ∀ k, ∃ m, k ≤ (receivedFrom (.handle h) (proj i (upTo σ m))).length := by
  obtain ⟨M, R, R', S, E, T, drain', printed', h1, P, h3⟩ := hS.laid hp hp' ho
  rw [hm] at h1
  cases h1
  exact C105_favoured_reads rfl hw hq (P.complete hS.hops hS.complete) (P.circleFree hS.hops hS.legal.notDrain hcf) hcap hσ hf hn hs' (P.favoured hS.hops (fun _ _ => hi _) (fun _ _ => hi _) he)

end

namespace Example

def basinHops : List Hop := [basinA, basinB, basinC]
def basinRush : Who := .part (.faucet, "rush".toList) .main
def basinSea : Who := .part (.drain, "sea".toList) .main

theorem basin_free : CircleFree basinHops := circleFree_of evenRank (by decide +kernel) (by decide +kernel) (fun _ => Nat.lt_succ_self 1)
theorem basin_bufferless (x : Str) : ¬ Mentioned basinHops (.buffer, x) := by
  rintro ⟨h, hh, he⟩
  have : ∀ h ∈ basinHops, h.from.1 ≠ .buffer ∧ h.to.1 ≠ .buffer := by decide +kernel
  rcases he with he | he
  · exact (this h hh).1 (by rw [he])
  · exact (this h hh).2 (by rw [he])
theorem basin_favoured : FavouredEnds basinHops basinRush := by
  intro h hh _ hp f hf e
  rcases hp with h1 | h1
  · have : ∀ h ∈ basinHops, basinRush = h.writer → ∀ f ∈ basinHops, f.dst = h.dst → h.input.priority ≤ f.input.priority := by decide +kernel
    exact this h hh h1 f hf e
  · exfalso
    have one : ∀ {a z}, Feeds basinHops a z → z = basinSea := by
      intro a z hz
      cases hz with
      | hop h2 _ => exact (by decide +kernel : ∀ h ∈ basinHops, h.reader = basinSea) _ h2
      | buffer h2 => exact absurd h2 (basin_bufferless _)
    have h2 : h.writer = basinSea := by
      generalize h.writer = z at h1
      cases h1 with
      | single h => exact one h
      | tail _ h => exact one h
    exact (by decide +kernel : ∀ h ∈ basinHops, h.writer ≠ basinSea) h hh h2

/-- Three connections end at one drain, with different numbers. The stream of the least number is read for ever, and all of it arrives. -/
example : ¬ EvenEnds basinHops ∧ ∃ (w : Waiter) (σ : Nat → Option (Who × Ev)), w.Fair [] estuaryCaps σ ∧ (∀ n i h, Act.ended (.handle h) ∉ acts (proj i (upTo σ n))) ∧
    (∀ n, ∃ m, n ≤ m ∧ (received (proj basinRush (upTo σ n))).Sublist (received (proj basinSea (upTo σ m)))) ∧
    ∀ v h, w.node basinRush = some v → End.handle h ∈ v.sources → ∀ k, ∃ m, k ≤ (receivedFrom (.handle h) (proj basinRush (upTo σ m))).length := by
  refine ⟨by unfold EvenEnds; decide +kernel, ?_⟩
  have pe : ∀ {α : Type} (l : List α), (id l).Perm l := fun _ => .refl _
  obtain ⟨c', R', printed, w, h1, h2, hw, _⟩ := C71_starts basin_sound (perm := id) (perm' := id) (spyOrder := id) pe pe pe
  obtain ⟨σ, hσ, _, h4, h5⟩ := C105_written_lasts (cap := estuaryCaps) (τ := []) basin_sound basin_bufferless pe pe pe h1 hw (runs_nothing w) (by simp)
  refine ⟨w, σ, hσ, h5, fun n => ?_, fun v h hn hs => ?_⟩
  · exact C105_written_favoured basin_sound basin_free pe pe pe h1 hw (order := []) rfl (fun _ _ => by simp [estuaryCaps]) hσ h4 basin_favoured (.single (.hop (h := basinHops[2]) (List.getElem_mem _) (by decide))) n
  · rcases C105_written_favoured_reads basin_sound basin_free pe pe pe h1 hw (order := []) rfl (fun _ _ => by simp [estuaryCaps]) hσ h4 hn hs (by simp [basinRush, atJunction]) basin_favoured with ⟨m, h6⟩ | h6
    · exact absurd h6 (h5 m _ h)
    · exact h6

end Example
end Verif
