import Verif.Lemmas.Steer
import Verif.Props.FlowControl
import Verif.Props.RuntimeEnds
/-!
# Property C69: what flow control can do to a pipeline in the end
-/
namespace Verif

/-- One activity leads to another, or (a regulator) has to wait for it (the output part of one of its buffers) to take messages out. -/
def Awaited (hs : List Hop) (cs : List Capture) (a b : Who) : Prop :=
  Leads hs a b ∨ ∃ c ∈ cs, ∃ x ∈ c.buffers, a = .part (.regulator, c.regulator) .main ∧ b = .part (.buffer, x) .output

/-- Nothing leads back to where it started, nor does a regulator, by way of what its buffers feed, lead back to itself. -/
def Disentangled (hs : List Hop) (cs : List Capture) : Prop := ∀ i, ¬ Relation.TransGen (Awaited hs cs) i i

theorem Disentangled.free {hs : List Hop} {cs : List Capture} (h : Disentangled hs cs) : CircleFree hs :=
  fun i hi => h i <| by
    have : ∀ {a b}, Relation.TransGen (Leads hs) a b → Relation.TransGen (Awaited hs cs) a b := by
      intro a b h
      induction h with
      | single h => exact .single (Or.inl h)
      | tail _ h ih => exact .tail ih (Or.inl h)
    exact this hi

/-- It is enough that every regulator is upstream of its buffers. -/
theorem disentangled {hs : List Hop} {cs : List Capture} (hcf : CircleFree hs) (hup : ∀ c ∈ cs, Upstream hs c) (hm : ∀ c ∈ cs, ∀ x ∈ c.buffers, Mentioned hs (.buffer, x)) : Disentangled hs cs := by
  intro i hi
  refine hcf i ?_
  have one : ∀ {a b}, Awaited hs cs a b → Relation.TransGen (Leads hs) a b := by
    rintro a b (h | ⟨c, hc, x, hx, rfl, rfl⟩)
    · exact .single h
    · exact .tail (hup c hc x hx) (.buffer (hm c hc x hx))
  have : ∀ {a b}, Relation.TransGen (Awaited hs cs) a b → Relation.TransGen (Leads hs) a b := by
    intro a b h
    induction h with
    | single h => exact one h
    | tail _ h ih => exact ih.trans (one h)
  exact this hi

section
variable {c : Config} {R : Map Hop} {w w' : Waiter} {order : List (Str × Watch)} {cs : List Capture} {cap : Caps} {σ : Nat → Option (Who × Ev)}

/-- **C69** (partial) In a runtime in which nothing leads back, and no regulator waits for what depends on itself, whatever the order in which the activities run, as long as none that
could go on is left out for ever: if every file, stream and program delivers a limited number of lines, every program ends, and no file, stream or notification fails, then
everything ends, unless from some time on a manager waits for ever for room for a request because its regulator does not take out an earlier one. In particular no regulator stays paused for
ever for any other reason. Missing: that this one cannot happen either; it can (`C69_refuted`). -/
theorem C69_ends_partial (hc : c.connection = hopSets R) (hw : getWaiter c = .ok w) (hp : w.regulatorSettings order = .ok (cs, w')) (hC : Complete (R.map (·.2)))
    (hdis : Disentangled (R.map (·.2)) cs) (hlh : ∀ a ∈ cs, a.low < a.high) (hcap : ∀ k ch, cap k ch ≠ some 0) (hσ : w'.Fair cs cap σ) (B : Nat) (hB : ∀ n, Limited B (upTo σ n))
    (hf : ∀ n i, ∀ f ∈ acts (proj i (upTo σ n)), f.trouble = false) :
    (∃ n, w'.Over cs (upTo σ n)) ∨ ∃ r n st, ∀ m, n ≤ m → execAll cap Store.init ((upTo σ m).map Prod.snd) = some st ∧ w'.Unheard cs cap st (upTo σ m) r := by
  have A := assembled hc hw hp
  have T := attended hc hw hp
  obtain ⟨n, st, L⟩ := hσ.lull fun i => by
    obtain ⟨K, hK⟩ := (assembled hc hw hp).bounded (cap := cap) (attended hc hw hp) hC hdis.free hlh B i
    exact ⟨K, fun n => hK _ (hσ.runs n) (hB n)⟩
  have hst := L.quiet n (Nat.le_refl _)
  by_cases hun : ∃ r, w'.Unheard cs cap st (upTo σ n) r
  · right
    obtain ⟨r, ⟨t, ht, hq⟩, h2, h3⟩ := hun
    refine ⟨r, n, st, fun m hm => ⟨L.quiet m hm, ⟨t, ht, ?_⟩, h2, h3⟩⟩
    rcases L.each _ _ ht with ⟨h, _⟩ | ⟨g, h4, h5⟩
    · rw [h m hm]; exact hq
    · exfalso
      have h6 := h4 1
      have h7 := hq.next (e := g 0) (by simpa [first] using h6)
      have h8 := (h5 0).2
      generalize g 0 = e at h7 h8
      obtain ⟨q, r'⟩ := e
      simp only at h7
      subst h7
      cases r' with
      | true => simp [exec, h2, h3] at h8
      | false => simp [exec, h2] at h8
  · left
    refine ⟨n, Classical.byContradiction fun ho => ?_⟩
    obtain ⟨E, U⟩ := A.run hC (hσ.runs n)
    have nf := C55_no_failures (A.wired hC) E U (A.inside hC (hσ.runs n) (hf n))
    have hj : ∀ i inputs pushs spy, w'.node i = some (.junction inputs pushs spy) → ∀ f ∈ acts (proj i (upTo σ n)), f.ruins pushs = false :=
      fun i inputs pushs spy hi f hm => not_ruins (nf i _ f hi hm)
    have edge : ∀ {i j}, i ∈ w'.everyone cs → Awaited (R.map (·.2)) cs i j →
        rankIn (Awaited (R.map (·.2)) cs) (w'.everyone cs) i < rankIn (Awaited (R.map (·.2)) cs) (w'.everyone cs) j := fun hi h => rankIn_lt hdis hi h
    have never : ∀ k r, (w'.everyone cs).length - rankIn (Awaited (R.map (·.2)) cs) (w'.everyone cs) (.part (.regulator, r) .main) = k → ¬ w'.Paused cs st (upTo σ n) r := by
      intro k
      induction k using Nat.strongRecOn with
      | _ k ih =>
        intro r hk hpa
        obtain ⟨x, h1, h2⟩ := A.pausedBelow hC T (hσ.runs n) L hcap (fun r h => hun ⟨r, h⟩) (hf n) (rank := rankIn (Awaited (R.map (·.2)) cs) (w'.everyone cs)) (R := (w'.everyone cs).length)
          (by
            intro a ch b he
            have ha : a ∈ w'.everyone cs := by
              obtain ⟨n, _, hn, _⟩ := he
              have hn : w'.node a = some n := hn
              exact sys_everyone (by rw [sys_node hn]; simp)
            refine edge ha (Or.inl ?_)
            rcases (A.edges hC a ch b).mp he with ⟨h, h1, h2, rfl, rfl⟩ | ⟨x, h1, _, rfl, rfl⟩
            · exact .hop (List.mem_of_getElem? h1) h2
            · exact .buffer h1)
          (fun i => rankIn_le)
          (by
            intro a ha x hx
            refine edge ?_ (Or.inr ⟨a, ha, x, hx, rfl, rfl⟩)
            obtain ⟨i, o, m, hk⟩ := A.regulatorNode hC rfl (A.steered T ha)
            cases hn : w'.node (.part (.regulator, a.regulator) .main) with
            | none => simp [Waiter.node, hk, Comp.node] at hn
            | some n => exact sys_everyone (by rw [sys_node hn]; simp)) hpa
        have := rankIn_le (r := Awaited (R.map (·.2)) cs) (l := w'.everyone cs) (a := .part (.regulator, x) .main)
        exact ih _ (by omega) x rfl h1
    rcases A.standstill hC T hdis.free (hσ.runs n) hst hcap hj ho with ⟨i, t, ht, _, h1, h2⟩ | h | ⟨r, h⟩
    · rcases A.rested hC T L hj ht with h | h
      · exact h h2
      · exact h1 h
    · exact hun h
    · exact never _ r rfl h

/-- **C69** (partial) So were the channels for requests unlimited, everything would end, and every hop would have delivered everything. -/
theorem C69_delivers_partial (hc : c.connection = hopSets R) (hw : getWaiter c = .ok w) (hp : w.regulatorSettings order = .ok (cs, w')) (hC : Complete (R.map (·.2)))
    (hdis : Disentangled (R.map (·.2)) cs) (hlh : ∀ a ∈ cs, a.low < a.high) (hcap : ∀ k ch, cap k ch ≠ some 0) (hctl : ∀ ch, cap .ctl ch = none) (hσ : w'.Fair cs cap σ) (B : Nat)
    (hB : ∀ n, Limited B (upTo σ n)) (hf : ∀ n i, ∀ f ∈ acts (proj i (upTo σ n)), f.trouble = false) :
    ∃ n, w'.Over cs (upTo σ n) ∧ ∀ i h, (R.map (·.2))[i]? = some h → ¬ h.isExit → receivedFrom (.chan i) (proj h.reader (upTo σ n)) = received (proj h.writer (upTo σ n)) := by
  rcases C69_ends_partial hc hw hp hC hdis hlh hcap hσ B hB hf with ⟨n, hn⟩ | ⟨r, n, st, h⟩
  · exact ⟨n, hn, (C65_complete hc hw hp hC (hσ.runs n) hn (hf n)).1⟩
  · obtain ⟨_, _, _, h3⟩ := h n (Nat.le_refl _)
    rw [hctl] at h3
    exact absurd trivial h3

end

/-! ## An example -/

theorem Disentangled.of_rank {hs : List Hop} {cs : List Capture} (rank : Who → Nat) (h1 : ∀ a b, Leads hs a b → rank a < rank b)
    (h2 : ∀ c ∈ cs, ∀ x ∈ c.buffers, rank (.part (.regulator, c.regulator) .main) < rank (.part (.buffer, x) .output)) : Disentangled hs cs := by
  intro i hi
  have : ∀ {a b}, Relation.TransGen (Awaited hs cs) a b → rank a < rank b := by
    have one : ∀ {a b}, Awaited hs cs a b → rank a < rank b := by
      rintro a b (h | ⟨c, hc, x, hx, rfl, rfl⟩)
      · exact h1 _ _ h
      · exact h2 c hc x hx
    intro a b h
    induction h with
    | single h => exact one h
    | tail _ h ih => exact Nat.lt_trans ih (one h)
  exact Nat.lt_irrefl _ (this hi)

/-- The pipeline of `C69_refuted`, with other files. -/
def weirFeed : Feed := fun h => if h = 0 then [[1, 10], [2, 10]] else if h = 1 then [[3, 10]] else []
def weirWide : Caps := fun k ch => if k = .ctl then none else weirCaps k ch
def weirAll := weirReady.2.drive weirReady.1 weirWide weirFeed .err (List.replicate 40 (weirReady.2.everyone weirReady.1)).flatten
theorem weirAll_runs : weirReady.2.Run weirReady.1 weirWide weirAll := Waiter.runs_sound (by decide +kernel)
theorem weirAll_over : weirReady.2.Over weirReady.1 weirAll := Waiter.overNow_sound (by decide +kernel)
theorem weirAll_calm : ∀ i, ∀ f ∈ acts (proj i weirAll), f.trouble = false := weirAll_runs.calm (by decide +kernel)

theorem weir_disentangled : Disentangled (weir.map (·.2)) weirReady.1 := by
  refine disentangled weir_free weir_upstream ?_
  have : weirReady.1 = [⟨0, 1, "gate".toList, ["tank".toList]⟩] := by decide +kernel
  rw [this]
  intro c hc x hx
  rw [List.mem_singleton] at hc
  subst hc
  rw [List.mem_singleton] at hx
  subst hx
  exact ⟨⟨⟨.junction, "meet".toList, .out⟩, none, ⟨.buffer, "tank".toList⟩, ⟨.terminate, 0⟩, none⟩, by simp [weir], Or.inr rfl⟩

example : ∃ n, weirReady.2.Over weirReady.1 (upTo (fun m => weirAll[m]?) n) ∧
    receivedFrom (.chan 4) (proj (.part (.drain, "sea".toList) .main) (upTo (fun m => weirAll[m]?) n)) =
      received (proj (.part (.buffer, "tank".toList) .output) (upTo (fun m => weirAll[m]?) n)) := by
  obtain ⟨n, h1, h2⟩ := C69_delivers_partial (R := weir) rfl weir_built weir_prepared weir_complete weir_disentangled
    (by
      have : weirReady.1 = [⟨0, 1, "gate".toList, ["tank".toList]⟩] := by decide +kernel
      rw [this]; simp)
    (cap := weirWide) (fun k ch => by
      unfold weirWide
      split
      · simp
      · exact realCaps_room _ _ _)
    (fun ch => by simp [weirWide]) (fair_of_over weirAll_runs weirAll_over) weirAll.length
    (by
      intro n
      rw [upTo_list]
      have h := limited_length (weirAll.take n)
      have hl : (weirAll.take n).length ≤ weirAll.length := by rw [List.length_take]; omega
      exact ⟨fun i k => Nat.le_trans (h.lines i k) hl, fun i => Nat.le_trans (h.statuses i) hl⟩)
    (by
      intro n i f hm
      rw [upTo_list] at hm
      refine weirAll_calm i f ?_
      obtain ⟨e, he, rfl⟩ := List.mem_map.mp hm
      exact List.mem_map.mpr ⟨e, mem_proj.mpr (List.mem_of_mem_take (mem_proj.mp he)), rfl⟩)
  exact ⟨n, h1, h2 4 _ rfl (by decide)⟩

end Verif
