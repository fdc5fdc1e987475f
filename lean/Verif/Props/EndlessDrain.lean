import Verif.Props.FavouredWritten
/-!
# C105: what never ends is written
-/
namespace Verif

section
variable {c : Config} {hs : List Hop} {w : Waiter} {cap : Caps} {idle : Nat → Prop} {σ : Nat → Option (Who × Ev)}

/-- Everything a component has received is written to each of its outputs. -/
theorem Waiter.Endless.offers (H : Waiter.Endless c hs w cap idle σ) (hcf : CircleFree hs) {G : Who → Prop} (hG : w.Onward idle G) {a : Who} (ha : G a) {n : Node} (hn : w.node a = some n) {t : End} (htg : t ∈ n.targets) (N : Nat) :
    ∃ m, N ≤ m ∧ received (proj a (upTo σ N)) <+: acceptedBy t (proj a (upTo σ m)) := by
  refine Classical.byContradiction fun hnot => ?_
  have hok : n.Ok := (H.rig.wired H.complete).ok a n hn
  have accepted : ∀ m, acceptedBy t (proj a (upTo σ m)) = offeredTo t (proj a (upTo σ m)) := by
    intro m
    refine acceptedBy_all fun o ho => ?_
    have := H.nofail hn m _ (mem_offers.mp ho)
    obtain ⟨t, d, wo⟩ := o
    cases wo <;> simp [Act.fails] at this ⊢
  have copies : ∀ m, _ := fun m => (node_conduct hok (H.part hn m)).copies _ htg
  have grows : ∀ {m m'}, m ≤ m' → received (proj a (upTo σ m)) <+: received (proj a (upTo σ m')) := by
    intro m m' h
    obtain ⟨u, hu, _⟩ := proj_since (σ := σ) a h
    rw [hu, received_append]; exact List.prefix_append _ _
  have less : ∀ m, N ≤ m → (offeredTo t (proj a (upTo σ m))).length < (received (proj a (upTo σ N))).length := by
    intro m hm
    refine Nat.lt_of_not_le fun h => hnot ⟨m, hm, ?_⟩
    rw [accepted]
    exact List.prefix_of_prefix_length_le (grows hm) (copies m).1 h
  have short : ∀ m, N ≤ m → (offeredTo t (proj a (upTo σ m))).length < (received (proj a (upTo σ m))).length := by
    intro m hm
    have h1 := less m hm
    have h2 := (grows hm).length_le
    omega
  have hM : ∀ m, (received (proj a (upTo σ m))).length ≤ (received (proj a (upTo σ N))).length := by
    intro m
    have h1 := (grows (show m ≤ max m N by omega)).length_le
    have h2 := (copies (max m N)).2
    have := less (max m N) (by omega)
    omega
  rcases H.rests hn hM N with ⟨N', hN', hsil⟩ | ⟨inputs, pushs, spy, rfl, N', g, hN', hpar, hid, hg, _⟩
  · have hs1 := short N' hN'
    by_cases hd : n.task.Done (proj a (upTo σ N'))
    · rw [(node_finished hok hd (H.nofail hn N')).all _ htg] at hs1
      omega
    · obtain ⟨ch', h1, _⟩ | ⟨h', h1, _⟩ := H.waits hn hsil hd (fun h => hG.answers a n h ha hn) (fun ch' b' he => H.room he hsil (by
        obtain ⟨hl, hb⟩ := hG.least a ch' b' ha he
        obtain ⟨_, m, _, hm, _, h1⟩ := he
        exact H.taken hcf hG _ b' m ch' hm h1 hl hb (Nat.le_add_left _ _)))
      · rw [waiting_passed (r := some []) hok (H.part hn N') h1 rfl htg] at hs1
        omega
      · rw [waiting_passed (q := .streamRead h') (r := .line []) hok (H.part hn N') h1 rfl htg] at hs1
        omega
  · obtain ⟨⟨s, hs1, hs2⟩, hall⟩ := junction_rest hok hpar hid
    have hchan : ∃ c', s = .chan c' := by
      obtain ⟨x, hx1, hx2⟩ := List.mem_filterMap.mp (show s ∈ inputs.filterMap fun x => x.1.source from hs1)
      obtain ⟨_, hin, _⟩ := _root_.id hok
      obtain ⟨j, c', e⟩ := hin x hx1
      rw [e] at hx2
      exact ⟨c', by simpa [Pull.source] using hx2.symm⟩
    obtain ⟨c', rfl⟩ := hchan
    obtain ⟨j, hj⟩ := hall c' hs1 hs2
    have h1 := hpar (j + 1)
    rw [first_succ, ← List.append_assoc, hj] at h1
    rcases h1.last with h1 | ⟨_, _, t2, _, _, h1⟩
    · obtain ⟨m, hm, e⟩ := hg j
      have := short m (by omega)
      rw [e, waiting_passed (q := .tryRecv .data c') (r := .got []) hok (hpar j) h1 rfl htg] at this
      omega
    · obtain ⟨_, _, _, h2⟩ := mem_dropEvs h1 _ (List.mem_append_right _ (List.mem_singleton.mpr rfl))
      cases h2

theorem Favoured.on {a z : Who} (h : Favoured hs a) (hp : Relation.TransGen (Feeds hs) a z) : Favoured hs z := by
  intro g hg hx hj hz
  refine h g hg hx hj (Or.inr ?_)
  rcases hz with rfl | hz
  · exact hp
  · exact hp.trans hz

theorem Waiter.Answering.on {a z : Who} (h : w.Answering idle hs a) (hp : Relation.TransGen (Feeds hs) a z) : w.Answering idle hs z := by
  intro y n x hy
  refine h y n x (Or.inr ?_)
  rcases hy with rfl | hy
  · exact hp
  · exact hp.trans hy

end

section
variable {c : Config} {R : Map Hop} {order : List (Str × Watch)} {w w' : Waiter} {cap : Caps} {idle : Nat → Prop} {σ : Nat → Option (Who × Ev)}

/-- **C106** Files and streams that never answer hold up only what is on its way to them: everything a component has received is eventually written to the file, stream or program (or channel) that a component connected to it,
be it through others, writes to; in order. -/
theorem C106_drained (hc : c.connection = hopSets R) (hw : getWaiter c = .ok w) (hp : w.regulatorSettings order = .ok ([], w')) (hC : Complete (R.map (·.2))) (hcf : CircleFree (R.map (·.2)))
    (hcap : ∀ k ch, cap k ch ≠ some 0)
    (hσ : w'.FairBut idle [] cap σ) (hf : ∀ n i, ∀ f ∈ acts (proj i (upTo σ n)), f.trouble = false)
    {a z : Who} (hA : Favoured (R.map (·.2)) a) (hU : w'.Answering idle (R.map (·.2)) a) (hpath : Relation.TransGen (Feeds (R.map (·.2))) a z) {v : Node} (hv : w'.node z = some v) {t : End} (ht : t ∈ v.targets) (n : Nat) :
    ∃ m, n ≤ m ∧ (received (proj a (upTo σ n))).Sublist (acceptedBy t (proj z (upTo σ m))) := by
  obtain ⟨m, h1, h2⟩ := C106_reaches hc hw hp hC hcf hcap hσ hf hA hU hpath n
  have H := endless_of hc hw hp hC hcap hσ hf
  obtain ⟨m', h3, h4⟩ := H.offers hcf (H.onward (hA.on hpath) (hU.on hpath)) (Or.inl rfl) hv ht m
  exact ⟨m', by omega, h2.trans h4.sublist⟩

/-- **C105** Where, from there on, connections to junctions are of the least number, everything a component has received is eventually written to the file, stream or program (or channel) that a component connected to it, be it
through others, writes to; in order. -/
theorem C105_drained (hc : c.connection = hopSets R) (hw : getWaiter c = .ok w) (hp : w.regulatorSettings order = .ok ([], w')) (hC : Complete (R.map (·.2))) (hcf : CircleFree (R.map (·.2)))
    (hcap : ∀ k ch, cap k ch ≠ some 0)
    (hσ : w'.Fair [] cap σ) (hf : ∀ n i, ∀ f ∈ acts (proj i (upTo σ n)), f.trouble = false)
    {a z : Who} (hA : Favoured (R.map (·.2)) a) (hpath : Relation.TransGen (Feeds (R.map (·.2))) a z) {v : Node} (hv : w'.node z = some v) {t : End} (ht : t ∈ v.targets) (n : Nat) :
    ∃ m, n ≤ m ∧ (received (proj a (upTo σ n))).Sublist (acceptedBy t (proj z (upTo σ m))) :=
  C106_drained hc hw hp hC hcf hcap (hσ.but _) hf hA (w'.answering_all _ _) hpath hv ht n

end

section
variable {c c' : Config} {hs : List Hop} {perm : List OutRef → List OutRef} {perm' : List InRef → List InRef} {spyOrder : List Str → List Str} {printed : List Str}
  {w w' : Waiter} {order : List (Str × Watch)} {cap : Caps} {idle : Nat → Prop} {σ : Nat → Option (Who × Ev)}

/-- **C105** In terms of the configuration as it is written. -/
theorem C105_written_drained (hS : c.Sound hs) (hcf : CircleFree hs) (hp : ∀ l, (perm l).Perm l) (hp' : ∀ l, (perm' l).Perm l) (ho : ∀ l, (spyOrder l).Perm l)
    (hm : manipulate perm perm' spyOrder c = some (c', printed)) (hw : getWaiter c' = .ok w) (hq : w.regulatorSettings order = .ok ([], w')) (hcap : ∀ k ch, cap k ch ≠ some 0)
    (hσ : w'.Fair [] cap σ) (hf : ∀ n i, ∀ f ∈ acts (proj i (upTo σ n)), f.trouble = false) {a z : Who} (he : FavouredEnds hs a) (hpath : Relation.TransGen (Feeds hs) a z)
    {v : Node} (hv : w'.node z = some v) {t : End} (ht : t ∈ v.targets) (n : Nat) :
    ∃ m, n ≤ m ∧ (received (proj a (upTo σ n))).Sublist (acceptedBy t (proj z (upTo σ m))) := by
  obtain ⟨M, R, R', S, E, T, drain', printed', h3, P, h4⟩ := hS.laid hp hp' ho
  rw [hm] at h3
  cases h3
  obtain ⟨hfav, hpath'⟩ := P.favoured_path hS.hops he hpath
  exact C105_drained rfl hw hq (P.complete hS.hops hS.complete) (P.circleFree hS.hops hS.legal.notDrain hcf) hcap hσ hf hfav hpath' hv ht n

end

namespace Example

/-- The line that was read first is written to the file of the drain, in any fair course of events without failures, whatever comes from the streams; there is one in which none of the streams ends. -/
example : ∃ (w : Waiter) (v : Node) (h : Nat), w.node basinSea = some v ∧ .handle h ∈ v.targets ∧
    (∀ σ, w.Fair [] estuaryCaps σ → (∀ n i, ∀ f ∈ acts (proj i (upTo σ n)), f.trouble = false) → ∀ n, ∃ m, n ≤ m ∧ (received (proj basinRush (upTo σ n))).Sublist (acceptedBy (.handle h) (proj basinSea (upTo σ m)))) ∧
    ∃ σ, w.Fair [] estuaryCaps σ ∧ (∀ n i, ∀ f ∈ acts (proj i (upTo σ n)), f.trouble = false) ∧ ∀ n i h, Act.ended (.handle h) ∉ acts (proj i (upTo σ n)) := by
  have pe : ∀ {α : Type} (l : List α), (id l).Perm l := fun _ => .refl _
  obtain ⟨c', R', printed, w, h1, h2, hw, _⟩ := C71_starts basin_sound (perm := id) (perm' := id) (spyOrder := id) pe pe pe
  obtain ⟨σ, hσ, _, h4, h5⟩ := C105_written_lasts (cap := estuaryCaps) (τ := []) basin_sound basin_bufferless pe pe pe h1 hw (runs_nothing w) (by simp)
  have hb : basinWaiter = w := by
    unfold basinWaiter
    rw [h1]
    simp only [hw]
    rfl
  have key : ∃ h, (basinWaiter.node basinSea).map Node.targets = some [.handle h] := ⟨12, by decide +kernel⟩
  rw [hb] at key
  obtain ⟨h, key⟩ := key
  obtain ⟨v, hv, ht⟩ := Option.map_eq_some_iff.mp key
  have ht : .handle h ∈ v.targets := by rw [ht]; simp
  refine ⟨w, v, h, hv, ht, fun σ hσ hf n => ?_, σ, hσ, h4, h5⟩
  exact C105_written_drained basin_sound basin_free pe pe pe h1 hw (order := []) rfl (fun _ _ => by simp [estuaryCaps]) hσ hf basin_favoured (.single (.hop (h := basinHops[2]) (List.getElem_mem _) (by decide))) hv ht n

end Example
end Verif
