import Verif.Props.Endless
import Verif.Props.SharingWritten
/-!
# C105: streams that never end, by the configuration as it is written
-/
namespace Verif
section
variable {c : Config} {hs : List Hop} {M R R' : Map Hop} {S : List SIns} {E : List EIns} {T : List Spy}

/-- Connections that end at the same place have the same number. -/
def EvenEnds (hs : List Hop) : Prop := ∀ f ∈ hs, ∀ h ∈ hs, f.dst = h.dst → f.input.priority = h.input.priority

theorem Laid.sameNumbers (P : Laid c M R R' S E T) (hhs : ∀ h, h ∈ hs ↔ ∃ b i, c.HopOf b i h) (he : EvenEnds hs) : SameNumbers (R'.map (·.2)) := by
  intro f hf h hh ht hj
  obtain ⟨k, hk⟩ := (lists_map P.sorted' _).mp hf
  obtain ⟨k', hk'⟩ := (lists_map P.sorted' _).mp hh
  have hd : f.dst = h.dst := by
    simp only [Hop.to, Prod.mk.injEq] at ht
    cases h1 : f.dst; cases h2 : h.dst
    rw [h1, h2] at ht
    obtain ⟨e1, e2⟩ := ht
    simp only at e1 e2
    rw [e1, e2]
  have hty : f.dst.ty = .junction := hj
  have inR : ∀ {k h}, R'.get k = some h → h.dst.ty = .junction → R.get k = some h := by
    intro k h hk hj
    rcases P.split k h hk with ⟨t, _, _, rfl⟩ | h1
    · simp [Spy.hop] at hj
    · exact h1
  have h1 := inR hk hty
  have h2 := inR hk' (by rw [← hd]; exact hty)
  have same : k = k' → f.input.priority = h.input.priority := by
    rintro rfl
    rw [hk] at hk'
    cases hk'; rfl
  have old : f.dst.Old M → f.input.priority = h.input.priority := fun ho => same ((P.one _ _ _ _ h1 h2).2 hd ho)
  rcases P.ins.kinds h1 with ⟨h₀, h0, _, q, _⟩ | ⟨x, hx, rfl, _, _, q, _⟩ | ⟨y, hy, _, _, _, q, _⟩
  · rcases newDst_cases E h₀.dst with ⟨y, hy, _, e2⟩ | ⟨_, e2⟩
    · have hto : f.to = (.junction, y.junction) := by simp [Hop.to, q, e2]
      obtain ⟨b1, n1, f₀, a1, a2, a3⟩ := P.intoMerge hy hf hto
      obtain ⟨b2, n2, g₀, a4, a5, a6⟩ := P.intoMerge hy hh (by rw [← ht]; exact hto)
      rw [a3, a6]
      exact he _ ((hhs _).mpr ⟨_, _, a1⟩) _ ((hhs _).mpr ⟨_, _, a4⟩) (by rw [a2, a5])
    · refine old ?_
      rw [q, e2]
      exact JunctionIn.dst h0
  · exact same (P.intoStart hx h2 (by rw [← hd]; exact q)).symm
  · refine old ?_
    rw [q]
    exact P.ins.endRef hy

/-- Whatever hands on to something in the configuration as it is written does so, perhaps by way of junctions, in what is made of it. -/
theorem Laid.feeds (P : Laid c M R R' S E T) (hhs : ∀ h, h ∈ hs ↔ ∃ b i, c.HopOf b i h) {a z : Who} (h : Feeds hs a z) : Relation.TransGen (Feeds (R'.map (·.2))) a z := by
  have made : ∀ {h : Hop}, h ∈ hs → ∃ k h', M.get k = some h ∧ h' ∈ R'.map (·.2) ∧ h'.src = newSrc S h.src ∧ h'.dst = newDst E h.dst := by
    intro h hh
    obtain ⟨b, i, h1⟩ := (hhs h).mp hh
    obtain ⟨k, hk⟩ := counted_exists b i
    have h2 := (P.hops k h).mpr ⟨b, i, h1, hk⟩
    obtain ⟨h', f1, f2, f3, _⟩ := P.ins.old _ _ h2
    exact ⟨k, h', h2, P.listed f1, f2, f3⟩
  cases h with
  | @hop h hh hx =>
    obtain ⟨k, h', _, f1, f2, f3⟩ := made hh
    have pre : (h.writer = h'.writer ∨ Feeds (R'.map (·.2)) h.writer h'.writer) ∧ ¬ h'.isExit := by
      rcases newSrc_cases S h.src with ⟨x, hx', e1, e2⟩ | ⟨_, e2⟩
      · obtain ⟨_, _, q⟩ := P.ins.starts x hx'
        have h1 := Feeds.hop (P.listed q) (by simpa [Hop.isExit, e1] using hx)
        rw [writer_src (h' := h) e1] at h1
        refine ⟨Or.inr ?_, by simp [Hop.isExit, f2, e2]⟩
        rw [writer_junction (h := h') (by rw [f2, e2])]
        exact h1
      · rw [e2] at f2
        exact ⟨Or.inl (writer_src f2).symm, by simpa [Hop.isExit, f2] using hx⟩
    have post : h'.reader = h.reader ∨ Feeds (R'.map (·.2)) h'.reader h.reader := by
      rcases newDst_cases E h.dst with ⟨y, hy, e1, e2⟩ | ⟨_, e2⟩
      · obtain ⟨_, _, q⟩ := P.ins.ends y hy
        have h1 := Feeds.hop (P.listed q) (by simp [Hop.isExit])
        rw [reader_dst (h' := h) e1] at h1
        refine Or.inr ?_
        rw [reader_junction (h := h') (by rw [f3, e2])]
        exact h1
      · rw [e2] at f3
        exact Or.inl (reader_dst f3)
    have mid : Relation.TransGen (Feeds (R'.map (·.2))) h'.writer h.reader := by
      have h1 := Relation.TransGen.single (Feeds.hop f1 pre.2)
      rcases post with e | h2
      · rw [← e]; exact h1
      · exact h1.tail h2
    rcases pre.1 with e | h1
    · rw [e]; exact mid
    · exact (Relation.TransGen.single h1).trans mid
  | @buffer x hm =>
    refine .single (.buffer ?_)
    obtain ⟨h, hh, hft⟩ := hm
    obtain ⟨k, h', _, f1, f2, f3⟩ := made hh
    rcases hft with e | e
    · rcases newSrc_cases S h.src with ⟨y, hy, e1, e2⟩ | ⟨_, e2⟩
      · obtain ⟨_, _, q⟩ := P.ins.starts y hy
        exact ⟨_, P.listed q, Or.inl (by rw [← e]; simp [Hop.from, e1])⟩
      · exact ⟨h', f1, Or.inl (by rw [← e]; simp [Hop.from, f2, e2])⟩
    · rcases newDst_cases E h.dst with ⟨y, hy, e1, e2⟩ | ⟨_, e2⟩
      · obtain ⟨_, _, q⟩ := P.ins.ends y hy
        exact ⟨_, P.listed q, Or.inr (by rw [← e]; simp [Hop.to, e1])⟩
      · exact ⟨h', f1, Or.inr (by rw [← e]; simp [Hop.to, f3, e2])⟩

end

section
variable {c c' : Config} {hs : List Hop} {perm : List OutRef → List OutRef} {perm' : List InRef → List InRef} {spyOrder : List Str → List Str} {printed : List Str}
  {w w' : Waiter} {order : List (Str × Watch)} {cap : Caps} {σ : Nat → Option (Who × Ev)}

/-- **C105** In terms of the configuration as it is written: without circles and managers, connections that end at the same place having the same number, everything a component has received gets to every component
connected to it, be it through others, other than programs; in order. Nothing is assumed about how much the files and streams give. -/
theorem C105_written (hS : c.Sound hs) (hcf : CircleFree hs) (he : EvenEnds hs) (hp : ∀ l, (perm l).Perm l) (hp' : ∀ l, (perm' l).Perm l) (ho : ∀ l, (spyOrder l).Perm l)
    (hm : manipulate perm perm' spyOrder c = some (c', printed)) (hw : getWaiter c' = .ok w) (hq : w.regulatorSettings order = .ok ([], w')) (hcap : ∀ k ch, cap k ch ≠ some 0)
    (hσ : w'.Fair [] cap σ) (hf : ∀ n i, ∀ f ∈ acts (proj i (upTo σ n)), f.trouble = false) {a z : Who} (hpath : Relation.TransGen (Feeds hs) a z) (n : Nat) :
    ∃ m, n ≤ m ∧ (received (proj a (upTo σ n))).Sublist (received (proj z (upTo σ m))) := by
  obtain ⟨M, R, R', S, E, T, drain', printed', h1, P, h3⟩ := hS.laid hp hp' ho
  rw [hm] at h1
  cases h1
  have hpath' : Relation.TransGen (Feeds (R'.map (·.2))) a z := by
    induction hpath with
    | single h => exact P.feeds hS.hops h
    | tail _ h ih => exact ih.trans (P.feeds hS.hops h)
  exact C105_reaches rfl hw hq (P.complete hS.hops hS.complete) (P.circleFree hS.hops hS.legal.notDrain hcf) hcap (P.sameNumbers hS.hops he) hσ hf hpath' n

/-- **C105** Every file or stream is read to its end, or for ever. -/
theorem C105_written_reads (hS : c.Sound hs) (hcf : CircleFree hs) (he : EvenEnds hs) (hp : ∀ l, (perm l).Perm l) (hp' : ∀ l, (perm' l).Perm l) (ho : ∀ l, (spyOrder l).Perm l)
    (hm : manipulate perm perm' spyOrder c = some (c', printed)) (hw : getWaiter c' = .ok w) (hq : w.regulatorSettings order = .ok ([], w')) (hcap : ∀ k ch, cap k ch ≠ some 0)
    (hσ : w'.Fair [] cap σ) (hf : ∀ n i, ∀ f ∈ acts (proj i (upTo σ n)), f.trouble = false) {i : Who} {v : Node} (hn : w'.node i = some v) {h : Nat} (hs' : .handle h ∈ v.sources) :
    (∃ m, Act.ended (.handle h) ∈ acts (proj i (upTo σ m))) ∨ ∀ k, ∃ m, k ≤ (receivedFrom (.handle h) (proj i (upTo σ m))).length := by
  obtain ⟨M, R, R', S, E, T, drain', printed', h1, P, h3⟩ := hS.laid hp hp' ho
  rw [hm] at h1
  cases h1
  exact C105_reads rfl hw hq (P.complete hS.hops hS.complete) (P.circleFree hS.hops hS.legal.notDrain hcf) hcap (P.sameNumbers hS.hops he) hσ hf hn hs'

theorem runs_nothing (w : Waiter) {cs : List Capture} {cap : Caps} : w.Run cs cap [] :=
  ⟨⟨rfl, fun _ t _ => Or.inl ⟨t.init, [], [], .nil, Prog.partial_nil _, rfl⟩⟩, by simp, by simp⟩

/-- **C106** If no buffer is mentioned, whatever has happened without failures and ends can go on so for ever, in a fair way but for some files and streams that never answer again. -/
theorem C106_written_lasts (idle : Nat → Prop) (hS : c.Sound hs) (hb : ∀ x, ¬ Mentioned hs (.buffer, x)) (hp : ∀ l, (perm l).Perm l) (hp' : ∀ l, (perm' l).Perm l) (ho : ∀ l, (spyOrder l).Perm l)
    (hm : manipulate perm perm' spyOrder c = some (c', printed)) (hw : getWaiter c' = .ok w) {τ : List (Who × Ev)}
    (hr : w.Run [] cap τ) (hg : ∀ x ∈ τ, (act x.2).trouble = false ∧ ∀ h, act x.2 ≠ .ended (.handle h)) :
    ∃ σ, w.FairBut idle [] cap σ ∧ upTo σ τ.length = τ ∧ (∀ n i, ∀ f ∈ acts (proj i (upTo σ n)), f.trouble = false) ∧ (∀ n i h, Act.ended (.handle h) ∉ acts (proj i (upTo σ n))) ∧
      ∀ n, τ.length ≤ n → ∀ i e, σ n = some (i, e) → ¬ e.q.stalls idle := by
  obtain ⟨M, R, R', S, E, T, drain', printed', h1, P, h3⟩ := hS.laid hp hp' ho
  rw [hm] at h1
  cases h1
  refine goes_on_stalled idle (assembled (R := R') (order := []) rfl hw rfl) (P.complete hS.hops hS.complete) (unmanaged (R := R') rfl hw) (fun x => ?_) hr hg
  rintro ⟨h, hh, e⟩
  have lM : Lists M hs := fun h => by
    rw [hS.hops]
    constructor
    · rintro ⟨b, i, h1⟩
      obtain ⟨k, hk⟩ := counted_exists b i
      exact ⟨k, (P.hops k h).mpr ⟨b, i, h1, hk⟩⟩
    · rintro ⟨k, hk⟩
      obtain ⟨b, i, h1, _⟩ := (P.hops k h).mp hk
      exact ⟨b, i, h1⟩
  obtain ⟨k, hk⟩ := (lists_map P.sorted' _).mp hh
  rcases P.split k h hk with ⟨t, _, _, rfl⟩ | hR
  · rcases e with e | e <;> simp [Hop.from, Hop.to, Spy.hop] at e
  · exact hb x (P.ins.mentioned lM (lists_map P.ins.sorted) (by simp) ⟨h, (lists_map P.ins.sorted _).mpr ⟨k, hR⟩, e⟩)

/-- **C105** If no buffer is mentioned, whatever has happened without failures and ends can go on so for ever, in a fair way. -/
theorem C105_written_lasts (hS : c.Sound hs) (hb : ∀ x, ¬ Mentioned hs (.buffer, x)) (hp : ∀ l, (perm l).Perm l) (hp' : ∀ l, (perm' l).Perm l) (ho : ∀ l, (spyOrder l).Perm l)
    (hm : manipulate perm perm' spyOrder c = some (c', printed)) (hw : getWaiter c' = .ok w) {τ : List (Who × Ev)}
    (hr : w.Run [] cap τ) (hg : ∀ x ∈ τ, (act x.2).trouble = false ∧ ∀ h, act x.2 ≠ .ended (.handle h)) :
    ∃ σ, w.Fair [] cap σ ∧ upTo σ τ.length = τ ∧ (∀ n i, ∀ f ∈ acts (proj i (upTo σ n)), f.trouble = false) ∧ ∀ n i h, Act.ended (.handle h) ∉ acts (proj i (upTo σ n)) := by
  obtain ⟨σ, hσ, h1, h2, h3, _⟩ := C106_written_lasts (fun _ => False) hS hb hp hp' ho hm hw hr hg
  exact ⟨σ, hσ.fair_all, h1, h2, h3⟩

end

namespace Example

/-- One faucet is connected to a program twice, by the same number. -/
def twinHops : List Hop :=
  [⟨⟨.faucet, "tap".toList, .out⟩, none, ⟨.launch, "x".toList⟩, ⟨.terminate, 0⟩, none⟩,
   ⟨⟨.launch, "x".toList, .out⟩, none, ⟨.drain, "tub".toList⟩, ⟨.terminate, 0⟩, none⟩,
   ⟨⟨.faucet, "tap".toList, .out⟩, none, ⟨.launch, "x".toList⟩, ⟨.finish, 0⟩, none⟩]

theorem twin_sound : (twoPipes 0 0).Sound twinHops := by
  refine ⟨by decide +kernel, twoPipes_good 0 0, twoPipes_drain 0 0, twoPipes_legal 0, fun h => ?_, complete_of (by decide +kernel) (by decide +kernel)⟩
  constructor
  · intro hh
    simp only [twinHops, List.mem_cons, List.not_mem_nil, or_false] at hh
    rcases hh with rfl | rfl | rfl
    · exact ⟨_, _, twoPipes_hop 0 0⟩
    · exact ⟨"a".toList, 1, _, _, List.mem_cons_self, rfl, _, _, rfl, rfl, rfl, rfl, rfl, rfl⟩
    · exact ⟨"b".toList, 0, _, _, List.mem_cons_of_mem _ List.mem_cons_self, rfl, _, _, rfl, rfl, rfl, rfl, rfl, rfl⟩
  · rintro ⟨b, i, hh⟩
    rcases twoPipes_hops hh with ⟨_, _, rfl⟩ | ⟨_, _, rfl⟩ | ⟨_, _, rfl⟩ <;> simp [twinHops]

theorem twin_free : CircleFree twinHops := circleFree_of twoRank (by decide +kernel) (by decide +kernel) (fun _ => Nat.lt_succ_self 0)
theorem twin_even : EvenEnds twinHops := by unfold EvenEnds; decide +kernel
theorem twin_bufferless (x : Str) : ¬ Mentioned twinHops (.buffer, x) := by
  rintro ⟨h, hh, he⟩
  have : ∀ h ∈ twinHops, h.from.1 ≠ .buffer ∧ h.to.1 ≠ .buffer := by decide +kernel
  rcases he with he | he
  · exact (this h hh).1 (by rw [he])
  · exact (this h hh).2 (by rw [he])

/-- Both the stream and the output of the program never end; each is read for ever, and everything arrives, however much there is. -/
example : ∃ (w : Waiter) (σ : Nat → Option (Who × Ev)), w.Fair [] estuaryCaps σ ∧ (∀ n i h, Act.ended (.handle h) ∉ acts (proj i (upTo σ n))) ∧
    (∀ n, ∃ m, n ≤ m ∧ (received (proj (.part (.faucet, "tap".toList) .main) (upTo σ n))).Sublist (received (proj (.part (.launch, "x".toList) .input) (upTo σ m)))) ∧
    (∀ n, ∃ m, n ≤ m ∧ (received (proj (.part (.launch, "x".toList) .output) (upTo σ n))).Sublist (received (proj (.part (.drain, "tub".toList) .main) (upTo σ m)))) ∧
    ∀ i v h, w.node i = some v → End.handle h ∈ v.sources → ∀ k, ∃ m, k ≤ (receivedFrom (.handle h) (proj i (upTo σ m))).length := by
  have pe : ∀ {α : Type} (l : List α), (id l).Perm l := fun _ => .refl _
  obtain ⟨c', R', printed, w, h1, h2, hw, _⟩ := C71_starts twin_sound (perm := id) (perm' := id) (spyOrder := id) pe pe pe
  obtain ⟨σ, hσ, _, h4, h5⟩ := C105_written_lasts (cap := estuaryCaps) (τ := []) twin_sound twin_bufferless pe pe pe h1 hw (runs_nothing w) (by simp)
  refine ⟨w, σ, hσ, h5, fun n => ?_, fun n => ?_, fun i v h hn hs => ?_⟩
  · exact C105_written twin_sound twin_free twin_even pe pe pe h1 hw (order := []) rfl (fun _ _ => by simp [estuaryCaps]) hσ h4 (.single (.hop (h := twinHops[0]) (List.getElem_mem _) (by decide))) n
  · exact C105_written twin_sound twin_free twin_even pe pe pe h1 hw (order := []) rfl (fun _ _ => by simp [estuaryCaps]) hσ h4 (.single (.hop (h := twinHops[1]) (List.getElem_mem _) (by decide))) n
  · rcases C105_written_reads twin_sound twin_free twin_even pe pe pe h1 hw (order := []) rfl (fun _ _ => by simp [estuaryCaps]) hσ h4 hn hs with ⟨m, h6⟩ | h6
    · exact absurd h6 (h5 m i h)
    · exact h6

end Example
end Verif
