import Verif.Lemmas.Carried
import Verif.Lemmas.Mix
import Verif.Props.RuntimeStreams
/-!
# What goes over a hop of the user's once junctions have been put in
-/
namespace Verif

section
variable {c : Config} {hs : List Hop} {w : Waiter} {cs : List Capture} {cap : Caps} {τ : List (Who × Ev)}

/-- What hops enter is read from channels only. -/
theorem Assembled.onlyChans (A : Assembled c hs w) {g : Hop} (hg : g ∈ hs) {n : Node} (h : w.node g.reader = some n) : ∀ s ∈ n.sources, ∃ ch, s = .chan ch := by
  obtain ⟨r, p, k, e, hm, _, he, hn⟩ := A.node_inv h
  obtain ⟨e1, e2⟩ := Hop.reader_iff.mp e
  cases hr : r.1 with
  | faucet =>
    exfalso
    obtain ⟨pre, post, heq⟩ := List.append_of_mem hg
    have := (A.all _ _ _ heq).2.2.2
    unfold CanReceive at this
    rw [show g.dst.ty = .faucet by rw [← hr, ← e1]; rfl] at this
    exact this
  | drain =>
    rw [expected_drain _ _ _ _ hr] at he
    rw [plain_drain he] at hn
    cases ho : (pullEnds w.idOf hs.zipIdx fun h => h.to = r).head?.map Prod.fst with
    | none => rw [ho] at hn; cases p <;> simp [Comp.node] at hn
    | some o =>
      rw [ho] at hn
      cases p <;> simp [Comp.node] at hn
      subst hn
      simp [Node.sources, pull_source]
  | regulator =>
    rw [expected_regulator _ _ _ _ hr] at he
    obtain ⟨m, rfl⟩ := plain_regulator he
    cases hi : (pullEnds w.idOf hs.zipIdx fun h => h.to = r).head?.map Prod.fst with
    | none => rw [hi] at hn; cases p <;> simp [Comp.node] at hn
    | some i =>
      cases ho : (pushEnds w.idOf hs.zipIdx fun h => h.from = r).head? with
      | none => rw [ho, hi] at hn; cases p <;> simp [Comp.node] at hn
      | some o =>
        rw [ho, hi] at hn
        cases p <;> simp [Comp.node] at hn
        subst hn
        simp [Node.sources, pull_source]
  | buffer =>
    rw [expected_buffer _ _ _ _ hr] at he
    obtain ⟨m, rfl⟩ := plain_buffer he
    cases hi : (pullEnds w.idOf hs.zipIdx fun h => h.to = r).head?.map Prod.fst with
    | none => rw [hi] at hn; cases p <;> simp [Comp.node] at hn
    | some i =>
      cases ho : (pushEnds w.idOf hs.zipIdx fun h => h.from = r).head? with
      | none => rw [ho, hi] at hn; cases p <;> simp [Comp.node] at hn
      | some o =>
        rw [ho, hi] at hn
        cases p <;> simp [Comp.node] at hn
        · subst hn; simp [Node.sources, pull_source]
        · subst hn; simp [Node.sources, Pull.source]
  | junction =>
    rw [expected_junction _ _ _ _ hr] at he
    rw [plain_junction he] at hn
    cases p <;> simp [Comp.node] at hn
    subst hn
    simp only [Node.sources, List.mem_filterMap, List.mem_map]
    rintro s ⟨_, ⟨o, ho, rfl⟩, h2⟩
    simp only [pull_source] at h2
    exact ⟨_, (Option.some.inj h2).symm⟩
  | launch =>
    rw [expected_launch _ _ _ _ hr] at he
    rw [plain_launch he] at hn
    rw [hr] at e2
    subst e2
    obtain ⟨h1, rfl⟩ := relayNode_some (by simpa only [Comp.node] using hn)
    cases hi : (pullEnds w.idOf hs.zipIdx fun h => h.to = r).head?.map Prod.fst with
    | none => simp [LaunchEnds.pipe, LaunchEnds.toInput, hi] at h1
    | some o => simp [LaunchEnds.pipe, LaunchEnds.toInput, hi, Node.sources, pull_source]

/-- What is received where hops enter comes over those hops. -/
theorem Assembled.fed (A : Assembled c hs w) (hC : Complete hs) (hr : w.Run cs cap τ) {g : Hop} (hg : g ∈ hs) {s : End} {d : Bytes} (hd : Act.got s d ∈ acts (proj g.reader τ)) :
    ∃ ch g', s = .chan ch ∧ hs[ch]? = some g' ∧ g'.reader = g.reader := by
  obtain ⟨n, hn⟩ := A.readerNode hC hg
  obtain ⟨E, U⟩ := A.run hC hr
  have hs' := (w.net.conduct (A.wired hC) E (i := g.reader) hn).got s d hd
  obtain ⟨ch, rfl⟩ := A.onlyChans hg hn s hs'
  rcases (A.sources (r := g.to) (p := _) hn ch).mp hs' with ⟨g', h1, h2⟩ | ⟨h1, h2, _⟩
  · exact ⟨ch, g', rfl, h1, h2⟩
  · exfalso
    have h1 : g.dst.ty = .buffer := h1
    rw [h1] at h2; cases h2

/-- If one hop enters, everything comes over that. -/
theorem Assembled.fedBy (A : Assembled c hs w) (hC : Complete hs) (hr : w.Run cs cap τ) {i : Nat} {g : Hop} (hi : hs[i]? = some g)
    (hu : ∀ j g', hs[j]? = some g' → g'.reader = g.reader → j = i) : receivedFrom (.chan i) (proj g.reader τ) = received (proj g.reader τ) := by
  refine receivedFrom_only fun s' d hd => ?_
  obtain ⟨ch, g', rfl, h1, h2⟩ := A.fed hC hr (List.mem_of_getElem? hi) hd
  rw [hu ch g' h1 h2]
end

end Verif
