import Verif.Lemmas.Runtime
import Verif.Props.Network
/-!
# Property C64: what runs is a network of activities joined by the hops
-/
namespace Verif

theorem get?_lt {α} {l : List α} {i : Nat} {x : α} (h : l[i]? = some x) : i < l.length := by
  rw [List.getElem?_eq_some_iff] at h; exact h.1

/-- The numbers of channels of chosen hops are different. -/
theorem filter_nodup (hs : List Hop) (q : Hop × Nat → Bool) : ((hs.zipIdx.filter q).map Prod.snd).Nodup := by
  have h1 : ((hs.zipIdx.filter q).map Prod.snd).Sublist (hs.zipIdx.map Prod.snd) := List.Sublist.map _ List.filter_sublist
  refine h1.nodup ?_
  rw [List.zipIdx_map_snd]
  exact List.nodup_range'

section
variable {c : Config} {hs : List Hop} {w : Waiter}

theorem Rigged.hasFrom (A : Rigged c hs w) {r : CompRef} (h : ∃ g ∈ hs, g.from = r) :
    ∃ o, (pushEnds w.idOf hs.zipIdx fun h => h.from = r).head? = some o := by
  obtain ⟨g, hg, hr⟩ := h
  obtain ⟨i, hi⟩ := List.mem_iff_getElem?.mp hg
  have : g.pushEnd w.idOf i ∈ pushEnds w.idOf hs.zipIdx fun h => h.from = r := mem_pushEnds.mpr ⟨i, g, hi, by simpa using hr, rfl⟩
  cases hl : (pushEnds w.idOf hs.zipIdx fun h => h.from = r) with
  | nil => rw [hl] at this; simp at this
  | cons a l => exact ⟨a, rfl⟩

theorem Rigged.hasPort (A : Rigged c hs w) {s : OutRef} (h : ∃ g ∈ hs, g.src = s) :
    ∃ o, (pushEnds w.idOf hs.zipIdx fun h => h.src = s).head? = some o := by
  obtain ⟨g, hg, hr⟩ := h
  obtain ⟨i, hi⟩ := List.mem_iff_getElem?.mp hg
  have : g.pushEnd w.idOf i ∈ pushEnds w.idOf hs.zipIdx fun h => h.src = s := mem_pushEnds.mpr ⟨i, g, hi, by simpa using hr, rfl⟩
  cases hl : (pushEnds w.idOf hs.zipIdx fun h => h.src = s) with
  | nil => rw [hl] at this; simp at this
  | cons a l => exact ⟨a, rfl⟩

theorem Rigged.hasTo (A : Rigged c hs w) {r : CompRef} (h : ∃ g ∈ hs, g.to = r) :
    ∃ o, (pullEnds w.idOf hs.zipIdx fun h => h.to = r).head?.map Prod.fst = some o := by
  obtain ⟨g, hg, hr⟩ := h
  obtain ⟨i, hi⟩ := List.mem_iff_getElem?.mp hg
  have : (g.pullEnd w.idOf i, g.input.priority) ∈ pullEnds w.idOf hs.zipIdx fun h => h.to = r := mem_pullEnds.mpr ⟨i, g, hi, by simpa using hr, rfl⟩
  cases hl : (pullEnds w.idOf hs.zipIdx fun h => h.to = r) with
  | nil => rw [hl] at this; simp at this
  | cons a l => exact ⟨a.1, rfl⟩

/-- Both halves of a buffer are there. -/
theorem Rigged.bufferNodes (A : Rigged c hs w) (hC : Complete hs) {r : CompRef} (hr : r.1 = .buffer) (hm : Mentioned hs r) :
    ∃ i o m, w.comps.get r = some (.buffer (some i) (some o) m) := by
  obtain ⟨k, hk, he⟩ := A.made' r hm (by rw [hr]; decide)
  rw [expected_buffer _ _ _ _ hr] at he
  obtain ⟨o, ho⟩ := A.hasFrom (hC.left r hm (Or.inr (Or.inl hr)))
  obtain ⟨i, hi⟩ := A.hasTo (hC.entered r hm (Or.inr hr))
  rw [ho, hi] at he
  obtain ⟨m, rfl⟩ := plain_buffer he
  exact ⟨i, o, m, hk⟩

theorem Rigged.regulatorNode (A : Rigged c hs w) (hC : Complete hs) {r : CompRef} (hr : r.1 = .regulator) (hm : Mentioned hs r) :
    ∃ i o m, w.comps.get r = some (.regulator (some i) (some o) m) := by
  obtain ⟨k, hk, he⟩ := A.made' r hm (by rw [hr]; decide)
  rw [expected_regulator _ _ _ _ hr] at he
  obtain ⟨o, ho⟩ := A.hasFrom (hC.left r hm (Or.inl hr))
  obtain ⟨i, hi⟩ := A.hasTo (hC.entered r hm (Or.inl hr))
  rw [ho, hi] at he
  obtain ⟨m, rfl⟩ := plain_regulator he
  exact ⟨i, o, m, hk⟩

/-- There is something writing into every hop's channel, unless it comes from an exit port. -/
theorem Rigged.writerNode (A : Rigged c hs w) (hC : Complete hs) {h : Hop} (hh : h ∈ hs) (hx : ¬ h.isExit) : ∃ n, w.node h.writer = some n := by
  have hm : Mentioned hs h.from := ⟨h, hh, Or.inl rfl⟩
  obtain ⟨k, hk, he⟩ := A.made' h.from hm (by
    intro hr
    obtain ⟨pre, post, heq⟩ := List.append_of_mem hh
    have := (A.all _ _ _ heq).2.2.1
    unfold CanSend at this
    rw [show h.src.ty = .drain from hr] at this
    exact this)
  have hty : h.from.1 = h.src.ty := rfl
  cases hr : h.src.ty with
  | faucet =>
    rw [expected_faucet _ _ _ _ (by rw [hty, hr])] at he
    obtain ⟨o, ho⟩ := A.hasFrom ⟨h, hh, rfl⟩
    rw [plain_faucet he, ho] at hk
    exact ⟨_, by simp only [Hop.writer, hr, Waiter.node, hk, Comp.node]; rfl⟩
  | drain =>
    exfalso
    obtain ⟨pre, post, heq⟩ := List.append_of_mem hh
    have := (A.all _ _ _ heq).2.2.1
    unfold CanSend at this
    rw [hr] at this
    exact this
  | regulator =>
    obtain ⟨i, o, m, hk⟩ := A.regulatorNode hC (by rw [hty, hr]) hm
    exact ⟨_, by simp only [Hop.writer, hr, Waiter.node, hk, Comp.node]; rfl⟩
  | buffer =>
    obtain ⟨i, o, m, hk⟩ := A.bufferNodes hC (by rw [hty, hr]) hm
    exact ⟨_, by simp only [Hop.writer, hr, Waiter.node, hk, Comp.node]; rfl⟩
  | junction =>
    rw [expected_junction _ _ _ _ (by rw [hty, hr])] at he
    rw [plain_junction he] at hk
    exact ⟨_, by simp only [Hop.writer, hr, Waiter.node, hk, Comp.node]; rfl⟩
  | launch =>
    rw [expected_launch _ _ _ _ (by rw [hty, hr])] at he
    have hsrc : ∀ p, h.src.port = p → h.src = ⟨.launch, h.from.2, p⟩ := by
      rintro p rfl; show h.src = ⟨.launch, h.src.name, h.src.port⟩; rw [← hr]
    cases hp : h.src.port with
    | exit => exact absurd ⟨hr, hp⟩ hx
    | out =>
      obtain ⟨o, ho⟩ := A.hasPort ⟨h, hh, hsrc _ hp⟩
      rw [plain_launch he, ho] at hk
      exact ⟨_, by simp only [Hop.writer, hr, hp, Waiter.node, hk, Comp.node, LaunchEnds.pipe, fromStream, relayNode]; rfl⟩
    | err =>
      obtain ⟨o, ho⟩ := A.hasPort ⟨h, hh, hsrc _ hp⟩
      rw [plain_launch he, ho] at hk
      exact ⟨_, by simp only [Hop.writer, hr, hp, Waiter.node, hk, Comp.node, LaunchEnds.pipe, fromStream, relayNode]; rfl⟩

/-- There is something reading from every hop's channel, unless it leads to a drain without what it writes to. -/
theorem Rigged.readerNode (A : Rigged c hs w) (hC : Complete hs) {h : Hop} (hh : h ∈ hs) : (∃ n, w.node h.reader = some n) ∨
    h.to.1 = .drain ∧ ∃ i, w.comps.get h.to = some (.regulator (some i) none false) ∧ ∀ ch, hs[ch]? = some h → ch = i.chan := by
  have hm : Mentioned hs h.to := ⟨h, hh, Or.inr rfl⟩
  obtain ⟨k, hk, he⟩ := A.made h.to hm
  rcases he with he | ⟨hd, i, hi, rfl⟩
  case inr => exact Or.inr ⟨hd, i, hk, fun ch hch => (A.headTo (by rw [hd]; decide) hi ch).mpr ⟨h, hch, rfl⟩⟩
  left
  have hty : h.to.1 = h.dst.ty := rfl
  cases hr : h.dst.ty with
  | faucet =>
    exfalso
    obtain ⟨pre, post, heq⟩ := List.append_of_mem hh
    have := (A.all _ _ _ heq).2.2.2
    unfold CanReceive at this
    rw [hr] at this
    exact this
  | drain =>
    rw [expected_drain _ _ _ _ (by rw [hty, hr])] at he
    obtain ⟨o, ho⟩ := A.hasTo ⟨h, hh, rfl⟩
    rw [plain_drain he, ho] at hk
    exact ⟨_, by simp only [Hop.reader, hr, Waiter.node, hk, Comp.node]; rfl⟩
  | regulator =>
    obtain ⟨i, o, m, hk⟩ := A.regulatorNode hC (by rw [hty, hr]) hm
    exact ⟨_, by simp only [Hop.reader, hr, Waiter.node, hk, Comp.node]; rfl⟩
  | buffer =>
    obtain ⟨i, o, m, hk⟩ := A.bufferNodes hC (by rw [hty, hr]) hm
    exact ⟨_, by simp only [Hop.reader, hr, Waiter.node, hk, Comp.node]; rfl⟩
  | junction =>
    rw [expected_junction _ _ _ _ (by rw [hty, hr])] at he
    rw [plain_junction he] at hk
    exact ⟨_, by simp only [Hop.reader, hr, Waiter.node, hk, Comp.node]; rfl⟩
  | launch =>
    rw [expected_launch _ _ _ _ (by rw [hty, hr])] at he
    obtain ⟨o, ho⟩ := A.hasTo ⟨h, hh, rfl⟩
    rw [plain_launch he, ho] at hk
    exact ⟨_, by simp only [Hop.reader, hr, Waiter.node, hk, Comp.node, LaunchEnds.pipe, LaunchEnds.toInput, relayNode, PullEnd.pull]; rfl⟩

theorem Assembled.readerNode (A : Assembled c hs w) (hC : Complete hs) {h : Hop} (hh : h ∈ hs) : ∃ n, w.node h.reader = some n := by
  rcases A.toRigged.readerNode hC hh with h' | ⟨hd, i, h1, _⟩
  · exact h'
  · obtain ⟨k, h2, h3⟩ := A.comps h.to ⟨h, hh, Or.inr rfl⟩
    rw [h1] at h2; cases h2
    rw [expected_drain _ _ _ _ hd] at h3; cases h3

/-- No activity both reads and writes streams. -/
theorem node_handles {k : Comp} {id n : Nat} {p : Piece} {nd : Node} (h : k.node id n p = some nd) (x : Nat) : .handle x ∈ nd.sources → .handle x ∉ nd.targets := by
  have relay : ∀ {q : Pull × Push}, relayNode q = some nd → (∀ i, q.1.source = some (.handle i) → ∀ j, q.2.target ≠ some (.handle j)) →
      .handle x ∈ nd.sources → .handle x ∉ nd.targets := by
    intro q hq hno
    obtain ⟨_, rfl⟩ := relayNode_some hq
    simp only [Node.sources, Node.targets, Option.mem_toList]
    exact fun h1 => hno x h1 x
  have out : ∀ (self s : Nat) (o : Option PushEnd) i, (fromStream self s o).1.source = some (.handle i) → ∀ j, (fromStream self s o).2.target ≠ some (.handle j) := by
    intro self s o i
    cases o with
    | none => simp [fromStream, Pull.source]
    | some o => intro _ j; simp [fromStream, push_target]
  cases k with
  | faucet f o =>
    cases o with
    | none => cases p <;> simp [Comp.node] at h
    | some o => cases p <;> simp [Comp.node] at h; subst h; simp [Node.targets, push_target]
  | launch self e pa cm ar inp out' err exit =>
    cases p with
    | input =>
      refine relay (by simpa only [Comp.node] using h) ?_
      intro i
      cases inp with
      | none => simp [LaunchEnds.pipe, LaunchEnds.toInput, Pull.source]
      | some o => simp [LaunchEnds.pipe, LaunchEnds.toInput, pull_source]
    | output => exact relay (q := LaunchEnds.pipe ⟨self, inp, out', err, exit⟩ (childOf id) .output) (by simpa only [Comp.node] using h) (out _ _ _)
    | error => exact relay (q := LaunchEnds.pipe ⟨self, inp, out', err, exit⟩ (childOf id) .error) (by simpa only [Comp.node] using h) (out _ _ _)
    | main => simp [Comp.node] at h
    | exit => simp [Comp.node] at h
    | count => simp [Comp.node] at h
  | junction ins outs =>
    cases p <;> simp [Comp.node] at h
    subst h
    simp only [Node.sources, List.mem_filterMap, List.mem_map]
    rintro ⟨_, ⟨i, _, rfl⟩, h2⟩
    rw [pull_source] at h2; simp at h2
  | buffer i o m =>
    cases i with
    | none => cases p <;> simp [Comp.node] at h
    | some i =>
      cases o with
      | none => cases p <;> simp [Comp.node] at h
      | some o =>
        cases p <;> simp [Comp.node] at h
        · subst h; simp [Node.sources, pull_source]
        · subst h; simp [Node.sources, Pull.source]
  | drain d i =>
    cases i with
    | none => cases p <;> simp [Comp.node] at h
    | some i => cases p <;> simp [Comp.node] at h; subst h; simp [Node.sources, pull_source]
  | regulator i o m =>
    cases i with
    | none => cases p <;> simp [Comp.node] at h
    | some i =>
      cases o with
      | none => cases p <;> simp [Comp.node] at h
      | some o => cases p <;> simp [Comp.node] at h; subst h; simp [Node.sources, pull_source]

/-- What runs is wired. -/
theorem Rigged.wired (A : Rigged c hs w) (hC : Complete hs) : w.net.Wired := by
  have over : ∀ {ch : Nat} {h : Hop} {r}, hs[ch]? = some h → ch = w.chans + w.idOf r → False := by
    intro ch h r h1 h2
    have := get?_lt h1
    rw [A.chans] at h2; omega
  refine ⟨?_, ?_, ?_⟩
  · intro i n hn
    obtain ⟨r, p, k, rfl, hm, hk, he, hkn⟩ := A.node_inv hn
    have apart : ∀ e ∈ n.sources, e ∉ n.targets := by
      intro e he1 he2
      cases e with
      | handle x => exact node_handles hkn x he1 he2
      | chan ch =>
        rcases (A.sources hn ch).mp he1 with ⟨h, h1, h2⟩ | ⟨hr, hp, h1⟩
        · rcases (A.targets hn ch).mp he2 with ⟨g, g1, g2⟩ | ⟨_, _, g1⟩
          · rw [h1] at g1; cases g1
            rw [Hop.reader_iff] at h2
            rw [Hop.writer_iff] at g2
            have hty : h.src.ty = r.1 := by rw [← g2.1]; rfl
            have := hC.proper h (List.mem_of_getElem? h1) (g2.1.trans h2.1.symm)
            rw [hty] at this
            have h3 := h2.2.trans g2.2.symm
            obtain ⟨pre, post, heq⟩ := List.append_of_mem (List.mem_of_getElem? h1)
            have hmk := A.all _ _ _ heq
            cases hr : r.1 with
            | faucet =>
              have h4 := hmk.2.2.2
              unfold CanReceive at h4
              rw [show h.dst.ty = .faucet by rw [← hr, ← h2.1]; rfl] at h4
              exact h4
            | drain =>
              have h4 := hmk.2.2.1
              unfold CanSend at h4
              rw [hty, hr] at h4
              exact h4
            | junction => exact this.1 hr
            | regulator => exact this.2 hr
            | buffer => rw [hr] at h3; simp at h3
            | launch => rw [hr] at h3; simp at h3; split at h3 <;> simp at h3
          · exact over h1 g1
        · rcases (A.targets hn ch).mp he2 with ⟨g, g1, _⟩ | ⟨_, g2, _⟩
          · exact over g1 h1
          · rw [hp] at g2; cases g2
    refine ⟨apart, ?_⟩
    cases hr : r.1 with
    | faucet =>
      rw [expected_faucet _ _ _ _ hr] at he
      rw [plain_faucet he] at hkn
      cases ho : (pushEnds w.idOf hs.zipIdx fun h => h.from = r).head? with
      | none => rw [ho] at hkn; cases p <;> simp [Comp.node] at hkn
      | some o => rw [ho] at hkn; cases p <;> simp [Comp.node] at hkn; subst hkn; simp
    | drain =>
      rw [expected_drain _ _ _ _ hr] at he
      rw [plain_drain he] at hkn
      cases ho : (pullEnds w.idOf hs.zipIdx fun h => h.to = r).head?.map Prod.fst with
      | none => rw [ho] at hkn; cases p <;> simp [Comp.node] at hkn
      | some o => rw [ho] at hkn; cases p <;> simp [Comp.node] at hkn; subst hkn; simp [PullEnd.pull]
    | regulator =>
      obtain ⟨i, o, m, hk'⟩ := A.regulatorNode hC hr hm
      rw [hk] at hk'; cases hk'
      cases p <;> simp [Comp.node] at hkn
      subst hkn; simp [PullEnd.pull]
    | buffer =>
      obtain ⟨i, o, m, hk'⟩ := A.bufferNodes hC hr hm
      rw [hk] at hk'; cases hk'
      cases p <;> simp [Comp.node] at hkn <;> (subst hkn; simp [PullEnd.pull])
    | launch =>
      rw [expected_launch _ _ _ _ hr] at he
      rw [plain_launch he] at hkn
      cases p <;> simp only [Comp.node] at hkn
      case input => obtain ⟨h1, rfl⟩ := relayNode_some hkn; exact ⟨h1, by simp⟩
      case output => obtain ⟨h1, rfl⟩ := relayNode_some hkn; exact ⟨h1, by simp⟩
      case error => obtain ⟨h1, rfl⟩ := relayNode_some hkn; exact ⟨h1, by simp⟩
      all_goals cases hkn
    | junction =>
      rw [expected_junction _ _ _ _ hr] at he
      rw [plain_junction he] at hkn
      cases p <;> simp [Comp.node] at hkn
      subst hkn
      refine ⟨?_, ?_, ?_, ?_, ?_⟩
      · intro x hx
        obtain ⟨y, _, rfl⟩ := List.mem_map.mp hx
        exact ⟨_, _, rfl⟩
      · have := filter_nodup hs (fun x => decide (x.1.to = r))
        simp only [pullEnds, List.map_map]
        have e : (List.map ((fun x : Pull × Int => x.1.source) ∘ (fun x : PullEnd × Int => (x.1.pull, x.2)) ∘ fun x : Hop × Nat => (x.1.pullEnd w.idOf x.2, x.1.input.priority))
            (hs.zipIdx.filter fun x => decide (x.1.to = r))) = ((hs.zipIdx.filter fun x => decide (x.1.to = r)).map Prod.snd).map fun i => some (End.chan i) := by
          rw [List.map_map]; rfl
        rw [e]
        exact List.Pairwise.map _ (fun a b hab e => hab (by simpa using e)) this
      · intro x hx
        obtain ⟨y, _, rfl⟩ := List.mem_map.mp hx
        exact ⟨_, _, rfl⟩
      · have := filter_nodup hs (fun x => decide (x.1.from = r))
        simp only [pushEnds, List.map_map]
        rw [List.filterMap_map]
        have e : List.filterMap (Push.target ∘ (PushEnd.push ∘ fun x : Hop × Nat => x.1.pushEnd w.idOf x.2)) (hs.zipIdx.filter fun x => decide (x.1.from = r)) =
            ((hs.zipIdx.filter fun x => decide (x.1.from = r)).map Prod.snd).map fun i => End.chan i := by
          rw [List.map_map, ← List.filterMap_eq_map]; rfl
        rw [e]
        exact List.Pairwise.map _ (fun a b hab e => hab (by simpa using e)) this
      · obtain ⟨o, ho⟩ := A.hasFrom (hC.left r hm (Or.inr (Or.inr hr)))
        intro h0
        have : (pushEnds w.idOf hs.zipIdx fun h => h.from = r) = [] := by simpa using h0
        rw [this] at ho; cases ho
  · intro i j n m ch hn hm hin hjm
    obtain ⟨r, p, _, rfl, hr, _⟩ := A.node_inv hn
    obtain ⟨r', p', _, rfl, hr', _⟩ := A.node_inv hm
    rcases (A.targets hn ch).mp hin with ⟨h, h1, h2⟩ | ⟨_, h2, h1⟩
    · rcases (A.targets hm ch).mp hjm with ⟨g, g1, g2⟩ | ⟨_, g2, g1⟩
      · rw [h1] at g1; cases g1; exact h2.symm.trans g2
      · exact (over h1 g1).elim
    · rcases (A.targets hm ch).mp hjm with ⟨g, g1, g2⟩ | ⟨_, g2, g1⟩
      · exact (over g1 h1).elim
      · rw [A.distinct r r' hr hr' (by omega), h2, g2]
  · intro i j n m ch hn hm hin hjm
    obtain ⟨r, p, _, rfl, hr, _⟩ := A.node_inv hn
    obtain ⟨r', p', _, rfl, hr', _⟩ := A.node_inv hm
    rcases (A.sources hn ch).mp hin with ⟨h, h1, h2⟩ | ⟨_, h2, h1⟩
    · rcases (A.sources hm ch).mp hjm with ⟨g, g1, g2⟩ | ⟨_, g2, g1⟩
      · rw [h1] at g1; cases g1; exact h2.symm.trans g2
      · exact (over h1 g1).elim
    · rcases (A.sources hm ch).mp hjm with ⟨g, g1, g2⟩ | ⟨_, g2, g1⟩
      · exact (over g1 h1).elim
      · rw [A.distinct r r' hr hr' (by omega), h2, g2]

/-- The channels between activities. -/
theorem Rigged.edges (A : Rigged c hs w) (hC : Complete hs) (a : Who) (ch : Nat) (b : Who) :
    w.net.Edge a ch b ↔ (∃ h, hs[ch]? = some h ∧ ¬ h.isExit ∧ a = h.writer ∧ b = h.reader ∧ ∃ m, w.node h.reader = some m) ∨
      (∃ x, Mentioned hs (.buffer, x) ∧ ch = hs.length + w.idOf (.buffer, x) ∧ a = .part (.buffer, x) .input ∧ b = .part (.buffer, x) .output) := by
  have over : ∀ {ch : Nat} {h : Hop} {r}, hs[ch]? = some h → ch = w.chans + w.idOf r → False := by
    intro ch h r h1 h2
    have := get?_lt h1
    rw [A.chans] at h2; omega
  constructor
  · rintro ⟨n, m, hn, hm, ht, hs'⟩
    obtain ⟨r, p, k, rfl, hr, hk, he, hkn⟩ := A.node_inv hn
    obtain ⟨r', p', _, rfl, hr', _⟩ := A.node_inv hm
    rcases (A.targets hn ch).mp ht with ⟨h, h1, h2⟩ | ⟨hb, h2, h1⟩
    · rcases (A.sources hm ch).mp hs' with ⟨g, g1, g2⟩ | ⟨_, _, g1⟩
      · rw [h1] at g1; cases g1
        refine Or.inl ⟨h, h1, ?_, h2.symm, g2.symm, _, by rw [g2]; exact hm⟩
        rintro ⟨hx1, hx2⟩
        have : p = .exit := by
          have := (Hop.writer_iff.mp h2).2
          rw [show r.1 = .launch by rw [← hx1, ← (Hop.writer_iff.mp h2).1]; rfl, hx2] at this
          exact this.symm
        subst this
        cases k <;> simp [Comp.node] at hkn
      · exact (over h1 g1).elim
    · rcases (A.sources hm ch).mp hs' with ⟨g, g1, _⟩ | ⟨hb', g2, g1⟩
      · exact (over g1 h1).elim
      · have := A.distinct r r' hr hr' (by omega)
        subst this
        obtain ⟨ty, x⟩ := r
        simp only at hb
        subst hb
        exact Or.inr ⟨x, hr, by rw [← A.chans]; exact h1, by rw [h2], by rw [g2]⟩
  · rintro (⟨h, h1, hx, rfl, rfl, m, hm⟩ | ⟨x, hm, h1, rfl, rfl⟩)
    · have hh := List.mem_of_getElem? h1
      obtain ⟨n, hn⟩ := A.writerNode hC hh hx
      exact ⟨n, m, hn, hm, (A.targets hn ch).mpr (Or.inl ⟨h, h1, rfl⟩), (A.sources hm ch).mpr (Or.inl ⟨h, h1, rfl⟩)⟩
    · obtain ⟨i, o, m, hk⟩ := A.bufferNodes hC rfl hm
      have h1' : w.node (.part (.buffer, x) .input) = some (.relay i.pull { written := some (2 * w.idOf (.buffer, x)) } none (.sender ⟨0, none, 0, o.breakable⟩ (w.chans + w.idOf (.buffer, x)))) := by
        simp only [Waiter.node, hk, Comp.node]
      have h2' : w.node (.part (.buffer, x) .output) = some (.relay (.receiver ⟨0, 0⟩ (w.chans + w.idOf (.buffer, x))) { read := some (2 * w.idOf (.buffer, x) + 1) } none o.push) := by
        simp only [Waiter.node, hk, Comp.node]
      rw [← A.chans] at h1
      exact ⟨_, _, h1', h2', (A.targets h1' ch).mpr (Or.inr ⟨rfl, rfl, h1⟩), (A.sources h2' ch).mpr (Or.inr ⟨rfl, rfl, h1⟩)⟩

theorem Assembled.edges (A : Assembled c hs w) (hC : Complete hs) (a : Who) (ch : Nat) (b : Who) :
    w.net.Edge a ch b ↔ (∃ h, hs[ch]? = some h ∧ ¬ h.isExit ∧ a = h.writer ∧ b = h.reader) ∨
      (∃ x, Mentioned hs (.buffer, x) ∧ ch = hs.length + w.idOf (.buffer, x) ∧ a = .part (.buffer, x) .input ∧ b = .part (.buffer, x) .output) := by
  rw [A.toRigged.edges hC]
  constructor
  · rintro (⟨h, h1, h2, h3, h4, _⟩ | h)
    · exact Or.inl ⟨h, h1, h2, h3, h4⟩
    · exact Or.inr h
  · rintro (⟨h, h1, h2, h3, h4⟩ | h)
    · exact Or.inl ⟨h, h1, h2, h3, h4, A.readerNode hC (List.mem_of_getElem? h1)⟩
    · exact Or.inr h

end
end Verif
