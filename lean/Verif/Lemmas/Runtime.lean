import Verif.Spec.Runtime
import Verif.Props.Wiring
/-!
# Lemmas: the activities of a runtime and their channels
-/
namespace Verif

/-- Without the marks made when the managers are prepared. -/
def Comp.plain : Comp → Comp
  | .buffer i o _ => .buffer i o false
  | .regulator i o _ => .regulator i o false
  | k => k

/-- What is known of a runtime made of hops, its managers being prepared or not, some of whose drains may have been left with nothing but the input they let go of:
such a drain is shown as a regulator that lacks its output. -/
structure Rigged (c : Config) (hs : List Hop) (w : Waiter) : Prop where
  all : AllMakeable c hs
  made : ∀ r, Mentioned hs r → ∃ k, w.comps.get r = some k ∧ (k.plain = expected c w.idOf hs.zipIdx hs.zipIdx r ∨
    r.1 = .drain ∧ ∃ i, (pullEnds w.idOf hs.zipIdx fun h => h.to = r).head?.map Prod.fst = some i ∧ k = .regulator (some i) none false)
  only : ∀ r, ¬ Mentioned hs r → w.comps.get r = none
  distinct : ∀ r r', Mentioned hs r → Mentioned hs r' → w.idOf r = w.idOf r' → r = r'
  chans : w.chans = hs.length

/-- What is known of a runtime made of hops, its managers being prepared or not. -/
structure Assembled (c : Config) (hs : List Hop) (w : Waiter) : Prop extends Rigged c hs w where
  comps : ∀ r, Mentioned hs r → ∃ k, w.comps.get r = some k ∧ k.plain = expected c w.idOf hs.zipIdx hs.zipIdx r

/-- Only drains can be without what they write to. -/
theorem Rigged.made' {c hs w} (A : Rigged c hs w) (r : CompRef) (hm : Mentioned hs r) (hd : r.1 ≠ .drain) :
    ∃ k, w.comps.get r = some k ∧ k.plain = expected c w.idOf hs.zipIdx hs.zipIdx r := by
  obtain ⟨k, hk, h | ⟨h, _⟩⟩ := A.made r hm
  · exact ⟨k, hk, h⟩
  · exact absurd h hd

theorem mem_pushEnds {id : CompRef → Nat} {hs : List Hop} {q : Hop → Bool} {x : PushEnd} :
    x ∈ pushEnds id hs.zipIdx q ↔ ∃ i h, hs[i]? = some h ∧ q h = true ∧ x = h.pushEnd id i := by
  simp only [pushEnds, List.mem_map, List.mem_filter, List.mem_zipIdx_iff_getElem?]
  constructor
  · rintro ⟨⟨h, i⟩, ⟨h1, h2⟩, rfl⟩; exact ⟨i, h, h1, h2, rfl⟩
  · rintro ⟨i, h, h1, h2, rfl⟩; exact ⟨⟨h, i⟩, ⟨h1, h2⟩, rfl⟩

theorem mem_pullEnds {id : CompRef → Nat} {hs : List Hop} {q : Hop → Bool} {x : PullEnd × Int} :
    x ∈ pullEnds id hs.zipIdx q ↔ ∃ i h, hs[i]? = some h ∧ q h = true ∧ x = (h.pullEnd id i, h.input.priority) := by
  simp only [pullEnds, List.mem_map, List.mem_filter, List.mem_zipIdx_iff_getElem?]
  constructor
  · rintro ⟨⟨h, i⟩, ⟨h1, h2⟩, rfl⟩; exact ⟨i, h, h1, h2, rfl⟩
  · rintro ⟨i, h, h1, h2, rfl⟩; exact ⟨⟨h, i⟩, ⟨h1, h2⟩, rfl⟩

theorem Hop.writer_iff {h : Hop} {r : CompRef} {p : Piece} : h.writer = .part r p ↔ h.from = r ∧
    (match r.1 with
      | .launch => match h.src.port with
        | .out => Piece.output
        | .err => .error
        | .exit => .exit
      | .buffer => .output
      | _ => .main) = p := by
  unfold Hop.writer
  constructor
  · intro e
    simp only [Who.part.injEq] at e
    obtain ⟨rfl, e⟩ := e
    exact ⟨rfl, e⟩
  · rintro ⟨rfl, rfl⟩; rfl

theorem Hop.reader_iff {h : Hop} {r : CompRef} {p : Piece} : h.reader = .part r p ↔ h.to = r ∧
    (match r.1 with
      | .launch => Piece.input
      | .buffer => .input
      | _ => .main) = p := by
  unfold Hop.reader
  constructor
  · intro e
    simp only [Who.part.injEq] at e
    obtain ⟨rfl, e⟩ := e
    exact ⟨rfl, e⟩
  · rintro ⟨rfl, rfl⟩; rfl

/-- The only hop from a component, if it can have just one. -/
theorem Rigged.headFrom {c hs w} (A : Rigged c hs w) {r : CompRef} (hj : r.1 ≠ .junction) (hl : r.1 ≠ .launch) {o : PushEnd}
    (ho : (pushEnds w.idOf hs.zipIdx fun h => h.from = r).head? = some o) (ch : Nat) : ch = o.chan ↔ ∃ h, hs[ch]? = some h ∧ h.from = r := by
  have h1 := A.all.oneFrom hj hl w.idOf
  rw [ho] at h1
  have hmem : ∀ x, x ∈ (pushEnds w.idOf hs.zipIdx fun h => h.from = r) ↔ x = o := by intro x; rw [← h1]; simp
  constructor
  · rintro rfl
    obtain ⟨i, h, e1, e2, rfl⟩ := mem_pushEnds.mp ((hmem o).mpr rfl)
    exact ⟨h, e1, by simpa using e2⟩
  · rintro ⟨h, e1, e2⟩
    have := (hmem _).mp (mem_pushEnds.mpr ⟨ch, h, e1, by simpa using e2, rfl⟩)
    rw [← this]; rfl

theorem Rigged.headPort {c hs w} (A : Rigged c hs w) {s : OutRef} (hl : s.ty = .launch) {o : PushEnd}
    (ho : (pushEnds w.idOf hs.zipIdx fun h => h.src = s).head? = some o) (ch : Nat) : ch = o.chan ↔ ∃ h, hs[ch]? = some h ∧ h.src = s := by
  have h1 := A.all.onePort hl w.idOf
  rw [ho] at h1
  have hmem : ∀ x, x ∈ (pushEnds w.idOf hs.zipIdx fun h => h.src = s) ↔ x = o := by intro x; rw [← h1]; simp
  constructor
  · rintro rfl
    obtain ⟨i, h, e1, e2, rfl⟩ := mem_pushEnds.mp ((hmem o).mpr rfl)
    exact ⟨h, e1, by simpa using e2⟩
  · rintro ⟨h, e1, e2⟩
    have := (hmem _).mp (mem_pushEnds.mpr ⟨ch, h, e1, by simpa using e2, rfl⟩)
    rw [← this]; rfl

theorem Rigged.headTo {c hs w} (A : Rigged c hs w) {r : CompRef} (hj : r.1 ≠ .junction) {o : PullEnd}
    (ho : (pullEnds w.idOf hs.zipIdx fun h => h.to = r).head?.map Prod.fst = some o) (ch : Nat) : ch = o.chan ↔ ∃ h, hs[ch]? = some h ∧ h.to = r := by
  have h1 := A.all.oneTo hj w.idOf
  rw [ho] at h1
  have hmem : ∀ x, x ∈ (pullEnds w.idOf hs.zipIdx fun h => h.to = r) ↔ x = (o, 0) := by intro x; rw [← h1]; simp
  constructor
  · rintro rfl
    obtain ⟨i, h, e1, e2, e3⟩ := mem_pullEnds.mp ((hmem (o, 0)).mpr rfl)
    simp only [Prod.mk.injEq] at e3
    exact ⟨h, by rw [e3.1]; exact e1, by simpa using e2⟩
  · rintro ⟨h, e1, e2⟩
    have := (hmem _).mp (mem_pullEnds.mpr ⟨ch, h, e1, by simpa using e2, rfl⟩)
    simp only [Prod.mk.injEq] at this
    rw [← this.1]; rfl

/-- A component that is there is as expected, apart from marks. -/
theorem Rigged.node_inv {c hs w} (A : Rigged c hs w) {i : Who} {n : Node} (h : w.node i = some n) :
    ∃ r p k, i = .part r p ∧ Mentioned hs r ∧ w.comps.get r = some k ∧ k.plain = expected c w.idOf hs.zipIdx hs.zipIdx r ∧ k.node (w.idOf r) w.chans p = some n := by
  cases i with
  | manager => simp [Waiter.node] at h
  | part r p =>
    by_cases hm : Mentioned hs r
    · obtain ⟨k, hk, he⟩ := A.made r hm
      simp only [Waiter.node, hk] at h
      rcases he with he | ⟨_, i, _, rfl⟩
      · exact ⟨r, p, k, rfl, hm, hk, he, h⟩
      · cases p <;> simp [Comp.node] at h
    · simp [Waiter.node, A.only r hm] at h

theorem plain_faucet {k : Comp} {s o} (h : k.plain = .faucet s o) : k = .faucet s o := by
  cases k <;> simp [Comp.plain] at h ⊢; exact h
theorem plain_drain {k : Comp} {s o} (h : k.plain = .drain s o) : k = .drain s o := by
  cases k <;> simp [Comp.plain] at h ⊢; exact h
theorem plain_junction {k : Comp} {s o} (h : k.plain = .junction s o) : k = .junction s o := by
  cases k <;> simp [Comp.plain] at h ⊢; exact h
theorem plain_launch {k : Comp} {a b d e f g h' i j} (h : k.plain = .launch a b d e f g h' i j) : k = .launch a b d e f g h' i j := by
  cases k <;> simp [Comp.plain] at h ⊢; exact h
theorem plain_buffer {k : Comp} {s o} (h : k.plain = .buffer s o false) : ∃ m, k = .buffer s o m := by
  cases k <;> simp [Comp.plain] at h ⊢; exact h
theorem plain_regulator {k : Comp} {s o} (h : k.plain = .regulator s o false) : ∃ m, k = .regulator s o m := by
  cases k <;> simp [Comp.plain] at h ⊢; exact h

theorem relayNode_some {x : Pull × Push} {n : Node} (h : relayNode x = some n) : x.1 ≠ .none ∧ n = .relay x.1 {} none x.2 := by
  obtain ⟨pull, push⟩ := x
  cases pull <;> simp [relayNode] at h ⊢ <;> exact h.symm

theorem push_target (o : PushEnd) : o.push.target = some (.chan o.chan) := rfl
theorem pull_source (o : PullEnd) : o.pull.source = some (.chan o.chan) := rfl
theorem drainPush_target (d : Str) (i : PullEnd) (h ch : Nat) : (drainPush d i h).target ≠ some (.chan ch) := by
  unfold drainPush; split <;> simp [Push.target]

/-- What the activities of a runtime write to. -/
theorem Rigged.targets {c hs w} (A : Rigged c hs w) {r : CompRef} {p : Piece} {n : Node} (h : w.node (.part r p) = some n) (ch : Nat) :
    .chan ch ∈ n.targets ↔ (∃ h, hs[ch]? = some h ∧ h.writer = .part r p) ∨ (r.1 = .buffer ∧ p = .input ∧ ch = w.chans + w.idOf r) := by
  obtain ⟨r', p', k, e, hm, _, he, hn⟩ := A.node_inv h
  simp only [Who.part.injEq] at e
  obtain ⟨rfl, rfl⟩ := e
  simp only [Hop.writer_iff]
  cases hr : r.1 with
  | faucet =>
    rw [expected_faucet _ _ _ _ hr] at he
    rw [plain_faucet he] at hn
    cases ho : (pushEnds w.idOf hs.zipIdx fun h => h.from = r).head? with
    | none => rw [ho] at hn; cases p <;> simp [Comp.node] at hn
    | some o =>
      rw [ho] at hn
      cases p <;> simp [Comp.node] at hn
      subst hn
      have := A.headFrom (by simp [hr]) (by simp [hr]) ho ch
      simp [Node.targets, push_target, this]
  | drain =>
    rw [expected_drain _ _ _ _ hr] at he
    rw [plain_drain he] at hn
    cases ho : (pullEnds w.idOf hs.zipIdx fun h => h.to = r).head?.map Prod.fst with
    | none => rw [ho] at hn; cases p <;> simp [Comp.node] at hn
    | some o =>
      rw [ho] at hn
      cases p <;> simp [Comp.node] at hn
      subst hn
      simp only [Node.targets, Option.mem_toList, reduceCtorEq, false_and, or_false, and_true]
      constructor
      · intro h; exact absurd h (drainPush_target _ _ _ _)
      · rintro ⟨g, h1, h2⟩
        exfalso
        obtain ⟨pre, post, heq⟩ := List.append_of_mem (List.mem_of_getElem? h1)
        have := (A.all _ _ _ heq).2.2.1
        unfold CanSend at this
        rw [show g.src.ty = .drain by rw [← hr, ← h2]; rfl] at this
        exact this
  | regulator =>
    rw [expected_regulator _ _ _ _ hr] at he
    obtain ⟨m, rfl⟩ := plain_regulator he
    cases hi : (pullEnds w.idOf hs.zipIdx fun h => h.to = r).head?.map Prod.fst with
    | none => rw [hi] at hn; cases p <;> simp [Comp.node] at hn
    | some i =>
      cases ho : (pushEnds w.idOf hs.zipIdx fun h => h.from = r).head? with
      | none => rw [ho, hi] at hn; cases p <;> simp [Comp.node] at hn
      | some o =>
        rw [ho, hi] at hn
        cases p <;> simp [Comp.node] at hn
        subst hn
        have := A.headFrom (by simp [hr]) (by simp [hr]) ho ch
        simp [Node.targets, push_target, this]
  | buffer =>
    rw [expected_buffer _ _ _ _ hr] at he
    obtain ⟨m, rfl⟩ := plain_buffer he
    cases hi : (pullEnds w.idOf hs.zipIdx fun h => h.to = r).head?.map Prod.fst with
    | none => rw [hi] at hn; cases p <;> simp [Comp.node] at hn
    | some i =>
      cases ho : (pushEnds w.idOf hs.zipIdx fun h => h.from = r).head? with
      | none => rw [ho, hi] at hn; cases p <;> simp [Comp.node] at hn
      | some o =>
        rw [ho, hi] at hn
        cases p <;> simp [Comp.node] at hn
        · subst hn
          simp [Node.targets, Push.target]
        · subst hn
          have := A.headFrom (by simp [hr]) (by simp [hr]) ho ch
          simp [Node.targets, push_target, this]
  | junction =>
    rw [expected_junction _ _ _ _ hr] at he
    rw [plain_junction he] at hn
    cases p <;> simp [Comp.node] at hn
    subst hn
    simp only [Node.targets, List.mem_filterMap, List.mem_map, reduceCtorEq, false_and, or_false, and_true]
    constructor
    · rintro ⟨_, ⟨o, ho, rfl⟩, h2⟩
      obtain ⟨i, h, e1, e2, rfl⟩ := mem_pushEnds.mp ho
      rw [push_target] at h2
      simp [Hop.pushEnd] at h2
      subst h2
      exact ⟨h, e1, by simpa using e2⟩
    · rintro ⟨h, e1, e2⟩
      exact ⟨_, ⟨_, mem_pushEnds.mpr ⟨ch, h, e1, by simpa using e2, rfl⟩, rfl⟩, rfl⟩
  | launch =>
    rw [expected_launch _ _ _ _ hr] at he
    rw [plain_launch he] at hn
    have hsrc : ∀ (g : Hop) port, g.src = ⟨.launch, r.2, port⟩ ↔ g.from = r ∧ g.src.port = port := by
      intro g port
      obtain ⟨ty, nm⟩ := r
      simp only at hr
      subst hr
      obtain ⟨⟨_, _, _⟩, _, _, _, _⟩ := g
      simp [Hop.from, and_assoc]
    cases p with
    | input =>
      obtain ⟨h1, rfl⟩ := relayNode_some (by simpa only [Comp.node] using hn)
      simp only [LaunchEnds.pipe, LaunchEnds.toInput] at h1 ⊢
      split
      · next h0 => rw [h0] at h1; simp at h1
      · simp only [Node.targets, Push.target, Option.toList_some, List.mem_singleton, reduceCtorEq, false_and, or_false, false_iff]
        rintro ⟨h, _, _, h3⟩
        split at h3 <;> simp at h3
    | output =>
      obtain ⟨h1, rfl⟩ := relayNode_some (by simpa only [Comp.node] using hn)
      cases ho : (pushEnds w.idOf hs.zipIdx fun h => h.src = ⟨.launch, r.2, .out⟩).head? with
      | none => simp [LaunchEnds.pipe, fromStream, ho] at h1
      | some o =>
        have := A.headPort (s := ⟨.launch, r.2, .out⟩) rfl ho ch
        simp only [LaunchEnds.pipe, fromStream, ho, Node.targets, push_target, Option.toList_some, List.mem_singleton, End.chan.injEq, this, reduceCtorEq, false_and, or_false, hsrc]
        constructor
        · rintro ⟨h, e1, e2, e3⟩; exact ⟨h, e1, e2, by simp [e3]⟩
        · rintro ⟨h, e1, e2, e3⟩; refine ⟨h, e1, e2, ?_⟩; split at e3 <;> simp_all
    | error =>
      obtain ⟨h1, rfl⟩ := relayNode_some (by simpa only [Comp.node] using hn)
      cases ho : (pushEnds w.idOf hs.zipIdx fun h => h.src = ⟨.launch, r.2, .err⟩).head? with
      | none => simp [LaunchEnds.pipe, fromStream, ho] at h1
      | some o =>
        have := A.headPort (s := ⟨.launch, r.2, .err⟩) rfl ho ch
        simp only [LaunchEnds.pipe, fromStream, ho, Node.targets, push_target, Option.toList_some, List.mem_singleton, End.chan.injEq, this, reduceCtorEq, false_and, or_false, hsrc]
        constructor
        · rintro ⟨h, e1, e2, e3⟩; exact ⟨h, e1, e2, by simp [e3]⟩
        · rintro ⟨h, e1, e2, e3⟩; refine ⟨h, e1, e2, ?_⟩; split at e3 <;> simp_all
    | main => simp [Comp.node] at hn
    | exit => simp [Comp.node] at hn
    | count => simp [Comp.node] at hn

/-- What the activities of a runtime read from. -/
theorem Rigged.sources {c hs w} (A : Rigged c hs w) {r : CompRef} {p : Piece} {n : Node} (h : w.node (.part r p) = some n) (ch : Nat) :
    .chan ch ∈ n.sources ↔ (∃ h, hs[ch]? = some h ∧ h.reader = .part r p) ∨ (r.1 = .buffer ∧ p = .output ∧ ch = w.chans + w.idOf r) := by
  obtain ⟨r', p', k, e, hm, _, he, hn⟩ := A.node_inv h
  simp only [Who.part.injEq] at e
  obtain ⟨rfl, rfl⟩ := e
  simp only [Hop.reader_iff]
  cases hr : r.1 with
  | faucet =>
    rw [expected_faucet _ _ _ _ hr] at he
    rw [plain_faucet he] at hn
    cases ho : (pushEnds w.idOf hs.zipIdx fun h => h.from = r).head? with
    | none => rw [ho] at hn; cases p <;> simp [Comp.node] at hn
    | some o =>
      rw [ho] at hn
      cases p <;> simp [Comp.node] at hn
      subst hn
      simp only [Node.sources, Pull.source, Option.toList_some, List.mem_singleton, reduceCtorEq, false_and, or_false, and_true, false_iff]
      rintro ⟨g, h1, h2⟩
      obtain ⟨pre, post, heq⟩ := List.append_of_mem (List.mem_of_getElem? h1)
      have := (A.all _ _ _ heq).2.2.2
      unfold CanReceive at this
      rw [show g.dst.ty = .faucet by rw [← hr, ← h2]; rfl] at this
      exact this
  | drain =>
    rw [expected_drain _ _ _ _ hr] at he
    rw [plain_drain he] at hn
    cases ho : (pullEnds w.idOf hs.zipIdx fun h => h.to = r).head?.map Prod.fst with
    | none => rw [ho] at hn; cases p <;> simp [Comp.node] at hn
    | some o =>
      rw [ho] at hn
      cases p <;> simp [Comp.node] at hn
      subst hn
      have := A.headTo (by simp [hr]) ho ch
      simp [Node.sources, pull_source, this]
  | regulator =>
    rw [expected_regulator _ _ _ _ hr] at he
    obtain ⟨m, rfl⟩ := plain_regulator he
    cases hi : (pullEnds w.idOf hs.zipIdx fun h => h.to = r).head?.map Prod.fst with
    | none => rw [hi] at hn; cases p <;> simp [Comp.node] at hn
    | some i =>
      cases ho : (pushEnds w.idOf hs.zipIdx fun h => h.from = r).head? with
      | none => rw [ho, hi] at hn; cases p <;> simp [Comp.node] at hn
      | some o =>
        rw [ho, hi] at hn
        cases p <;> simp [Comp.node] at hn
        subst hn
        have := A.headTo (by simp [hr]) hi ch
        simp [Node.sources, pull_source, this]
  | buffer =>
    rw [expected_buffer _ _ _ _ hr] at he
    obtain ⟨m, rfl⟩ := plain_buffer he
    cases hi : (pullEnds w.idOf hs.zipIdx fun h => h.to = r).head?.map Prod.fst with
    | none => rw [hi] at hn; cases p <;> simp [Comp.node] at hn
    | some i =>
      cases ho : (pushEnds w.idOf hs.zipIdx fun h => h.from = r).head? with
      | none => rw [ho, hi] at hn; cases p <;> simp [Comp.node] at hn
      | some o =>
        rw [ho, hi] at hn
        cases p <;> simp [Comp.node] at hn
        · subst hn
          have := A.headTo (by simp [hr]) hi ch
          simp [Node.sources, pull_source, this]
        · subst hn
          simp [Node.sources, Pull.source]
  | junction =>
    rw [expected_junction _ _ _ _ hr] at he
    rw [plain_junction he] at hn
    cases p <;> simp [Comp.node] at hn
    subst hn
    simp only [Node.sources, List.mem_filterMap, List.mem_map, reduceCtorEq, false_and, or_false, and_true]
    constructor
    · rintro ⟨_, ⟨o, ho, rfl⟩, h2⟩
      obtain ⟨i, h, e1, e2, rfl⟩ := mem_pullEnds.mp ho
      simp only [pull_source] at h2
      simp [Hop.pullEnd] at h2
      subst h2
      exact ⟨h, e1, by simpa using e2⟩
    · rintro ⟨h, e1, e2⟩
      exact ⟨_, ⟨_, mem_pullEnds.mpr ⟨ch, h, e1, by simpa using e2, rfl⟩, rfl⟩, rfl⟩
  | launch =>
    rw [expected_launch _ _ _ _ hr] at he
    rw [plain_launch he] at hn
    cases p with
    | input =>
      obtain ⟨h1, rfl⟩ := relayNode_some (by simpa only [Comp.node] using hn)
      cases hi : (pullEnds w.idOf hs.zipIdx fun h => h.to = r).head?.map Prod.fst with
      | none => simp [LaunchEnds.pipe, LaunchEnds.toInput, hi] at h1
      | some o =>
        have := A.headTo (by simp [hr]) hi ch
        simp [LaunchEnds.pipe, LaunchEnds.toInput, hi, Node.sources, pull_source, this]
    | output =>
      obtain ⟨h1, rfl⟩ := relayNode_some (by simpa only [Comp.node] using hn)
      cases ho : (pushEnds w.idOf hs.zipIdx fun h => h.src = ⟨.launch, r.2, .out⟩).head? with
      | none => simp [LaunchEnds.pipe, fromStream, ho] at h1
      | some o => simp [LaunchEnds.pipe, fromStream, ho, Node.sources, Pull.source]
    | error =>
      obtain ⟨h1, rfl⟩ := relayNode_some (by simpa only [Comp.node] using hn)
      cases ho : (pushEnds w.idOf hs.zipIdx fun h => h.src = ⟨.launch, r.2, .err⟩).head? with
      | none => simp [LaunchEnds.pipe, fromStream, ho] at h1
      | some o => simp [LaunchEnds.pipe, fromStream, ho, Node.sources, Pull.source]
    | main => simp [Comp.node] at hn
    | exit => simp [Comp.node] at hn
    | count => simp [Comp.node] at hn


/-! ## Where they come from -/

theorem configure_chans (l : Map RegulatorConfig) (w : Waiter) : (l.foldl configureOne w).chans = w.chans := by
  induction l generalizing w with
  | nil => rfl
  | cons x l ih =>
    rw [List.foldl_cons, ih]
    unfold configureOne Waiter.configureRegulator
    split
    · rfl
    · split <;> rfl

theorem wiring_chans (c : Config) (R : Map Hop) (hc : c.connection = hopSets R) {w : Waiter} (hw : getWaiter c = .ok w) : w.chans = R.length := by
  unfold getWaiter at hw
  rw [hc, show hopSets R = conns R from rfl, allConnections_conns] at hw
  simp only at hw
  rcases wire_hops (R.map (·.2)) (wireInv_new c) (by rintro r ⟨h, hh, _⟩; simp at hh) with ⟨_, w', L, e, h⟩ | ⟨_, _, _, e, _, _, _, he, _⟩
  · rw [e] at hw
    simp only [Built.ok.injEq] at hw
    rw [← hw, configure_chans, h.chans]
    simp
  · rw [he] at hw; cases hw

/-- The same apart from marks. -/
structure SamePlain (w w' : Waiter) : Prop where
  comps : ∀ r, (w'.comps.get r).map Comp.plain = (w.comps.get r).map Comp.plain
  ids : w'.ids = w.ids
  names : w'.names = w.names
  chans : w'.chans = w.chans

theorem SamePlain.refl (w : Waiter) : SamePlain w w := ⟨fun _ => rfl, rfl, rfl, rfl⟩
theorem SamePlain.trans {w w' w'' : Waiter} (h : SamePlain w w') (h' : SamePlain w' w'') : SamePlain w w'' :=
  ⟨fun r => (h'.comps r).trans (h.comps r), h'.ids.trans h.ids, h'.names.trans h.names, h'.chans.trans h.chans⟩

theorem SamePlain.put {w : Waiter} {r : CompRef} {k k' : Comp} (h : w.comps.get r = some k) (hk : k'.plain = k.plain) :
    SamePlain w { w with comps := w.comps.put r k' } := by
  refine ⟨fun x => ?_, rfl, rfl, rfl⟩
  simp only [Table.get_put]
  split
  · next e => subst e; rw [h]; simp [hk]
  · rfl

theorem getControl_same {w w' : Waiter} {r : Str} (h : w.getControl r = .ok w') : SamePlain w w' := by
  unfold Waiter.getControl at h
  split at h <;> cases h
  next h0 => exact SamePlain.put h0 rfl

theorem monitor_same {w w' : Waiter} {r b : Str} (h : w.monitor r b = .ok w') : SamePlain w w' := by
  unfold Waiter.monitor at h
  split at h <;> cases h
  next h0 => exact SamePlain.put h0 rfl

theorem monitorAll_same {r : Str} : ∀ {bs : List Str} {w w' : Waiter}, w.monitorAll r bs = .ok w' → SamePlain w w'
  | [], w, w', h => by cases h; exact SamePlain.refl w
  | b :: bs, w, w', h => by
    simp only [Waiter.monitorAll] at h
    cases hm : w.monitor r b with
    | ok w1 => rw [hm] at h; exact (monitor_same hm).trans (monitorAll_same h)
    | missingRegulator _ => rw [hm] at h; cases h
    | missingBuffer _ _ => rw [hm] at h; cases h
    | panic => rw [hm] at h; cases h

theorem regulatorSettings_same : ∀ {l : List (Str × Watch)} {w w' : Waiter} {cs}, w.regulatorSettings l = .ok (cs, w') → SamePlain w w'
  | [], w, w', cs, h => by cases h; exact SamePlain.refl w
  | (r, s) :: l, w, w', cs, h => by
    simp only [Waiter.regulatorSettings] at h
    cases hc : w.getControl r with
    | missingRegulator _ => rw [hc] at h; cases h
    | missingBuffer _ _ => rw [hc] at h; cases h
    | panic => rw [hc] at h; cases h
    | ok w1 =>
      rw [hc] at h
      simp only at h
      cases hm : w1.monitorAll r s.buffers with
      | missingRegulator _ => rw [hm] at h; cases h
      | missingBuffer _ _ => rw [hm] at h; cases h
      | panic => rw [hm] at h; cases h
      | ok w2 =>
        rw [hm] at h
        simp only at h
        cases hr : w2.regulatorSettings l with
        | missingRegulator _ => rw [hr] at h; cases h
        | missingBuffer _ _ => rw [hr] at h; cases h
        | panic => rw [hr] at h; cases h
        | ok x =>
          obtain ⟨cs', w3⟩ := x
          rw [hr] at h
          simp only [Prepared.ok.injEq, Prod.mk.injEq] at h
          obtain ⟨_, rfl⟩ := h
          exact ((getControl_same hc).trans (monitorAll_same hm)).trans (regulatorSettings_same hr)

theorem plain_expected (c : Config) (id : CompRef → Nat) (outs ins : List (Hop × Nat)) (r : CompRef) : (expected c id outs ins r).plain = expected c id outs ins r := by
  unfold expected
  split <;> rfl

/-- What `get_waiter` makes of hops, with managers prepared, is assembled from them. -/
theorem assembled {c : Config} {R : Map Hop} (hc : c.connection = hopSets R) {w : Waiter} (hw : getWaiter c = .ok w) {order cs w'}
    (hp : w.regulatorSettings order = .ok (cs, w')) : Assembled c (R.map (·.2)) w' := by
  have S := regulatorSettings_same hp
  have W := C42_components c R hc hw
  have hg : ∀ r, w'.getId r = w.getId r := by intro r; simp only [Waiter.getId, S.ids]
  have hid : w'.idOf = w.idOf := by funext r; simp only [Waiter.idOf, hg]
  have comps : ∀ r, Mentioned (R.map (·.2)) r → ∃ k, w'.comps.get r = some k ∧ k.plain = expected c w'.idOf (R.map (·.2)).zipIdx (R.map (·.2)).zipIdx r := by
    intro r hr
    have := S.comps r
    rw [W.comps r hr] at this
    cases hk : w'.comps.get r with
    | none => rw [hk] at this; cases this
    | some k =>
      rw [hk] at this
      simp only [Option.map_some, Option.some.injEq, plain_expected] at this
      exact ⟨k, rfl, by rw [hid]; exact this⟩
  refine ⟨⟨(C42_wired c R hc).mp ⟨w, hw⟩, fun r hr => ?_, ?_, ?_, ?_⟩, comps⟩
  · obtain ⟨k, h1, h2⟩ := comps r hr
    exact ⟨k, h1, Or.inl h2⟩
  · intro r hr
    have := S.comps r
    rw [W.only r hr] at this
    simpa using this
  · intro r r' hr hr' e
    rw [hid] at e
    obtain ⟨i, hi⟩ := (W.ids r).mpr hr
    obtain ⟨i', hi'⟩ := (W.ids r').mpr hr'
    simp only [Waiter.idOf, hi, hi', Option.getD_some] at e
    subst e
    have h1 := (W.names r i).mp hi
    rw [(W.names r' i).mp hi'] at h1
    cases h1; rfl
  · rw [S.chans, wiring_chans c R hc hw]; simp

end Verif
