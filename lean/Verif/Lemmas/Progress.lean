import Verif.Props.Network
import Verif.Lemmas.Ruin
/-!
# When components can go on
-/
namespace Verif

/-! ## Tasks -/

theorem LoopRounds.snoc {σ ρ : Type} {body : σ → Prog (σ ⊕ ρ)} {s t s' t' s''} (h : LoopRounds body s t s')
    (h' : (body s').Runs t' (.inl s'')) : LoopRounds body s (t ++ t') s'' := by
  induction h with
  | nil => have := LoopRounds.next h' (.nil (ρ := ρ)); simpa using this
  | next hb _ ih => rw [List.append_assoc]; exact .next hb (ih h')

theorem LoopRounds.stop {σ ρ : Type} {body : σ → Prog (σ ⊕ ρ)} {s t s' t' r} (h : LoopRounds body s t s')
    (h' : (body s').Runs t' (.inr r)) : LoopRuns body s (t ++ t') r := by
  induction h with
  | nil => exact .stop h'
  | next hb _ ih => rw [List.append_assoc]; exact .next hb (ih h')

/-- A task none of whose rounds passes without a request has ended, awaits something, or is about to drop a channel
end. -/
theorem Task.Partial.now {t : Task} (hs : ∀ s s', ¬ (t.body s).Runs [] (.inl s')) {tr : List Ev} (h : t.Partial tr) :
    t.Done tr ∨ (∃ q, t.Awaits tr q) ∨ ∃ k c, t.Partial (tr ++ [⟨.close k c, ()⟩]) := by
  have drops : ∀ {r t1 t2}, LoopRuns t.body t.init t1 r → t2 <+: dropEvs t.drops →
      t.Done (t1 ++ t2) ∨ ∃ k c, t.Partial (t1 ++ t2 ++ [⟨.close k c, ()⟩]) := by
    intro r t1 t2 hr hp
    obtain ⟨u, hu⟩ := hp
    cases u with
    | nil => left; exact ⟨r, t1, hr, by rw [← hu, List.append_nil]⟩
    | cons e u =>
      right
      obtain ⟨k, c, _, rfl⟩ := mem_dropEvs (l := t.drops) List.prefix_rfl e (by rw [← hu]; simp)
      exact ⟨k, c, Or.inr ⟨r, t1, t2 ++ [⟨.close k c, ()⟩], hr, ⟨u, by simpa using hu⟩, by simp⟩⟩
  have stopped : ∀ {r t1}, LoopRuns t.body t.init t1 r → t.Done t1 ∨ ∃ k c, t.Partial (t1 ++ [⟨.close k c, ()⟩]) := by
    intro r t1 hr
    have := drops hr (t2 := []) List.nil_prefix
    simpa using this
  rcases h with ⟨s', t1, t2, h1, h2, rfl⟩ | ⟨r, t1, t2, hr, hp, rfl⟩
  · rcases h2.cases with ⟨a, ha⟩ | ⟨q, hq⟩
    · cases a with
      | inr r =>
        rcases stopped (h1.stop ha) with h | h
        · exact Or.inl h
        · exact Or.inr (Or.inr h)
      | inl s'' =>
        have h3 := h1.snoc ha
        rcases (Prog.partial_nil (t.body s'')).cases with ⟨b, hb⟩ | ⟨q, hq⟩
        · cases b with
          | inl s3 => exact absurd hb (hs _ _)
          | inr r =>
            have := h3.stop hb
            rw [List.append_nil] at this
            rcases stopped this with h | h
            · exact Or.inl h
            · exact Or.inr (Or.inr h)
        · exact Or.inr (Or.inl ⟨q, s'', _, [], h3, hq, by simp⟩)
    · exact Or.inr (Or.inl ⟨q, s', t1, t2, h1, hq, rfl⟩)
  · rcases drops hr hp with h | h
    · exact Or.inl h
    · exact Or.inr (Or.inr h)

theorem impossible_cases {cap : Caps} {st : Store} {q : Req} (h : Impossible cap st q) :
    (∃ k c, q = .recv k c ∧ (st k c).q = [] ∧ (st k c).closed = false) ∨
    (∃ k c v, q = .send k c v ∧ (st k c).closed = false ∧ ¬ hasRoom (cap k c) (st k c).q.length) := by
  cases q with
  | recv k c =>
    left
    refine ⟨k, c, rfl, ?_⟩
    cases hq : (st k c).q with
    | nil =>
      have := h none
      simp [exec, hq] at this
      exact ⟨rfl, this⟩
    | cons v q => have := h (some v); simp [exec, hq] at this
  | tryRecv k c =>
    exfalso
    cases hq : (st k c).q with
    | nil =>
      have h1 := h .empty
      have h2 := h .closed
      simp [exec, hq] at h1 h2
      rw [h1] at h2; simp at h2
    | cons v q => have := h (.got v); simp [exec, hq] at this
  | send k c v =>
    right
    have h1 := h true
    have h2 := h false
    simp [exec] at h1 h2
    exact ⟨k, c, v, rfl, h2, h1 h2⟩
  | close k c => have := h (); simp [exec] at this
  | stat k c => have := h ((st k c).q.isEmpty, (st k c).closed); simp [exec] at this
  | streamRead x => have := h .eof; simp [exec] at this
  | ioWrite x d => have := h .ok; simp [exec] at this
  | ioFlush x => have := h true; simp [exec] at this
  | sleep n => have := h (); simp [exec] at this
  | status => have := h .err; simp [exec] at this

/-! ## Components -/

theorem worker_speaks {pull mon push spy res} (hp : pull ≠ .none) : ¬ MRuns (motionWorker pull mon [push] spy false) [] (.ok res) := by
  intro h
  rcases motionWorker_inv h with ⟨e, h0, _⟩ | ⟨h0, _⟩ | ⟨x, t1, t2, ht, _, h0, _⟩
  · simp at h0
  · obtain ⟨e, h1, _⟩ := read_one h0 hp; simp at h1
  · obtain ⟨e, h1, _⟩ := read_one h0 hp; rw [h1] at ht; simp at ht

/-- No round of a component passes without a request. -/
theorem node_speaks {n : Node} (hok : n.Ok) : ∀ s s', ¬ (n.task.body s).Runs [] (.inl s') := by
  cases n with
  | relay pull mon spy push =>
    intro s s' h
    rcases motionBody_inv (show (motionBody pull mon spy push s).Runs [] (.inl s') from h) with ⟨e, h0, _⟩ | ⟨res, t1, t2, ht, h1, _⟩
    · simp at h0
    · simp at ht; rw [ht.1] at h1; exact worker_speaks hok.2.1 h1
  | regulator pull push spy ctl =>
    intro s s' h
    obtain ⟨r, t1, t2, ht, h1, h2⟩ := regulatorBody_inv (show (regulatorBody pull push spy ctl s).Runs [] (.inl s') from h)
    simp at ht
    rcases h2 with ⟨res, rfl, _⟩ | ⟨res, rfl, _⟩ | ⟨e, _, _, h0⟩
    · rw [ht.1] at h1; exact worker_speaks hok.2 h1
    · rw [ht.1] at h1; exact worker_speaks hok.2 h1
    · simp at h0
  | junction inputs pushs spy =>
    obtain ⟨_, _, _, hs, _⟩ := hok
    intro s s' h
    obtain ⟨k, ws1, ws2, tail, ht, hp, hend⟩ := junctionBody_inv (show (junctionBody pushs spy s).Runs [] (.inl s') from h) hs
    simp at ht
    rcases hend with ⟨_, _, _, h0, _⟩ | ⟨hok, _, ⟨_, _, _, _, _, ⟨_, hx, _⟩ | ⟨hne, _⟩⟩ | ⟨_, h0, _⟩⟩
    · simp at h0
    · rw [ht.2.2] at hx; simp at hx
    · obtain ⟨w, hw⟩ := List.exists_mem_of_ne_nil _ hne
      have hnil : w.tr = [] := by
        have := ht.2.1
        unfold pollTrace at this
        rw [List.flatten_eq_nil_iff] at this
        exact this _ (List.mem_map.mpr ⟨w, hw, rfl⟩)
      have hwo := hok w hw
      rcases poll_shape (hp.runs2 w hw) with ⟨_, _, h0, _⟩ | ⟨_, _, _, _, h0, _⟩ | ⟨_, _, _, h0, _⟩ | ⟨_, h0⟩
      · rw [hnil] at h0; simp at h0
      · rw [hnil] at h0; simp at h0
      · rw [hnil] at h0; simp at h0
      · rw [h0] at hwo; simp at hwo
    · simp at h0

/-- A request that does not wait for a message. -/
def NoRecv (q : Req) : Prop := ∀ k c, q ≠ .recv k c

theorem motionRead_noRecv {pull : Pull} : MOnly NoRecv (motionRead pull true) := by
  cases pull with
  | none => exact monly_throw _
  | receiver j c =>
    refine MOnly.bind (monly_ask (by intro k c; simp)) ?_
    intro a; cases a <;> exact monly_pure _
  | stream j c => exact monly_throw _

theorem motionWrite_noRecv {push : Push} {d : Bytes} : MOnly NoRecv (motionWrite push d) := by
  cases push with
  | none => exact monly_pure _
  | sender j c =>
    refine MOnly.bind (monly_ask (by intro k c; simp)) ?_
    intro a; cases a <;> simp <;> first | exact monly_pure _ | exact monly_throw _
  | io j c =>
    refine MOnly.bind (monly_ask (by intro k c; simp)) ?_
    intro a; cases a <;> first | exact monly_pure _ | exact monly_throw _

theorem motionClose_noRecv {push : Push} : MOnly NoRecv (motionClose push) := by
  cases push with
  | none => exact monly_pure _
  | sender j c => exact monly_ask (by intro k c; simp)
  | io j c =>
    refine MOnly.bind (monly_ask (by intro k c; simp)) ?_
    intro a; cases a <;> simp <;> first | exact monly_pure _ | exact monly_throw _

theorem writeOne_noRecv {x : IOW} {push : Push} {n : Nat} : MOnly NoRecv (writeOne x push n) := by
  cases x with
  | finished => exact monly_pure _
  | skipped => exact monly_pure _
  | data d =>
    simp only [writeOne]
    split
    · exact MOnly.bind motionWrite_noRecv fun _ => monly_pure _
    · refine MOnly.tryCatch (MOnly.bind motionWrite_noRecv fun _ => monly_pure _) ?_
      intro e; cases e <;> first | exact monly_pure _ | exact monly_throw _

theorem spyOne_noRecv {x : IOW} {spy : Option Nat} {push : Push} : MOnly NoRecv (spyOne spy x push) := by
  unfold spyOne
  split
  · refine MOnly.bind (monly_ask (by intro k c; simp)) ?_
    intro a; cases a <;> simp <;> first | exact monly_pure _ | exact monly_throw _
  · exact monly_pure _

theorem pushAll_noRecv {x : IOW} {spy : Option Nat} {pushs : List Push} {n : Nat} : MOnly NoRecv (pushAll x spy pushs n) := by
  induction pushs generalizing n with
  | nil => exact monly_pure _
  | cons p ps ih => exact MOnly.bind writeOne_noRecv fun _ => MOnly.bind spyOne_noRecv fun _ => ih

theorem worker_noRecv {pull pushs spy} : MOnly NoRecv (motionWorker pull {} pushs spy true) := by
  unfold motionWorker
  refine MOnly.bind motionRead_noRecv fun x => ?_
  split
  · exact monly_pure _
  · refine MOnly.bind (monly_pure _) fun _ => MOnly.bind pushAll_noRecv fun n => MOnly.bind (monly_pure _) fun _ => ?_
    split <;> exact monly_pure _

theorem junctionLoop_noRecv {pushs spy pulls i acc} : MOnly NoRecv (junctionLoop pushs spy pulls i acc) := by
  induction pulls generalizing i acc with
  | nil => exact monly_pure _
  | cons p ps ih =>
    simp only [junctionLoop]
    split
    · exact ih
    · exact MOnly.bind worker_noRecv fun _ => ih

theorem iterationLoop_noRecv {pushs spy G i f n} : MOnly NoRecv (iterationLoop pushs spy G i f n) := by
  induction G generalizing i f n with
  | nil => exact monly_pure _
  | cons g G ih =>
    simp only [iterationLoop, junctionMotionWorker]
    refine MOnly.bind junctionLoop_noRecv fun r => ?_
    split
    · exact monly_pure _
    · exact ih

theorem dropPull_noRecv {p : Pull} : MOnly NoRecv (dropPull p) := by
  cases p with
  | receiver j c => exact monly_ask (by intro k c; simp)
  | _ => exact monly_pure _

theorem removeFinished_noRecv {fs G} : MOnly NoRecv (removeFinished fs G) := by
  induction fs generalizing G with
  | nil => exact monly_pure _
  | cons x fs ih =>
    obtain ⟨i, j⟩ := x
    simp only [removeFinished]
    split
    · split
      · exact MOnly.bind dropPull_noRecv fun _ => ih
      · exact MOnly.bind (monly_pure _) fun _ => ih
    · exact MOnly.bind (monly_pure _) fun _ => ih

theorem closeAll_noRecv {pushs : List Push} : MOnly NoRecv (closeAll pushs) := by
  induction pushs with
  | nil => exact monly_pure _
  | cons p ps ih => exact MOnly.bind motionClose_noRecv fun _ => ih

theorem dropAll_noRecv {ps : List Pull} : MOnly NoRecv (dropAll ps) := by
  induction ps with
  | nil => exact monly_pure _
  | cons p ps ih => exact MOnly.bind dropPull_noRecv fun _ => ih

theorem wait_noRecv {b : BackOff} : MOnly NoRecv (ExceptT.lift b.wait : M _) :=
  Prog.Only.bind (p := b.wait) (Prog.Only.bind (Prog.only_req (by intro k c; simp)) fun _ => trivial) fun _ => trivial

/-- A junction never waits for a message. -/
theorem junctionBody_noRecv {pushs spy s} : (junctionBody pushs spy s).Only NoRecv := by
  unfold junctionBody
  refine Prog.Only.bind (p := ExceptT.run _) ?_ ?_
  · unfold iteration
    refine MOnly.bind iterationLoop_noRecv fun x => ?_
    obtain ⟨f, any, n⟩ := x
    refine MOnly.bind removeFinished_noRecv fun G => ?_
    dsimp only
    split
    · exact MOnly.bind closeAll_noRecv fun _ => monly_pure _
    · split
      · exact monly_pure _
      · exact MOnly.bind wait_noRecv fun _ => monly_pure _
  · intro a
    rcases a with e | (_ | _)
    · exact Prog.Only.bind (p := ExceptT.run _) dropAll_noRecv fun _ => trivial
    · exact trivial
    · exact trivial

/-- What a waiting component is waiting for. -/
theorem node_awaits {cap : Caps} {st : Store} {n : Node} {tr : List Ev} {q : Req} {c : Nat} (hok : n.Ok) (h : n.task.Awaits tr q)
    (hi : Impossible cap st q) (hq : q.on = some (.data, c)) :
    (n.sources = [.chan c] ∧ (st .data c).q = [] ∧ (st .data c).closed = false ∧ (∀ inputs pushs spy, n ≠ .junction inputs pushs spy) ∧ q = .recv .data c) ∨
    (.chan c ∈ n.targets ∧ (st .data c).closed = false ∧ ¬ hasRoom (cap .data c) (st .data c).q.length ∧ ∃ d, q = .send .data c d) := by
  rcases impossible_cases hi with ⟨k, c', rfl, h1, h2⟩ | ⟨k, c', v, rfl, h1, h2⟩
  · left
    simp [Req.on] at hq
    obtain ⟨rfl, rfl⟩ := hq
    have hnj : ∀ inputs pushs spy, n ≠ .junction inputs pushs spy := by
      rintro inputs pushs spy rfl
      exact Task.only_awaits (t := junctionTask inputs pushs spy) (P := NoRecv) (fun s => junctionBody_noRecv) h _ _ rfl
    refine ⟨?_, h1, h2, hnj, rfl⟩
    have := (node_conduct hok (h.step (some []))).got (.chan c') [] (by simp [act])
    cases n with
    | relay pull mon spy push =>
      simp only [Node.sources] at this ⊢
      cases hs : pull.source <;> simp [hs] at this ⊢
      exact this.symm
    | regulator pull push spy ctl =>
      simp only [Node.sources] at this ⊢
      cases hs : pull.source <;> simp [hs] at this ⊢
      exact this.symm
    | junction inputs pushs spy => exact absurd rfl (hnj inputs pushs spy)
  · right
    simp [Req.on] at hq
    obtain ⟨rfl, rfl⟩ := hq
    refine ⟨?_, h1, h2, v, rfl⟩
    exact (node_conduct hok (h.step true)).to ⟨.chan c', v, .ok⟩ (mem_offers.mpr (by simp [act]))

theorem drops_closings {l : List (Kind × Nat)} {kc : Kind × Nat} (h : kc ∈ l) : kc ∈ closings (dropEvs l) := by
  rw [show kc = (kc.1, kc.2) from rfl, mem_closings]
  exact List.mem_map.mpr ⟨⟨.close kc.1 kc.2, ()⟩, List.mem_map.mpr ⟨kc, h, rfl⟩, rfl⟩

theorem source_owned {pull : Pull} {c : Nat} (h : pull.source = some (.chan c)) : (Kind.data, c) ∈ pull.owned := by
  cases pull <;> simp [Pull.source] at h
  subst h; simp [Pull.owned]

theorem target_owned {push : Push} {c : Nat} (h : push.target = some (.chan c)) : (Kind.data, c) ∈ push.owned := by
  cases push <;> simp [Push.target] at h
  subst h; simp [Push.owned]

/-- When a component has ended its channels have too. For a junction this holds when nothing happened that it cannot get over. -/
theorem node_done {n : Node} {tr : List Ev} (hok : n.Ok) (h : n.task.Done tr)
    (hj : ∀ inputs pushs spy, n = .junction inputs pushs spy → ∀ f ∈ acts tr, f.ruins pushs = false) (c : Nat) :
    (.chan c ∈ n.targets → (Kind.data, c) ∈ closings tr) ∧
    (.chan c ∈ n.sources → (Kind.data, c) ∈ closings tr) := by
  cases n with
  | relay pull mon spy push =>
    obtain ⟨r, t1, _, rfl⟩ := h
    rw [closings_append]
    constructor
    · intro ht
      refine List.mem_append_right _ (drops_closings ?_)
      simp [relayTask, Node.task, target_owned (show push.target = some (.chan c) by simpa [Node.targets] using ht)]
    · intro ht
      refine List.mem_append_right _ (drops_closings ?_)
      simp [relayTask, Node.task, source_owned (show pull.source = some (.chan c) by simpa [Node.sources] using ht)]
  | regulator pull push spy ctl =>
    obtain ⟨r, t1, _, rfl⟩ := h
    rw [closings_append]
    constructor
    · intro ht
      refine List.mem_append_right _ (drops_closings ?_)
      simp [regulatorTask, Node.task, target_owned (show push.target = some (.chan c) by simpa [Node.targets] using ht)]
    · intro ht
      refine List.mem_append_right _ (drops_closings ?_)
      simp [regulatorTask, Node.task, source_owned (show pull.source = some (.chan c) by simpa [Node.sources] using ht)]
  | junction inputs pushs spy =>
    obtain ⟨r, t1, hr, htr⟩ := h
    have : tr = t1 := by rw [htr]; exact List.append_nil _
    subst this
    obtain ⟨hdis, hi, hd, hs, hn, hne⟩ := hok
    have hr : JunctionRuns inputs pushs spy tr r := hr
    refine ⟨fun ht => ?_, fun hm => ?_⟩
    · cases r with
      | error e =>
        obtain ⟨a, ha, hb⟩ := junction_ruined hd hs hi hr
        rw [hj _ _ _ rfl a ha] at hb; simp at hb
      | ok n =>
        obtain ⟨_, _, t1, t2, hsplit, ct, _⟩ := C14_ends hd hs hr
        obtain ⟨p, hp, hpc⟩ := List.mem_filterMap.mp ht
        rw [mem_closings, hsplit, acts_append, List.mem_append, ct]
        right
        refine List.mem_filterMap.mpr ⟨p, hp, ?_⟩
        cases p <;> simp [Push.target] at hpc
        subst hpc; rfl
    · obtain ⟨x, hx, hxs⟩ := List.mem_filterMap.mp hm
      obtain ⟨j, c', hp⟩ := hi x hx
      rw [hp] at hxs; simp [Pull.source] at hxs; subst hxs
      obtain ⟨p, n⟩ := x
      cases hp
      exact mem_closings.mpr (junction_shuts hd hs hr hx)

end Verif
