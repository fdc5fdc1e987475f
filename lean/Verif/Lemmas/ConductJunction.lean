import Verif.Lemmas.Conduct
/-!
# The conduct of junctions
-/
namespace Verif

/-- Everything a round does belongs to a look at an input still open, or is closing or sleeping. -/
theorem junctionBody_acts {pushs spy s tr a} (hs : AllSenders pushs) (h : (junctionBody pushs spy s).Partial tr)
    (ha : a ∈ acts tr) :
    (∃ w, PollRun pushs spy w ∧ w.pull ∈ s.stdin.flatten ∧ a ∈ acts w.tr) ∨ (∃ k c, a = .close k c) ∨ ∃ n, a = .sleep n := by
  obtain ⟨t3, x, hrun⟩ := h.extend
  obtain ⟨k, ws1, ws2, tail, htr, hp, hend⟩ := junctionBody_inv hrun hs
  have hin := inert_of_tail hs hend
  have ha' : a ∈ acts (tr ++ t3) := by simp [ha]
  rw [htr, acts_append, List.mem_append] at ha'
  rcases ha' with ha' | ha'
  · left
    obtain ⟨w, hw, haw⟩ := mem_acts_pollTrace ha'
    refine ⟨w, ?_, ?_, haw⟩
    · rw [List.mem_append] at hw
      rcases hw with hw | hw
      · exact hp.runs1 w hw
      · exact hp.runs2 w hw
    · rw [List.mem_append] at hw
      rcases hw with hw | hw
      · have : w.pull ∈ (s.stdin.take k).flatten := by
          rw [← hp.before]; exact List.mem_map.mpr ⟨w, hw, rfl⟩
        rw [List.mem_flatten] at this ⊢
        obtain ⟨g, h1, h2⟩ := this
        exact ⟨g, (List.take_sublist _ _).subset h1, h2⟩
      · have := hp.group.subset (List.mem_map.mpr ⟨w, hw, rfl⟩)
        rw [List.mem_flatten]
        cases hg : s.stdin[k]? with
        | none => rw [hg] at this; simp at this
        | some g => rw [hg] at this; exact ⟨g, List.mem_of_getElem? hg, by simpa using this⟩
  · exact Or.inr (hin a ha')

/-- The same for a whole run. -/
theorem junction_acts {inputs pushs spy s0 t0 D0 tr a} (hd : DistinctInputs inputs) (hs : AllSenders pushs)
    (h0 : JInv inputs pushs t0 s0 D0) (h : LoopPartial (junctionBody pushs spy) s0 tr) (ha : a ∈ acts tr) :
    (∃ w, PollRun pushs spy w ∧ w.pull ∈ s0.stdin.flatten ∧ a ∈ acts w.tr) ∨ (∃ k c, a = .close k c) ∨ ∃ n, a = .sleep n := by
  obtain ⟨s, t1, t2, h1, h2, rfl⟩ := h
  induction h1 generalizing t0 D0 with
  | nil => exact junctionBody_acts hs h2 (by simpa using ha)
  | @next a' b c t t' hb hrest ih =>
    rw [List.append_assoc, acts_append, List.mem_append] at ha
    rcases ha with ha | ha
    · exact junctionBody_acts hs (Prog.runs_partial hb) ha
    · have hone : LoopRounds (junctionBody pushs spy) a' (t ++ []) b := .next hb .nil
      obtain ⟨D1, hJ1, _⟩ := h0.rounds hd hs hone
      rcases ih hJ1 h2 ha with ⟨w, w1, w2, w3⟩ | h
      · exact Or.inl ⟨w, w1, h0.shrink hd hs hone w2, w3⟩
      · exact Or.inr h

theorem poll_offer {pushs spy} {w : Poll} (h : PollRun pushs spy w) {t d x} (ha : Act.offer t d x ∈ acts w.tr) :
    t ∈ pushs.filterMap Push.target := by
  have hm : (⟨t, d, x⟩ : Offer) ∈ offers w.tr := mem_offers.mpr ha
  have := (poll_prefix h List.prefix_rfl).1.subset (List.mem_map.mpr ⟨_, hm, rfl⟩)
  rw [List.mem_flatMap] at this
  obtain ⟨_, _, h⟩ := this
  unfold toEach at h
  rw [List.mem_map] at h
  obtain ⟨t', h1, h2⟩ := h
  simp at h2
  rw [← h2.1]; exact h1

/-- Reading and writing of a run from a state on: from inputs still open, to outputs. -/
theorem junction_uses {inputs pushs spy s0 t0 D0 tr} (hd : DistinctInputs inputs) (hs : AllSenders pushs)
    (h0 : JInv inputs pushs t0 s0 D0) (h : LoopPartial (junctionBody pushs spy) s0 tr) :
    (∀ e d, Act.got e d ∈ acts tr → ∃ p ∈ s0.stdin.flatten, p.source = some e) ∧
    (∀ e, Act.ended e ∈ acts tr → ∃ p ∈ s0.stdin.flatten, p.source = some e) ∧
    (∀ t d x, Act.offer t d x ∈ acts tr → t ∈ pushs.filterMap Push.target) := by
  refine ⟨?_, ?_, ?_⟩
  · intro e d ha
    rcases junction_acts hd hs h0 h ha with ⟨w, w1, w2, w3⟩ | ⟨_, _, h⟩ | ⟨_, h⟩
    · exact ⟨_, w2, worker_source w1 e d w3⟩
    · simp at h
    · simp at h
  · intro e ha
    rcases junction_acts hd hs h0 h ha with ⟨w, w1, w2, w3⟩ | ⟨_, _, h⟩ | ⟨_, h⟩
    · exact ⟨_, w2, worker_ended w1 e w3⟩
    · simp at h
    · simp at h
  · intro t d x ha
    rcases junction_acts hd hs h0 h ha with ⟨w, w1, w2, w3⟩ | ⟨_, _, h⟩ | ⟨_, h⟩
    · exact poll_offer w1 w3
    · simp at h
    · simp at h

/-- Nothing is read from or written to channel `c`. -/
def LeftAlone (c : Nat) (v : List Ev) : Prop :=
  (∀ d, Act.got (.chan c) d ∉ acts v) ∧ Act.ended (.chan c) ∉ acts v ∧ ∀ d w, Act.offer (.chan c) d w ∉ acts v

theorem LeftAlone.append {c v w} (h1 : LeftAlone c v) (h2 : LeftAlone c w) : LeftAlone c (v ++ w) := by
  obtain ⟨a1, a2, a3⟩ := h1
  obtain ⟨b1, b2, b3⟩ := h2
  refine ⟨fun d h => ?_, fun h => ?_, fun d x h => ?_⟩ <;> rw [acts_append, List.mem_append] at h
  · exact h.elim (a1 d) (b1 d)
  · exact h.elim a2 b2
  · exact h.elim (a3 d x) (b3 d x)

theorem Inert.leftAlone {v} (h : Inert v) (c) : LeftAlone c v := by
  refine ⟨fun d hm => ?_, fun hm => ?_, fun d x hm => ?_⟩ <;>
  · rcases h _ hm with ⟨_, _, h⟩ | ⟨_, h⟩ <;> simp at h

theorem Inert.suffix {u v} (h : Inert (u ++ v)) : Inert v := fun a ha => h a (by simp [ha])
theorem Inert.front {u v} (h : Inert (u ++ v)) : Inert u := fun a ha => h a (by simp [ha])

theorem closed_leftAlone {inputs pushs spy s0 t0 D0 tr} {c : Nat} (hd : DistinctInputs inputs) (hs : AllSenders pushs)
    (hdis : ∀ x ∈ inputs, ∀ e, x.1.source = some e → e ∉ pushs.filterMap Push.target)
    (h0 : JInv inputs pushs t0 s0 D0) (hc : ClosedAre t0 D0) (h : LoopPartial (junctionBody pushs spy) s0 tr)
    (hm : Act.close .data c ∈ acts t0) : LeftAlone c tr := by
  obtain ⟨p, hp, hpc⟩ := (hc .data c).mp hm
  have hsrc : p.source = some (.chan c) := by
    cases p <;> simp [dropActs] at hpc
    subst hpc; rfl
  have hpi := (h0.gone p hp).1
  have noread : ∀ q ∈ s0.stdin.flatten, q.source ≠ some (.chan c) := by
    intro q hq hqs
    have hq' := h0.mem.mp hq
    exact hq'.2 (hd.inj hpi hq'.1 (by rw [hsrc, hqs]) ▸ hp)
  obtain ⟨u1, u2, u3⟩ := junction_uses hd hs h0 h
  refine ⟨fun d hg => ?_, fun he => ?_, fun d x ho => ?_⟩
  · obtain ⟨q, hq, hqs⟩ := u1 _ _ hg; exact noread q hq hqs
  · obtain ⟨q, hq, hqs⟩ := u2 _ he; exact noread q hq hqs
  · rw [List.mem_map] at hpi
    obtain ⟨x, hx, rfl⟩ := hpi
    exact hdis x hx _ hsrc (u3 _ _ _ ho)

/-- In a round, after closing something nothing is read or written. -/
theorem body_closed {pushs spy s u v} {k : Kind} {c : Nat} (hs : AllSenders pushs) (h : (junctionBody pushs spy s).Partial (u ++ v))
    (hm : Act.close k c ∈ acts u) : Inert v := by
  obtain ⟨t3, x, hrun⟩ := h.extend
  obtain ⟨n, ws1, ws2, tail, htr, hp, hend⟩ := junctionBody_inv hrun hs
  have hin := inert_of_tail hs hend
  have hrunall : ∀ w ∈ ws1 ++ ws2, PollRun pushs spy w := by
    intro w hw
    rw [List.mem_append] at hw
    rcases hw with hw | hw
    · exact hp.runs1 w hw
    · exact hp.runs2 w hw
  rw [List.append_assoc, List.append_eq_append_iff] at htr
  rcases htr with ⟨z, h1, _⟩ | ⟨z, h1, h2⟩
  · exact absurd (by rw [h1]; simp [hm]) (pollTrace_no_close hrunall k c)
  · rw [h2] at hin
    exact hin.suffix.front

theorem junction_retired {inputs pushs spy tr} {c : Nat} (hd : DistinctInputs inputs) (hs : AllSenders pushs)
    (hdis : ∀ x ∈ inputs, ∀ e, x.1.source = some e → e ∉ pushs.filterMap Push.target)
    (h : LoopPartial (junctionBody pushs spy) (junctionInit inputs) tr) : Retired c tr := by
  have aux : ∀ {s0 t0 D0 s t1 t2 u v}, JInv inputs pushs t0 s0 D0 → ClosedAre t0 D0 →
      LoopRounds (junctionBody pushs spy) s0 t1 s → (junctionBody pushs spy s).Partial t2 → t1 ++ t2 = u ++ v →
      Act.close .data c ∈ acts u → LeftAlone c v := by
    intro s0 t0 D0 s t1 t2 u v hJ hC h1 h2 ht hm
    induction h1 generalizing t0 D0 u with
    | nil =>
      rw [List.nil_append] at ht
      rw [ht] at h2
      exact (body_closed hs h2 hm).leftAlone c
    | @next a b e t t' hb hrest ih =>
      have hone : LoopRounds (junctionBody pushs spy) a (t ++ []) b := .next hb .nil
      obtain ⟨D1, hJ1, hC1⟩ := rounds_closed hd hs hJ hC hone
      rw [List.append_nil] at hJ1 hC1
      have hlater : Act.close .data c ∈ acts t → LeftAlone c (t' ++ t2) := fun hm =>
        closed_leftAlone hd hs hdis hJ1 hC1 ⟨_, _, _, hrest, h2, rfl⟩ (by simp [hm])
      rw [List.append_assoc, List.append_eq_append_iff] at ht
      rcases ht with ⟨z, hz1, hz2⟩ | ⟨z, hz1, hz2⟩
      · subst hz1
        rw [acts_append, List.mem_append] at hm
        rcases hm with hm | hm
        · have := hlater hm
          rw [hz2] at this
          exact ⟨fun d h => this.1 d (by simp [h]), fun h => this.2.1 (by simp [h]), fun d x h => this.2.2 d x (by simp [h])⟩
        · exact ih hJ1 hC1 h2 hz2 hm
      · subst hz1
        rw [hz2]
        have hb' := body_closed hs (Prog.runs_partial hb) hm
        exact (hb'.leftAlone c).append (hlater (by simp [hm]))
  intro u v htr hm
  obtain ⟨s, t1, t2, h1, h2, rfl⟩ := h
  exact aux JInv.init closedAre_nil h1 h2 htr (mem_closings.mp hm)

theorem copied_offered {pushs : List Push} {tr} (hn : (pushs.filterMap Push.target).Nodup)
    (c : (offers tr).map (fun o => (o.to, o.d)) = (received tr).flatMap (toEach pushs)) {t : End} (ht : t ∈ pushs.filterMap Push.target) :
    offeredTo t tr = received tr := by
  have pick : ∀ ms : List Bytes, (ms.flatMap (toEach pushs)).filterMap (fun o => if o.1 = t then some o.2 else none) = ms := by
    intro ms
    induction ms with
    | nil => rfl
    | cons d ms ih =>
      rw [List.flatMap_cons, List.filterMap_append, ih]
      suffices h : (toEach pushs d).filterMap (fun o => if o.1 = t then some o.2 else none) = [d] by rw [h]; rfl
      unfold toEach
      rw [List.filterMap_map]
      generalize pushs.filterMap Push.target = l at hn ht
      clear ih c
      induction l with
      | nil => simp at ht
      | cons x xs ih =>
        rw [List.nodup_cons] at hn
        simp only [List.filterMap_cons, Function.comp]
        by_cases hx : x = t
        · subst hx
          simp
          intro y hy; rintro rfl; exact hn.1 hy
        · simp [hx]
          simp [Ne.symm hx] at ht
          exact ih hn.2 ht
  have hoff : offeredTo t tr = ((offers tr).map (fun o => (o.to, o.d))).filterMap (fun o => if o.1 = t then some o.2 else none) := by
    rw [List.filterMap_map]; rfl
  rw [hoff, c, pick]

theorem junction_offered {inputs pushs spy tr n} (hs : AllSenders pushs) (hn : (pushs.filterMap Push.target).Nodup)
    (h : JunctionRuns inputs pushs spy tr (.ok n)) (t : End) (ht : t ∈ pushs.filterMap Push.target) :
    offeredTo t tr = received tr := copied_offered hn (C13_complete hs h) ht

theorem junctionTask_partial {inputs pushs spy tr} (h : (junctionTask inputs pushs spy).Partial tr) :
    LoopPartial (junctionBody pushs spy) (junctionInit inputs) tr := by
  rcases h with h | ⟨r, u1, u2, h, hd, rfl⟩
  · exact h
  · have : u2 = [] := List.prefix_nil.mp hd
    subst this
    rw [List.append_nil]
    exact LoopRuns.toPartial h

theorem junction_conduct {inputs pushs spy tr} (h : (junctionTask inputs pushs spy).Partial tr)
    (hok : (Node.junction inputs pushs spy).Ok) :
    Conduct (inputs.filterMap fun x => x.1.source) (pushs.filterMap Push.target) tr := by
  obtain ⟨hdis, hi, hd, hs, hn, hne⟩ := hok
  have h := junctionTask_partial h
  have hsrc : ∀ {p : Pull} {e}, p ∈ (junctionInit inputs).stdin.flatten → p.source = some e →
      e ∈ inputs.filterMap fun x => x.1.source := by
    intro p e hp he
    have := (JInv.init (pushs := pushs)).mem.mp hp
    rw [List.mem_map] at this
    obtain ⟨⟨x, hx, rfl⟩, _⟩ := this
    exact List.mem_filterMap.mpr ⟨x, hx, he⟩
  obtain ⟨u1, u2, u3⟩ := junction_uses hd hs JInv.init h
  refine ⟨?_, ?_, ?_, ?_, fun c => junction_retired hd hs ?_ h⟩
  · intro s d hm; obtain ⟨p, hp, hps⟩ := u1 s d hm; exact hsrc hp hps
  · intro s hm; obtain ⟨p, hp, hps⟩ := u2 s hm; exact hsrc hp hps
  · intro o ho; exact u3 _ _ _ (mem_offers.mp ho)
  · intro t ht
    rcases C13_each_output hd hs hn t ht h with h | h
    · rw [h]; exact ⟨List.prefix_rfl, by omega⟩
    · rw [h]
      refine ⟨List.dropLast_prefix _, ?_⟩
      rw [List.length_dropLast]; omega
  · intro x hx e he
    exact hdis e (List.mem_filterMap.mpr ⟨x, hx, he⟩)

/-- As `relay_ends`. -/
theorem junction_ends {inputs pushs spy tr n} (hr : JunctionRuns inputs pushs spy tr (.ok n)) (hok : (Node.junction inputs pushs spy).Ok)
    (hx : (∃ p ∈ pushs, p.breakable ≠ .finish) ∨ ∀ o ∈ offers tr, ∀ why, o.w ≠ .closed why) :
    Finished (inputs.filterMap fun x => x.1.source) (pushs.filterMap Push.target) tr := by
  obtain ⟨hdis, hi, hd, hs, hn, hne⟩ := hok
  obtain ⟨c1, _, t1, t2, hsplit, ct, _⟩ := C14_ends hd hs hr
  refine ⟨?_, junction_offered hs hn hr, ?_⟩
  · intro s hm
    rw [List.mem_filterMap] at hm
    obtain ⟨x, hx', hxs⟩ := hm
    obtain ⟨e, he, h | ⟨hfin, v1, v, v2, d, rest, hv, _, hoff, hcl⟩⟩ := c1 x hx'
    · rw [hxs] at he; simp at he; subst he; exact h
    · exfalso
      rcases hx with ⟨p, hp, hx⟩ | hx
      · exact hx (hfin p hp)
      obtain ⟨p, hp⟩ := List.exists_mem_of_ne_nil _ hne
      obtain ⟨j, c, rfl⟩ := hs p hp
      have hm : (End.chan c, d) ∈ (offers v).map (fun o => (o.to, o.d)) := by
        rw [hoff]; unfold toEach
        exact List.mem_map.mpr ⟨_, List.mem_filterMap.mpr ⟨_, hp, rfl⟩, rfl⟩
      obtain ⟨o, ho, _⟩ := List.mem_map.mp hm
      obtain ⟨why, hw⟩ := hcl o ho
      exact hx o (by rw [hv]; simp [ho]) why hw
  · intro c hc
    rw [List.mem_filterMap] at hc
    obtain ⟨p, hp, hpc⟩ := hc
    rw [mem_closings, hsplit, acts_append, List.mem_append, ct]
    right
    refine List.mem_filterMap.mpr ⟨p, hp, ?_⟩
    cases p <;> simp [Push.target] at hpc
    subst hpc; rfl

theorem junction_finished {inputs pushs spy tr} (h : (junctionTask inputs pushs spy).Done tr)
    (hok : (Node.junction inputs pushs spy).Ok) (hf : ∀ a ∈ acts tr, a.fails = false) :
    Finished (inputs.filterMap fun x => x.1.source) (pushs.filterMap Push.target) tr := by
  obtain ⟨r, t1, hr, htr⟩ := h
  have : tr = t1 := by rw [htr]; exact List.append_nil _
  subst this
  cases r with
  | error e =>
    obtain ⟨hdis, hi, hd, hs, hn, hne⟩ := hok
    obtain ⟨a, ha, hb⟩ := junction_fails hd hs hi hr; rw [hf a ha] at hb; simp at hb
  | ok n =>
    refine junction_ends (n := n) hr hok (Or.inr fun o ho why hw => ?_)
    have := hf _ (mem_offers.mp ho)
    rw [hw] at this; simp [Act.fails] at this

/-! ## All components -/

theorem node_conduct {n : Node} {tr} (hok : n.Ok) (h : n.task.Partial tr) : Conduct n.sources n.targets tr := by
  cases n with
  | relay pull mon spy push => exact relay_conduct h hok.2.1 (fun c hc => hok.2.2 c hc.1 hc.2)
  | regulator pull push spy ctl => exact regulator_conduct h hok.2
  | junction inputs pushs spy => exact junction_conduct h hok

theorem node_finished {n : Node} {tr} (hok : n.Ok) (h : n.task.Done tr) (hf : ∀ a ∈ acts tr, a.fails = false) :
    Finished n.sources n.targets tr := by
  cases n with
  | relay pull mon spy push => exact relay_finished h hok.2.1 (fun c hc => hok.2.2 c hc.1 hc.2) hf
  | regulator pull push spy ctl => exact regulator_finished h hok.2 hf
  | junction inputs pushs spy => exact junction_finished h hok hf

end Verif
