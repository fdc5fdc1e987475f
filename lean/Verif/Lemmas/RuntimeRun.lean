import Verif.Props.Runtime
import Verif.Lemmas.BufferCount
/-!
# Runs of a whole runtime
-/
namespace Verif

/-- The request does not concern a channel for data. -/
def NoData (q : Req) : Prop := ∀ c, q.on ≠ some (.data, c)

theorem look_only : ∀ (i : Nat) (ms : List Monitor), (look i ms).Only NoData := by
  intro i ms
  induction ms generalizing i with
  | nil => exact trivial
  | cons m ms ih =>
    refine Prog.Only.bind (p := req _) (Prog.only_req (by simp [NoData, Req.on])) fun x => ?_
    cases x with
    | closed => exact Prog.Only.bind (ih _) fun _ => trivial
    | empty => exact Prog.Only.bind (ih _) fun _ => trivial
    | got n => exact Prog.Only.bind (ih _) fun _ => trivial

theorem pause_only (h : Control) : h.pause.Only NoData := by
  unfold Control.pause
  show Prog.Only _ (if h.paused = true then _ else _)
  split
  · exact trivial
  · exact Prog.Only.bind (p := req _) (Prog.only_req (by simp [NoData, Req.on])) fun _ => trivial

theorem resume_only (h : Control) : h.resume.Only NoData := by
  unfold Control.resume
  show Prog.Only _ (if (!h.paused) = true then _ else _)
  split
  · exact trivial
  · exact Prog.Only.bind (p := req _) (Prog.only_req (by simp [NoData, Req.on])) fun _ => trivial

theorem managerBody_only (low high : Nat) (s : Manager) : (managerBody low high s).Only NoData := by
  unfold managerBody
  refine Prog.Only.bind (look_only _ _) fun l => ?_
  refine Prog.Only.bind ?_ fun s1 => ?_
  · unfold pauseAbove
    split
    · exact Prog.Only.bind (pause_only _) fun _ => trivial
    · exact trivial
  refine Prog.Only.bind ?_ fun s2 => ?_
  · unfold resumeBelow
    split
    · exact Prog.Only.bind (resume_only _) fun _ => trivial
    · exact trivial
  show Prog.Only _ (if _ then _ else _)
  split
  · exact trivial
  · split
    · refine Prog.Only.bind (Prog.Only.mono (wait_only (size := 0) _) fun q h => h.2.2.1) fun _ => trivial
    · exact trivial

theorem managerTask_only {low high ctl : Nat} {chans : List Nat} {tr : List Ev} (h : (managerTask low high ctl chans).Partial tr) : ∀ e ∈ tr, NoData e.q := by
  refine Task.only (managerBody_only low high) ?_ h
  intro kc hkc c
  simp only [managerTask, List.mem_cons, List.mem_map] at hkc
  rcases hkc with rfl | ⟨_, _, rfl⟩ <;> simp [Req.on]

theorem totalTask_only {sender : Option Nat} {mIn mOut : Nat} {tr : List Ev} (h : (totalTask sender mIn mOut).Partial tr) : ∀ e ∈ tr, NoData e.q := by
  refine Task.only (P := NoData) (fun s => (count_only s).mono ?_) ?_ h
  · rintro q (rfl | rfl | ⟨size, h⟩)
    · simp [NoData, Req.on]
    · simp [NoData, Req.on]
    · exact h.2.2.1
  · intro kc hkc c
    simp only [totalTask] at hkc
    cases sender <;> simp at hkc <;> rcases hkc with rfl | rfl | rfl <;> simp [Req.on]

/-- The requests of an exit part. -/
theorem exitBody_only (e : PushEnd) : (exitBody none e ()).Only fun q => q = .status ∨ q = .sleep 100 ∨ (∃ m, q = .send .data e.chan m) ∨ q = .close .data e.chan := by
  unfold exitBody
  refine Prog.Only.bind (p := req _) (Prog.only_req (Or.inl rfl)) fun s => ?_
  cases exitMessage s with
  | none => exact Prog.Only.bind (p := req _) (Prog.only_req (Or.inr (Or.inl rfl))) fun _ => trivial
  | some m =>
    refine Prog.Only.bind (p := (sendExit none e m).run) ?_ fun _ => trivial
    show MOnly _ _
    unfold sendExit
    refine MOnly.bind ?_ fun _ => MOnly.bind ?_ fun _ => monly_ask (by simp)
    · unfold offerExit
      refine MOnly.bind (monly_ask (by simp)) fun x => ?_
      split
      · exact monly_pure _
      · exact monly_throw _
    · exact monly_pure _

section
variable {c : Config} {hs : List Hop} {w : Waiter} {cs : List Capture} {cap : Caps} {τ : List (Who × Ev)}

theorem sys_node {i : Who} {n : Node} (h : w.node i = some n) : w.sys cs i = some n.task := by
  cases i with
  | manager r => simp [Waiter.node] at h
  | part r p =>
    simp only [Waiter.node] at h
    simp only [Waiter.sys]
    cases hk : w.comps.get r with
    | none => rw [hk] at h; cases h
    | some k => rw [hk] at h; simp only at h ⊢; rw [h]

theorem sys_other {r : CompRef} {p : Piece} {t : Task} (h : w.sys cs (.part r p) = some t) (hn : w.node (.part r p) = none) :
    ∃ k, w.comps.get r = some k ∧ k.other (w.idOf r) p = some t := by
  simp only [Waiter.node] at hn
  simp only [Waiter.sys] at h
  cases hk : w.comps.get r with
  | none => rw [hk] at h; cases h
  | some k => rw [hk] at h hn; simp only at h hn; rw [hn] at h; exact ⟨k, rfl, h⟩

/-- What the other activities are: exit parts, counts, managers and drains that let go of their input. -/
theorem Rigged.others (A : Rigged c hs w) (hC : Complete hs) {i : Who} {t : Task} (h : w.sys cs i = some t) (hn : w.node i = none) :
    (∃ r e ch g, i = .part r .exit ∧ r.1 = .launch ∧ t = exitTask e ∧ e.chan = ch ∧ hs[ch]? = some g ∧ g.isExit ∧ g.from = r) ∨
    (∃ r m, i = .part r .count ∧ r.1 = .buffer ∧ Mentioned hs r ∧ t = totalTask (if m = true then some (w.idOf r) else none) (2 * w.idOf r) (2 * w.idOf r + 1) ∧
      ∃ a b, w.comps.get r = some (.buffer a b m)) ∨
    (∃ r a, i = .manager r ∧ a ∈ cs ∧ a.regulator = r ∧ t = managerTask a.low a.high (w.idOf (.regulator, r)) (a.buffers.map fun b => w.idOf (.buffer, b))) ∨
    (∃ r x, i = .part r .main ∧ r.1 = .drain ∧ t = dropTask [(.data, x)] ∧ (∃ m, w.comps.get r = some (.regulator (some m) none false)) ∧ ∃ g, hs[x]? = some g ∧ g.reader = i) := by
  cases i with
  | manager r =>
    right; right; left
    simp only [Waiter.sys] at h
    cases hf : cs.find? (fun c => c.regulator = r) with
    | none => rw [hf] at h; cases h
    | some a =>
      rw [hf] at h; cases h
      exact ⟨r, a, rfl, List.mem_of_find?_eq_some hf, by simpa using List.find?_some hf, rfl⟩
  | part r p =>
    obtain ⟨k, hk, hot⟩ := sys_other h hn
    have hm : Mentioned hs r := by
      by_cases hm : Mentioned hs r
      · exact hm
      · rw [A.only r hm] at hk; cases hk
    obtain ⟨k', hk', he⟩ := A.made r hm
    rw [hk] at hk'; cases hk'
    rcases he with he | ⟨hd, i, hi, rfl⟩
    case inr =>
      cases p <;> cases hot
      obtain ⟨g, h1, h2⟩ := (A.headTo (by rw [hd]; decide) hi i.chan).mp rfl
      exact Or.inr (Or.inr (Or.inr ⟨r, i.chan, rfl, hd, rfl, ⟨_, hk⟩, g, h1, by rw [Hop.reader_iff]; exact ⟨h2, by rw [hd]⟩⟩))
    cases hr : r.1 with
    | faucet =>
      rw [expected_faucet _ _ _ _ hr] at he
      rw [plain_faucet he] at hot; cases p <;> cases hot
    | drain =>
      rw [expected_drain _ _ _ _ hr] at he
      rw [plain_drain he] at hot; cases p <;> cases hot
    | junction =>
      rw [expected_junction _ _ _ _ hr] at he
      rw [plain_junction he] at hot; cases p <;> cases hot
    | regulator =>
      obtain ⟨i, o, m, hk'⟩ := A.regulatorNode hC hr hm
      rw [hk] at hk'; cases hk'
      cases p <;> cases hot
    | buffer =>
      obtain ⟨i, o, m, hk'⟩ := A.bufferNodes hC hr hm
      rw [hk] at hk'; cases hk'
      cases p <;> cases hot
      exact Or.inr (Or.inl ⟨r, m, rfl, hr, hm, rfl, _, _, hk⟩)
    | launch =>
      rw [expected_launch _ _ _ _ hr] at he
      rw [plain_launch he] at hot
      cases p with
      | exit =>
        cases hx : (pushEnds w.idOf hs.zipIdx fun h => h.src = ⟨.launch, r.2, .exit⟩).head? with
        | none => rw [hx] at hot; cases hot
        | some e =>
          rw [hx] at hot; cases hot
          left
          obtain ⟨i, g, h1, h2, h3⟩ := mem_pushEnds.mp (List.mem_of_mem_head? (by rw [hx]; rfl) : e ∈ _)
          have h2 : g.src = ⟨.launch, r.2, .exit⟩ := by simpa using h2
          refine ⟨r, e, _, g, rfl, hr, rfl, rfl, ?_, ⟨by rw [h2], by rw [h2]⟩, ?_⟩
          · rw [h3]; exact h1
          · show (g.src.ty, g.src.name) = r
            rw [h2]; simp only; rw [← hr]
      | main => simp [Comp.other] at hot
      | input => simp [Comp.other] at hot
      | output => simp [Comp.other] at hot
      | error => simp [Comp.other] at hot
      | count => simp [Comp.other] at hot

theorem Assembled.others (A : Assembled c hs w) (hC : Complete hs) {i : Who} {t : Task} (h : w.sys cs i = some t) (hn : w.node i = none) :
    (∃ r e ch g, i = .part r .exit ∧ r.1 = .launch ∧ t = exitTask e ∧ e.chan = ch ∧ hs[ch]? = some g ∧ g.isExit ∧ g.from = r) ∨
    (∃ r m, i = .part r .count ∧ r.1 = .buffer ∧ Mentioned hs r ∧ t = totalTask (if m = true then some (w.idOf r) else none) (2 * w.idOf r) (2 * w.idOf r + 1) ∧
      ∃ a b, w.comps.get r = some (.buffer a b m)) ∨
    (∃ r a, i = .manager r ∧ a ∈ cs ∧ a.regulator = r ∧ t = managerTask a.low a.high (w.idOf (.regulator, r)) (a.buffers.map fun b => w.idOf (.buffer, b))) := by
  rcases A.toRigged.others hC h hn with h' | h' | h' | ⟨r, x, rfl, hd, _, ⟨m, hm⟩, g, hg, hgr⟩
  · exact Or.inl h'
  · exact Or.inr (Or.inl h')
  · exact Or.inr (Or.inr h')
  · obtain ⟨n, hn'⟩ := A.readerNode hC (List.mem_of_getElem? hg)
    rw [hgr, hn] at hn'; cases hn'

theorem dropTask_partial {l : List (Kind × Nat)} {tr : List Ev} (h : (dropTask l).Partial tr) : tr <+: dropEvs l := by
  rcases h with ⟨s', t1, t2, h1, h2, rfl⟩ | ⟨r, t1, t2, h1, h2, rfl⟩
  · cases h1 with
    | nil => cases t2 with
      | nil => simp
      | cons e t2 => exact absurd h2 (by simp [dropTask, pure, Prog.Partial])
    | next h _ => simp [dropTask, pure, Prog.Runs] at h
  · cases h1 with
    | stop h =>
      have : t1 = [] := by simpa [dropTask, pure, Prog.Runs] using h.1
      subst this; simpa [dropTask] using h2
    | next h _ => simp [dropTask, pure, Prog.Runs] at h

theorem dropTask_done {l : List (Kind × Nat)} {tr : List Ev} (h : (dropTask l).Done tr) : tr = dropEvs l := by
  obtain ⟨r, t1, h1, rfl⟩ := h
  cases h1 with
  | stop h =>
    have : t1 = [] := by simpa [dropTask, pure, Prog.Runs] using h.1
    subst this; simp [dropTask]
  | next h _ => simp [dropTask, pure, Prog.Runs] at h

theorem dropTask_ends {l : List (Kind × Nat)} : (dropTask l).Done (dropEvs l) := ⟨(), [], .stop (by simp [dropTask, pure, Prog.Runs]), by simp [dropTask]⟩

/-- Such a drain does one thing. -/
theorem dropTask_only {x : Nat} {tr : List Ev} (h : (dropTask [(.data, x)]).Partial tr) : ∀ e ∈ tr, e = ⟨.close .data x, ()⟩ := by
  intro e he
  have := (dropTask_partial h).subset he
  simpa [dropEvs] using this

theorem dropTask_undone {x : Nat} {tr : List Ev} (h : (dropTask [(.data, x)]).Partial tr) (hd : ¬ (dropTask [(.data, x)]).Done tr) : tr = [] := by
  have hpar := dropTask_partial h
  cases tr with
  | nil => rfl
  | cons e tr =>
    obtain ⟨tr', htr⟩ := hpar
    simp only [dropEvs, List.map_cons, List.map_nil, List.cons_append, List.cons.injEq, List.append_eq_nil_iff] at htr
    exact absurd (by rw [htr.1, htr.2.1]; exact dropTask_ends) hd

theorem dropTask_step {x : Nat} : (dropTask [(.data, x)]).Partial ([] ++ [⟨.close .data x, ()⟩]) :=
  Or.inr ⟨(), [], _, .stop (by simp [dropTask, pure, Prog.Runs]), List.prefix_rfl, rfl⟩

/-- The other activities touch no channel for data but those of exit ports and of drains that let go of their input, each its own. -/
theorem Rigged.touches (A : Rigged c hs w) (hC : Complete hs) {i : Who} {t : Task} (h : w.sys cs i = some t) (hn : w.node i = none) {tr : List Ev} (hp : t.Partial tr) :
    ∀ e ∈ tr, ∀ ch, e.q.on = some (.data, ch) → ∃ g, hs[ch]? = some g ∧ (g.isExit ∧ i = g.writer ∨ i = g.reader) := by
  intro e he ch hq
  rcases A.others hC h hn with ⟨r, p, _, g, rfl, hr, rfl, rfl, hg, hx, hfr⟩ | ⟨r, m, rfl, hr, hm, rfl, _⟩ | ⟨r, a, rfl, _, _, rfl⟩ | ⟨r, x, rfl, hr, rfl, _, g, hg, hgr⟩
  · have := Task.only (t := exitTask p) (fun _ => exitBody_only p) (by simp [exitTask]) hp e he
    refine ⟨g, ?_, Or.inl ⟨hx, ?_⟩⟩
    · rcases this with h | h | ⟨_, h⟩ | h <;> rw [h] at hq <;> simp [Req.on] at hq
      · rw [← hq]; exact hg
      · rw [← hq]; exact hg
    · rw [Eq.comm, Hop.writer_iff]
      refine ⟨hfr, ?_⟩
      rw [hr, hx.2]
  · exact absurd hq (totalTask_only hp e he ch)
  · exact absurd hq (managerTask_only hp e he ch)
  · rw [dropTask_only hp e he] at hq
    simp [Req.on] at hq
    subst hq
    exact ⟨g, hg, Or.inr hgr.symm⟩

theorem Assembled.touches (A : Assembled c hs w) (hC : Complete hs) {i : Who} {t : Task} (h : w.sys cs i = some t) (hn : w.node i = none) {tr : List Ev} (hp : t.Partial tr) :
    ∀ e ∈ tr, ∀ ch, e.q.on = some (.data, ch) → ∃ g, hs[ch]? = some g ∧ g.isExit ∧ i = g.writer := by
  intro e he ch hq
  obtain ⟨g, h1, ⟨h2, h3⟩ | h2⟩ := A.toRigged.touches hC h hn hp e he ch hq
  · exact ⟨g, h1, h2, h3⟩
  · obtain ⟨n, hn'⟩ := A.readerNode hC (List.mem_of_getElem? h1)
    rw [← h2, hn] at hn'; cases hn'

/-- A run of the whole runtime is an execution of the network, which the other activities do not disturb. -/
theorem Rigged.run (A : Rigged c hs w) (hC : Complete hs) (h : w.Run cs cap τ) : Execution cap w.net.sys τ ∧ w.net.Undisturbed τ := by
  refine ⟨⟨h.exec.chans, ?_⟩, ?_⟩
  · intro i t ht
    simp only [Network.sys, Option.map_eq_some_iff] at ht
    obtain ⟨n, hn, rfl⟩ := ht
    exact h.exec.tasks i _ (sys_node hn)
  · intro x hx hn a ch b he hq
    cases hs' : w.sys cs x.1 with
    | none => exact h.known x hx hs'
    | some t =>
      have hp := h.exec.tasks x.1 t hs'
      have hmem : x.2 ∈ proj x.1 τ := by
        rw [proj, List.mem_filterMap]; exact ⟨x, hx, by simp⟩
      obtain ⟨g, g1, g2⟩ := A.touches hC hs' hn hp x.2 hmem ch hq
      rcases (A.edges hC a ch b).mp he with ⟨h', h1, h2, _, _, m, h3⟩ | ⟨y, _, h1, _⟩
      · rw [g1] at h1; cases h1
        rcases g2 with ⟨g2, _⟩ | g2
        · exact h2 g2
        · have hn : w.node x.1 = none := hn
          rw [g2, h3] at hn; cases hn
      · have := get?_lt g1; omega

end
end Verif
