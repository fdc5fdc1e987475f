import Verif.Lemmas.Unheard
import Verif.Lemmas.Steer
import Verif.Lemmas.WorldBytes
import Verif.Spec.Burst
import Verif.Props.BufferReports
/-!
# Nothing more happens around a buffer that has burst
-/
namespace Verif

section
variable {low high ctl : Nat} {chans : List Nat} {tr : List Ev} {e : Ev} {mIn mOut ch : Nat}

/-- A manager which has told its regulator to wait, and knows of a buffer that holds too much, neither tells it to go on nor ends. -/
theorem manager_insists (h : (managerTask low high ctl chans).Partial (tr ++ [e])) (hn : chans.Nodup) (hodd : requests ctl tr % 2 = 1) (hch : ch ∈ chans)
    (he : ended ch tr = false) (hl : low < reported ch tr) : (∀ v, e.q ≠ .send .ctl ctl v) ∧ (∀ c v, e.q ≠ .send .size c v) ∧ ∀ k c, e.q ≠ .close k c := by
  refine ⟨?_, ?_, ?_⟩
  · intro v hq
    have := (C19_requests (e := e) h hn rfl (by obtain ⟨q, r⟩ := e; cases hq; simp [isRequest])).2 hodd
    have := holds_le hch he
    omega
  · intro c v hq
    obtain ⟨q, r⟩ := e
    cases hq
    rcases managerTask_sound h hn tr _ [] rfl with h | ⟨_, _, h⟩
    · rcases h.2.2 with ⟨_, _, h⟩ | ⟨_, h⟩ | ⟨_, h⟩ <;> (have := congrArg Ev.q h; cases this)
    · have := congrArg Ev.q h; cases this
  · intro k c hq
    obtain ⟨q, r⟩ := e
    cases hq
    have loop : ∀ {t}, LoopPartial (managerBody low high) (managerInit ctl chans) t → ⟨.close k c, r⟩ ∉ t := fun ht hm => manager_loop_open ht hn _ hm k c rfl
    rcases h with h | ⟨n, t1, t2, h1, h2, h3⟩
    · exact loop h (by simp)
    · rcases List.eq_nil_or_concat t2 with rfl | ⟨t2', e', rfl⟩
      · rw [List.append_nil] at h3
        exact loop h1.toPartial (by rw [← h3]; simp)
      · rw [List.concat_eq_append, ← List.append_assoc] at h3
        have h4 := (List.append_inj' h3 rfl).1
        have := (C20_balanced h1 hn).2.1 ch hch
        rw [h4] at he
        simp only [ended, List.any_append, Bool.or_eq_false_iff] at he this
        rw [he.1] at this; cases this

/-- A count which has said all it knows, and whose buffer can still be fed, does nothing but look. -/
theorem count_insists (h : (totalTask (some ch) mIn mOut).Partial (tr ++ [e])) (hne : mIn ≠ mOut)
    (hin : ∀ m ∈ gotOn .mon mIn tr, m = .wrote 0) (hout : ∀ m ∈ gotOn .mon mOut tr, m = .read 0)
    (hle : (gotOn .mon mOut tr).length ≤ (gotOn .mon mIn tr).length)
    (hend : (⟨.stat .mon mIn, (true, true)⟩ : Ev) ∉ tr) (hrej : ∀ v, (⟨.send .size ch v, false⟩ : Ev) ∉ tr) : ∀ k c, e.q ≠ .close k c := by
  intro k c hq
  obtain ⟨q, r⟩ := e
  cases hq
  have loop : ∀ {t}, LoopPartial (totalBody (some ch) mIn mOut) (totalTask (some ch) mIn mOut).init t → ⟨.close k c, r⟩ ∉ t := by
    intro t ht hm
    have := Task.only (t := { totalTask (some ch) mIn mOut with drops := [] }) (P := CountReq mIn mOut) count_only (by simp) (Or.inl ht) _ hm
    rcases this with h | h | ⟨_, h⟩
    · cases h
    · cases h
    · exact (h.1 k c).2.2 rfl
  rcases h with h | ⟨n, t1, t2, h1, h2, h3⟩
  · exact loop h (by simp)
  · rcases List.eq_nil_or_concat t2 with rfl | ⟨t2', e', rfl⟩
    · rw [List.append_nil] at h3
      exact loop h1.toPartial (by rw [← h3]; simp)
    · rw [List.concat_eq_append] at h2
      rw [List.concat_eq_append, ← List.append_assoc] at h3
      have h4 := (List.append_inj' h3 rfl).1
      have h5 : t2' <+: dropEvs (totalTask (some ch) mIn mOut).drops := (List.prefix_append _ _).trans h2
      subst h4
      simp only [gotOn_append, gotOn_drops h5, List.append_nil] at hin hout hle
      have hp : (totalTask (some ch) mIn mOut).Partial t1 := Or.inl h1.toPartial
      have hr : (∃ n', n = .done n') ∨ n = .sendError := by
        rcases count_local hne hp hin hout hle with ⟨_, h⟩ | ⟨_, h⟩
        · exfalso
          obtain ⟨_, _, _, h6⟩ := mem_dropEvs (Task.after (t := totalTask (some ch) mIn mOut) h1 (h.step .empty)) _ List.mem_cons_self
          have := congrArg Ev.q h6; cases this
        · exact h n t1 [] h1 (by simp)
      have hl := keeps_loop (count_keeps hne) h1 count_starts
      rcases hr with ⟨n', rfl⟩ | rfl
      · obtain ⟨⟨u, hu⟩, _⟩ := hl
        exact hend (by rw [hu]; simp)
      · obtain ⟨c', v, u, hc, hu⟩ := hl
        cases hc
        exact hrej v (by rw [hu]; simp)

theorem count_says {v : Nat} {r : Bool} (hne : mIn ≠ mOut) (h : (totalTask (some ch) mIn mOut).Partial (tr ++ [⟨.send .size ch v, r⟩])) :
    v + (gotOn .mon mOut tr).length = (gotOn .mon mIn tr).length := by
  rcases Task.keeps_request (t := totalTask (some ch) mIn mOut) (count_keeps hne) count_starts h with h | ⟨_, _, h⟩
  · exact (h.2.1 ch rfl ch v rfl).2.2
  · simp at h

theorem count_unnoted {sender : Option Nat} (h : (totalTask sender mIn mOut).Partial tr) : ∀ e ∈ tr, ∀ c v, e.q ≠ .send .mon c v := by
  refine Task.only (P := fun q => ∀ c v, q ≠ .send .mon c v) (fun s => (count_only s).mono ?_) (fun _ _ => by simp) h
  rintro q (rfl | rfl | ⟨_, h⟩) c v
  · simp
  · simp
  · exact h.2.1 c v

end

/-- An empty channel, if nothing is put into it. -/
theorem exec_dry {cap : Caps} {st st' : Store} {e : Ev} {k : Kind} {c : Nat} (h : exec cap st e = some st') (hq : (st k c).q = []) (hs : ∀ v, e.q ≠ .send k c v) :
    (st' k c).q = [] ∧ gotOf k c e = none := by
  have h1 := (exec_chan h k c).1
  have h2 : sentOf k c e = none := by
    obtain ⟨q, r⟩ := e
    cases q with
    | send k' c' v =>
      cases r with
      | false => rfl
      | true =>
        simp only [sentOf, dite_eq_right_iff]
        rintro ⟨rfl, rfl⟩
        exact absurd rfl (hs v)
    | _ => rfl
  rw [hq, h2] at h1
  simp only [Option.toList_none, List.append_nil] at h1
  have h3 := List.append_eq_nil_iff.mp h1.symm
  exact ⟨h3.2, by simpa using h3.1⟩

theorem exec_open {cap : Caps} {st st' : Store} {e : Ev} {k : Kind} {c : Nat} (h : exec cap st e = some st') (ho : (st k c).closed = false) (hs : e.q ≠ .close k c) :
    (st' k c).closed = false := by
  rw [(exec_chan h k c).2.1, ho, Bool.false_or]
  obtain ⟨q, r⟩ := e
  cases q with
  | close k' c' =>
    simp only [closesChan, decide_eq_false_iff_not]
    rintro ⟨rfl, rfl⟩
    exact hs rfl
  | _ => rfl

theorem recv_blocks {cap : Caps} {st st' : Store} {e : Ev} {k : Kind} {c : Nat} (h : exec cap st e = some st') (hq : (st k c).q = []) (ho : (st k c).closed = false) : e.q ≠ .recv k c := by
  intro h0
  obtain ⟨q, r⟩ := e
  cases h0
  cases r with
  | none => simp [exec, ho] at h
  | some v => simp [exec, hq] at h

/-- Nobody has found an open channel closed. -/
theorem open_stat {cap : Caps} {es : List Ev} {st : Store} {k : Kind} {c : Nat} (h : execAll cap Store.init es = some st) (ho : (st k c).closed = false) (b : Bool) :
    (⟨.stat k c, (b, true)⟩ : Ev) ∉ es := by
  intro he
  obtain ⟨u, v, rfl⟩ := List.append_of_mem he
  obtain ⟨s1, g1, h2⟩ := execAll_split h
  obtain ⟨s2, g2, _⟩ := execAll_cons h2
  have hc : (s1 k c).closed = true := by
    simp only [exec] at g2
    split at g2
    · rename_i h; exact h.2.symm
    · cases g2
  rw [(closed_iff h2 k c).mpr (Or.inl hc)] at ho
  cases ho

theorem requests_accepted {ctl : Nat} : ∀ {tr : List Ev}, (∀ e ∈ tr, e ≠ ⟨.send .ctl ctl (), false⟩) → requests ctl tr = (sentOn .ctl ctl tr).length := by
  intro tr
  induction tr with
  | nil => intro _; rfl
  | cons e tr ih =>
    intro h
    have ih := ih fun e he => h e (by simp [he])
    have he := h e (by simp)
    rw [sentOn_cons, List.length_append]
    unfold requests at ih ⊢
    rw [List.countP_cons, ih]
    obtain ⟨q, r⟩ := e
    cases q with
    | send k ch v =>
      cases k with
      | ctl =>
        by_cases hc : ch = ctl
        · subst hc
          cases r with
          | true => simp [isRequest, sentOf]; omega
          | false => exact absurd rfl he
        · cases r <;> simp [isRequest, sentOf, hc]
      | _ => cases r <;> simp [isRequest, sentOf]
    | _ => simp [isRequest, sentOf]

section
variable {c : Config} {hs : List Hop} {w : Waiter} {cs : List Capture} {cap : Caps} {st : Store} {τ : List (Who × Ev)}

/-- The manager of a paused regulator has made an odd number of requests. -/
theorem Rigged.odd (A : Rigged c hs w) (hC : Complete hs) (T : Attended cs w) (hr : w.Run cs cap τ) (hst : execAll cap Store.init (τ.map Prod.snd) = some st)
    {a : Capture} (ha : a ∈ cs) (hp : w.Paused cs st τ a.regulator) : requests (w.idOf (.regulator, a.regulator)) (proj (.manager a.regulator) τ) % 2 = 1 := by
  obtain ⟨⟨t, ht, hq⟩, hctlq, hctlo⟩ := hp
  obtain ⟨i, o, m, hk⟩ := A.regulatorNode hC (r := (.regulator, a.regulator)) rfl (A.steered T ha)
  have hm : m = true := (T.control _ _ _ m hk).mpr (List.mem_map.mpr ⟨a, ha, rfl⟩)
  subst hm
  have hR : w.sys cs (.part (.regulator, a.regulator) .main) = some (regulatorTask i.pull o.push none (some (w.idOf (.regulator, a.regulator)))) := by
    simp only [Waiter.sys, hk, Comp.node]; rfl
  rw [hR] at ht
  cases ht
  have h1 := regulator_waits (by simp [PullEnd.pull]) hq (fun h => (open_history hst hctlo).2.1 (List.mem_map.mpr ⟨_, mem_proj.mp h, rfl⟩))
  have h2 := A.controls hC T hr ha hst
  rw [hctlq, List.append_nil] at h2
  rw [requests_accepted (fun e he h => (open_history hst hctlo).1 () (by rw [← h]; exact List.mem_map.mpr ⟨_, mem_proj.mp he, rfl⟩)), h2]
  exact h1

/-- Around a buffer that has burst only those act who look for changes, and find none. -/
theorem Rigged.burst_step (A : Rigged c hs w) (hC : Complete hs) (T : Attended cs w) {a : Capture} (ha : a ∈ cs) {x : Str} (hx : x ∈ a.buffers) {i : Nat} {h : Hop}
    (hi : hs[i]? = some h) (hf : h.from = (.regulator, a.regulator)) (ht : h.to = (.buffer, x))
    {j : Who} {e : Ev} (hr : w.Run cs cap (τ ++ [(j, e)])) (hst : execAll cap Store.init (τ.map Prod.snd) = some st) (B : w.Burst (w.sys cs) st τ a x i) :
    (j ≠ .part (.regulator, a.regulator) .main ∧ j ≠ .part (.buffer, x) .input ∧ j ≠ .part (.buffer, x) .output) ∧
    ∃ st', execAll cap Store.init ((τ ++ [(j, e)]).map Prod.snd) = some st' ∧ w.Burst (w.sys cs) st' (τ ++ [(j, e)]) a x i := by
  have hr0 := hr.initial
  have hwr : h.writer = .part (.regulator, a.regulator) .main := by
    have : h.src.ty = .regulator := congrArg Prod.fst hf
    simp only [Hop.writer, hf, this]
  have hrd : h.reader = .part (.buffer, x) .input := by
    have : h.dst.ty = .buffer := congrArg Prod.fst ht
    simp only [Hop.reader, ht, this]
  have hm := A.watched T ha hx
  obtain ⟨ai, bo, m, hk, BO⟩ := A.bufferOwn hC T hr hm
  have hin : w.node (.part (.buffer, x) .input) = some (.relay ai.pull { written := some (2 * w.idOf (.buffer, x)) } none (.sender ⟨0, none, 0, bo.breakable⟩ (w.chans + w.idOf (.buffer, x)))) := by
    simp only [Waiter.node, hk, Comp.node]
  have hxe : ¬ h.isExit := by
    rintro ⟨h1, _⟩
    have : h.src.ty = .regulator := congrArg Prod.fst hf
    rw [this] at h1; cases h1
  obtain ⟨E, U⟩ := A.run hC hr
  have F := w.net.facts (A.wired hC) E U ((A.edges hC _ _ _).mpr (Or.inl ⟨h, hi, hxe, rfl, rfl, _, by rw [hrd]; exact hin⟩))
  rw [hwr, hrd] at F
  obtain ⟨st', hst'⟩ := Option.isSome_iff_exists.mp hr.exec.chans
  have hx' : Verif.exec cap st e = some st' := by
    rw [List.map_append, execAll_append, hst] at hst'
    simp only [Option.bind_some, List.map_cons, List.map_nil] at hst'
    obtain ⟨s2, g1, g2⟩ := execAll_cons hst'
    simp only [execAll, Option.some.injEq] at g2
    rw [g1, g2]
  have hodd := A.odd hC T hr0 hst ha ⟨B.paused, B.unasked⟩
  obtain ⟨tr, htr, hra⟩ := B.paused
  obtain ⟨hcq, hco⟩ := B.unasked
  obtain ⟨ti, hti, hia⟩ := B.waits
  obtain ⟨to, hto, hod⟩ := B.gone
  have n1 : j ≠ .part (.regulator, a.regulator) .main := by
    rintro rfl
    have := hr.exec.tasks _ _ htr
    rw [proj_snoc_self] at this
    exact recv_blocks hx' hcq hco (hra.next this)
  have n2 : j ≠ .part (.buffer, x) .input := by
    rintro rfl
    have := hr.exec.tasks _ _ hti
    rw [proj_snoc_self] at this
    exact recv_blocks hx' B.dry.1 B.dry.2 (hia.next this)
  have n3 : j ≠ .part (.buffer, x) .output := by
    rintro rfl
    have := hr.exec.tasks _ _ hto
    rw [proj_snoc_self] at this
    exact hod.stops this
  refine ⟨⟨n1, n2, n3⟩, st', hst', ?_⟩
  obtain ⟨_, _, _, hk', BO0⟩ := A.bufferOwn hC T hr0 hm
  rw [hk] at hk'; cases hk'
  have hmt : m = true := (T.monitor _ _ _ _ hk).mpr (List.mem_flatMap.mpr ⟨a, ha, hx⟩)
  subst hmt
  have hcs : w.sys cs (.part (.buffer, x) .count) = some (w.counting x true) := BO.cnt
  have hrep : lastReport (w.idOf (.buffer, x)) (proj (.part (.buffer, x) .count) τ) = reported (w.idOf (.buffer, x)) (proj (.manager a.regulator) τ) := by
    unfold lastReport reported
    rw [A.sizes hC T hr0 ha hx hst, B.told.1, List.append_nil]
  have past : ∀ {i : Who} {e : Ev}, e ∈ proj i τ → e ∈ τ.map Prod.snd := fun h => List.mem_map.mpr ⟨_, mem_proj.mp h, rfl⟩
  -- the manager
  have man : j = .manager a.regulator → (∀ v, e.q ≠ .send .ctl (w.idOf (.regulator, a.regulator)) v) ∧ (∀ c v, e.q ≠ .send .size c v) ∧ ∀ k c, e.q ≠ .close k c := by
    rintro rfl
    have := hr.exec.tasks _ _ (T.manages ha)
    rw [proj_snoc_self] at this
    refine manager_insists (ch := w.idOf (.buffer, x)) this (A.chans_nodup T ha) hodd (List.mem_map.mpr ⟨x, hx, rfl⟩) ?_ B.much
    cases h : ended (w.idOf (.buffer, x)) (proj (.manager a.regulator) τ) with
    | false => rfl
    | true => have := (ended_over hst h).2; rw [B.told.2] at this; cases this
  -- the count
  have cnt : j = .part (.buffer, x) .count → (∀ v, e.q ≠ .send .size (w.idOf (.buffer, x)) v) ∧ (∀ c v, e.q ≠ .send .mon c v) ∧ ∀ k c, e.q ≠ .close k c := by
    rintro rfl
    have hp := hr.exec.tasks _ _ hcs
    have hun := count_unnoted hp
    rw [proj_snoc_self] at hp hun
    obtain ⟨m1, m2⟩ := BO0.msgs
    refine ⟨?_, hun e (by simp), ?_⟩
    · intro v hq
      obtain ⟨q, r⟩ := e
      cases hq
      have h1 := (C24_changed (by omega) hp).2
      have h2 := count_says (by omega) hp
      have := B.counted
      omega
    · refine count_insists hp (by omega) m1 m2 ?_ (fun h => open_stat hst B.noted.2.1 true (past h)) (fun v h => (open_history hst B.told.2).1 v (past h))
      have := B.counted
      omega
  -- the channels
  have last : (j, e) ∈ τ ++ [(j, e)] := by simp
  have ctl : (∀ v, e.q ≠ .send .ctl (w.idOf (.regulator, a.regulator)) v) ∧ e.q ≠ .close .ctl (w.idOf (.regulator, a.regulator)) := by
    have : e.q.on = some (.ctl, w.idOf (.regulator, a.regulator)) → j = .manager a.regulator := fun h => (A.steerers hC T ha hr last h).resolve_left n1
    exact ⟨fun v h => (man (this (by rw [h]; rfl))).1 v h, fun h => (man (this (by rw [h]; rfl))).2.2 _ _ h⟩
  have data : (∀ v, e.q ≠ .send .data i v) ∧ e.q ≠ .close .data i := by
    have : e.q.on ≠ some (.data, i) := fun h => (F.on _ last h).elim n1 n2
    exact ⟨fun v h => this (by rw [h]; rfl), fun h => this (by rw [h]; rfl)⟩
  have mon : ∀ ch, ch = 2 * w.idOf (.buffer, x) ∨ ch = 2 * w.idOf (.buffer, x) + 1 → (∀ v, e.q ≠ .send .mon ch v) ∧ e.q ≠ .close .mon ch := by
    intro ch hch
    have : e.q.on = some (.mon, ch) → j = .part (.buffer, x) .count := by
      intro h
      rcases BO.own _ last _ h (by rcases hch with rfl | rfl <;> simp) with h | h | h
      · exact absurd h n2
      · exact absurd h n3
      · exact h
    exact ⟨fun v h => (cnt (this (by rw [h]; rfl))).2.1 _ v h, fun h => (cnt (this (by rw [h]; rfl))).2.2 _ _ h⟩
  have size : (∀ v, e.q ≠ .send .size (w.idOf (.buffer, x)) v) ∧ e.q ≠ .close .size (w.idOf (.buffer, x)) := by
    have : e.q.on = some (.size, w.idOf (.buffer, x)) → j = .part (.buffer, x) .count ∨ j = .manager a.regulator := by
      intro h
      rcases A.users hC T hr last h with h | ⟨h, _⟩ | ⟨_, a', ha', z, hz, h1, h2⟩ | ⟨h, _⟩
      · cases h
      · cases h
      · have := A.distinct _ _ hm (A.watched T ha' hz) h1
        simp only [Prod.mk.injEq, true_and] at this
        subst this
        rwa [← T.capture_eq ha ha' hx hz] at h2
      · cases h
    refine ⟨fun v h => ?_, fun h => ?_⟩
    · rcases this (by rw [h]; rfl) with g | g
      · exact (cnt g).1 v h
      · exact (man g).2.1 _ v h
    · rcases this (by rw [h]; rfl) with g | g
      · exact (cnt g).2.2 _ _ h
      · exact (man g).2.2 _ _ h
  have still : ∀ {i}, j ≠ i → proj i (τ ++ [(j, e)]) = proj i τ := fun h => proj_snoc_ne h _ _
  have got : ∀ {k ch} (i : Who), (st k ch).q = [] → (∀ v, e.q ≠ .send k ch v) → gotOn k ch (proj i (τ ++ [(j, e)])) = gotOn k ch (proj i τ) := by
    intro k ch i h1 h2
    by_cases hj : j = i
    · subst hj
      rw [proj_snoc_self, gotOn_append]
      simp [gotOn, (exec_dry hx' h1 h2).2]
    · rw [still hj]
  have rep : reported (w.idOf (.buffer, x)) (proj (.manager a.regulator) (τ ++ [(j, e)])) = reported (w.idOf (.buffer, x)) (proj (.manager a.regulator) τ) := by
    unfold reported
    rw [got _ B.told.1 size.1]
  exact {
    paused := ⟨tr, htr, by rw [still n1]; exact hra⟩
    unasked := ⟨(exec_dry hx' hcq ctl.1).1, exec_open hx' hco ctl.2⟩
    waits := ⟨ti, hti, by rw [still n2]; exact hia⟩
    dry := ⟨(exec_dry hx' B.dry.1 data.1).1, exec_open hx' B.dry.2 data.2⟩
    gone := ⟨to, hto, by rw [still n3]; exact hod⟩
    noted := ⟨(exec_dry hx' B.noted.1 (mon _ (Or.inl rfl)).1).1, exec_open hx' B.noted.2.1 (mon _ (Or.inl rfl)).2, (exec_dry hx' B.noted.2.2 (mon _ (Or.inr rfl)).1).1⟩
    told := ⟨(exec_dry hx' B.told.1 size.1).1, exec_open hx' B.told.2 size.2⟩
    counted := by rw [rep, got _ B.noted.1 (mon _ (Or.inl rfl)).1, got _ B.noted.2.2 (mon _ (Or.inr rfl)).1]; exact B.counted
    much := by rw [rep]; exact B.much }

end
end Verif
