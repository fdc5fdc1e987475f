import Verif.Lemmas.Watermark
import Verif.Lemmas.Senders
import Verif.Lemmas.Blame
import Verif.Lemmas.Transit
import Verif.Props.BufferRuntime
/-!
# What a buffer holds, what its manager knows of it, and what its regulator lets through
-/
namespace Verif

section
variable {low high ctl : Nat} {chans : List Nat} {tr : List Ev} {e : Ev} {mIn mOut : Nat} {sender : Option Nat}

theorem manager_loop_open {t : List Ev} (ht : LoopPartial (managerBody low high) (managerInit ctl chans) t) (hn : chans.Nodup) : ∀ e' ∈ t, ∀ k c, e' ≠ ⟨.close k c, ()⟩ := by
  intro e' he' k c h0
  subst h0
  obtain ⟨u, v, rfl⟩ := List.append_of_mem he'
  rcases (loopPartial_sound ht hn u _ v rfl).2.2 with ⟨_, _, h⟩ | ⟨_, h⟩ | ⟨_, h⟩
  · have := congrArg Ev.q h; cases this
  · have := congrArg Ev.q h; cases this
  · have := congrArg Ev.q h; cases this

/-- A manager that has paused the regulator has closed nothing. -/
theorem manager_odd (h : (managerTask low high ctl chans).Partial tr) (hn : chans.Nodup) (hodd : requests ctl tr % 2 = 1) : ∀ e' ∈ tr, ∀ k c, e' ≠ ⟨.close k c, ()⟩ := by
  rcases h with h | ⟨r, t1, t2, h1, h2, rfl⟩
  · exact manager_loop_open h hn
  · exfalso
    have hd := mem_dropEvs h2
    have hz : requests ctl t2 = 0 := by
      unfold requests; rw [List.countP_eq_zero]
      intro e he; obtain ⟨k', c', _, rfl⟩ := hd e he; simp [isRequest]
    have := (C20_balanced h1 hn).1
    rw [requests_append, hz] at hodd
    omega

/-- What a manager does with the control of its regulator. -/
theorem manager_ctl (h : (managerTask low high ctl chans).Partial tr) (hn : chans.Nodup) {c' : Nat} (he : e ∈ tr) (hq : e.q.on = some (.ctl, c')) :
    (∃ b, e = ⟨.send .ctl ctl (), b⟩) ∨ ∃ k c, e = ⟨.close k c, ()⟩ := by
  obtain ⟨u, v, rfl⟩ := List.append_of_mem he
  rcases managerTask_sound h hn u _ v rfl with ⟨_, _, ⟨_, _, rfl⟩ | h | ⟨_, rfl⟩⟩ | h
  · simp [Req.on] at hq
  · exact Or.inl h
  · simp [Req.on] at hq
  · exact Or.inr h

theorem sent_requests {c : Nat} {t : List Ev} (h : ∀ e ∈ t, isRequest c e = true → e = ⟨.send .ctl c (), true⟩) : (sentOn .ctl c t).length = requests c t := by
  induction t with
  | nil => rfl
  | cons e t ih =>
    have ih := ih fun e he => h e (by simp [he])
    rw [sentOn_cons, List.length_append, ih]
    unfold requests
    rw [List.countP_cons]
    by_cases hq : isRequest c e = true
    · obtain rfl := h e (by simp) hq
      simp [isRequest, sentOf]; omega
    · have : sentOf .ctl c e = none := by
        cases hs : sentOf .ctl c e with
        | none => rfl
        | some v =>
          obtain ⟨v', rfl⟩ := sent_req (by rw [hs]; simp)
          simp [isRequest] at hq
      simp [this, hq]

/-- A manager that does something has closed nothing. -/
theorem manager_open (h : (managerTask low high ctl chans).Partial (tr ++ [e])) (hn : chans.Nodup) (he : ∀ k c, e ≠ ⟨.close k c, ()⟩) :
    ∀ e' ∈ tr, ∀ k c, e' ≠ ⟨.close k c, ()⟩ := by
  rcases h with h | ⟨r, t1, t2, h1, h2, heq⟩
  · exact fun e' he' => manager_loop_open h hn e' (by simp [he'])
  · rcases List.eq_nil_or_concat t2 with rfl | ⟨t2', e', rfl⟩
    · rw [List.append_nil] at heq
      intro e' he'
      exact manager_loop_open h1.toPartial hn e' (by rw [← heq]; simp [he'])
    · exfalso
      have : e = e' := by
        rw [List.concat_eq_append, ← List.append_assoc] at heq
        have := congrArg List.getLast? heq
        simpa using this
      subst this
      obtain ⟨k, c, _, h⟩ := mem_dropEvs h2 e (by simp)
      exact he k c h

/-- A count that has closed something gets nothing more. -/
theorem count_over {t : List Ev} (h : (totalTask sender mIn mOut).Partial (tr ++ t)) (hc : closings tr ≠ []) (k : Kind) (c : Nat) : gotOn k c t = [] := by
  unfold gotOn
  rw [List.filterMap_eq_nil_iff]
  intro e he
  obtain ⟨u, v, rfl⟩ := List.append_of_mem he
  have h' : (totalTask sender mIn mOut).Partial ((tr ++ u) ++ [e]) := by
    have : tr ++ (u ++ e :: v) = (tr ++ u ++ [e]) ++ v := by simp
    rw [this] at h
    exact h.prefix
  obtain ⟨k', c', rfl⟩ := count_closed h' (by
    rw [closings_append]
    intro h0
    exact hc (List.append_eq_nil_iff.mp h0).1)
  rfl

end

section
variable {c : Config} {hs : List Hop} {w : Waiter} {cs : List Capture} {τ : List (Who × Ev)}

theorem closes_on {k : Kind} {ch : Nat} {e : Ev} (h : closesChan k ch e = true) : e = ⟨.close k ch, ()⟩ := by
  obtain ⟨q, r⟩ := e
  cases q with
  | close k' c' =>
    simp [closesChan] at h
    obtain ⟨rfl, rfl⟩ := h
    rfl
  | _ => simp [closesChan] at h

theorem closings_of_mem {k : Kind} {ch : Nat} {tr : List Ev} (h : (⟨.close k ch, ()⟩ : Ev) ∈ tr) : closings tr ≠ [] := by
  have : (k, ch) ∈ closings tr := mem_closings.mpr (by
    unfold acts
    exact List.mem_map.mpr ⟨_, h, rfl⟩)
  intro h0
  rw [h0] at this
  cases this

/-- A buffer reads from one hop only. -/
theorem Assembled.bufferSource (A : Assembled c hs w) (hC : Complete hs) {cap : Caps} (hr : w.Run cs cap τ) {b : Nat} {h : Hop} (hb : hs[b]? = some h) (hv : h.to.1 = .buffer) :
    ∀ tr, (∀ e ∈ tr, e ∈ proj h.reader τ) → receivedFrom (.chan b) tr = received tr := by
  intro tr htr
  obtain ⟨i, o, m, hk⟩ := A.toRigged.bufferNodes hC hv ⟨h, List.mem_of_getElem? hb, Or.inr rfl⟩
  have hd : h.dst.ty = .buffer := hv
  obtain ⟨n, hn⟩ : ∃ n, w.node h.reader = some n := by
    simp only [Hop.reader, hd, Waiter.node, hk, Comp.node]; exact ⟨_, rfl⟩
  have hs' : .chan b ∈ n.sources := (A.sources (r := h.to) hn b).mpr (Or.inl ⟨h, hb, rfl⟩)
  obtain ⟨e, u⟩ := A.run hC hr
  have Q := w.net.conduct (A.wired hC) e (i := h.reader) hn
  have hn' := hn
  simp only [Hop.reader, hd, Waiter.node, hk, Comp.node] at hn'
  cases hn'
  simp only [Node.sources, pull_source, Option.toList_some, List.mem_singleton] at hs'
  refine receivedFrom_only fun s' d hd' => ?_
  have hmem : Act.got s' d ∈ acts (proj h.reader τ) := by
    unfold acts at hd' ⊢
    obtain ⟨e, he, h⟩ := List.mem_map.mp hd'
    exact List.mem_map.mpr ⟨e, htr e he, h⟩
  have := Q.got s' d hmem
  simp only [Node.sources, pull_source, Option.toList_some, List.mem_singleton] at this
  rw [this, hs']

/-- What a buffer has taken in is at most what it has given out, what its manager believes it to hold, and what fits into the channels between. -/
theorem Assembled.counted (A : Assembled c hs w) (hC : Complete hs) (T : Attended cs w) (hr : w.Run cs (realCaps hs) τ) {a : Capture} (ha : a ∈ cs) {x : Str} (hx : x ∈ a.buffers) :
    Climb 0 (gotOn .size (w.idOf (.buffer, x)) (proj (.manager a.regulator) τ)) ∧
    heard (proj (.part (.buffer, x) .input) τ) ≤ nGot .mon (2 * w.idOf (.buffer, x)) (proj (.part (.buffer, x) .count) τ) + 9 ∧
    nGot .mon (2 * w.idOf (.buffer, x)) (proj (.part (.buffer, x) .count) τ) ≤ heard (proj (.part (.buffer, x) .input) τ) ∧
    (received (proj (.part (.buffer, x) .input) τ)).length ≤
      (received (proj (.part (.buffer, x) .output) τ)).length + reported (w.idOf (.buffer, x)) (proj (.manager a.regulator) τ) + 19 := by
  obtain ⟨p, q, m, hk, B⟩ := A.toRigged.bufferOwn hC T hr (A.toRigged.watched T ha hx)
  have hm : m = true := (T.monitor x _ _ m hk).mpr (List.mem_flatMap.mpr ⟨a, ha, hx⟩)
  subst hm
  obtain ⟨st, hst⟩ := Option.isSome_iff_exists.mp hr.exec.chans
  have hsz := A.toRigged.sizes hC T hr ha hx hst
  obtain ⟨f1, f2, _⟩ := B.fifos hst
  have hc : (totalTask (some (w.idOf (.buffer, x))) (2 * w.idOf (.buffer, x)) (2 * w.idOf (.buffer, x) + 1)).Partial (proj (.part (.buffer, x) .count) τ) :=
    B.run.tasks _ _ B.cnt
  obtain ⟨c1, c2⟩ := count_climbs (by omega) hc
  have n1 := in_near (B.run.tasks _ _ B.ina)
  have n2 := out_near (B.run.tasks _ _ B.outb)
  have n3 := (out_local (B.run.tasks _ _ B.outb)).2
  have l1 := room_le hst .mon (2 * w.idOf (.buffer, x)) (n := 8) rfl (by simp [Store.init])
  have l2 := room_le hst .size (w.idOf (.buffer, x)) (n := 8) rfl (by simp [Store.init])
  rw [hsz, climb_append] at c1
  rw [hsz, lastOf_append] at c2
  have c3 := c1.2.last_le
  simp only [nSent, nGot, f1, f2, List.length_append] at n1 n2 c2 ⊢
  rw [reported_last]
  refine ⟨c1.1, by omega, by omega, ?_⟩
  unfold heard at n1 n2
  omega

/-- Paused, a regulator writes one more message at most. -/
theorem Assembled.halted (A : Assembled c hs w) (hC : Complete hs) (T : Attended cs w) {a : Capture} (ha : a ∈ cs) {τ₁ τ₂ : List (Who × Ev)} {r : Bool}
    (hr : w.Run cs (realCaps hs) (τ₁ ++ (.manager a.regulator, ⟨.send .ctl (w.idOf (.regulator, a.regulator)) (), r⟩) :: τ₂))
    (h1 : requests (w.idOf (.regulator, a.regulator)) (proj (.manager a.regulator) τ₁) % 2 = 0)
    (h2 : requests (w.idOf (.regulator, a.regulator)) (proj (.manager a.regulator) τ₂) = 0) :
    (offers (proj (.part (.regulator, a.regulator) .main) τ₂)).length ≤ 1 := by
  have hn := A.toRigged.chans_nodup T ha
  have hM := hr.exec.tasks _ _ (T.manages ha)
  obtain ⟨i, o, t, hk⟩ := A.toRigged.regulatorNode hC (r := (.regulator, a.regulator)) rfl (A.toRigged.steered T ha)
  have ht : t = true := (T.control _ _ _ t hk).mpr (List.mem_map.mpr ⟨a, ha, rfl⟩)
  subst ht
  have hR : w.sys cs (.part (.regulator, a.regulator) .main) = some (regulatorTask i.pull o.push none (some (w.idOf (.regulator, a.regulator)))) := by
    simp only [Waiter.sys, hk, Comp.node]; rfl
  have hp : i.pull ≠ .none := by simp [PullEnd.pull]
  have user : ∀ {j e}, (j, e) ∈ τ₁ ++ (.manager a.regulator, ⟨.send .ctl (w.idOf (.regulator, a.regulator)) (), r⟩) :: τ₂ → e.q.on = some (.ctl, w.idOf (.regulator, a.regulator)) →
      j = .part (.regulator, a.regulator) .main ∨ j = .manager a.regulator := by
    intro j e hy hq
    rcases A.toRigged.users hC T hr hy hq with h | ⟨h, _⟩ | ⟨h, _⟩ | ⟨_, a', ha', h1, h2⟩
    · cases h
    · cases h
    · cases h
    · have := A.distinct _ _ (A.toRigged.steered T ha) (A.toRigged.steered T ha') h1
      simp only [Prod.mk.injEq, true_and] at this
      rw [this]; exact h2
  have hm1 : (w.managing a).Partial (proj (.manager a.regulator) τ₁ ++ [⟨.send .ctl (w.idOf (.regulator, a.regulator)) (), r⟩]) := by
    have : proj (.manager a.regulator) (τ₁ ++ (.manager a.regulator, (⟨.send .ctl (w.idOf (.regulator, a.regulator)) (), r⟩ : Ev)) :: τ₂) =
        (proj (.manager a.regulator) τ₁ ++ [⟨.send .ctl (w.idOf (.regulator, a.regulator)) (), r⟩]) ++ proj (.manager a.regulator) τ₂ := by simp [proj]
    rw [this] at hM
    exact hM.prefix
  have hopen := manager_open hm1 hn fun k c h => by have := congrArg Ev.q h; cases this
  obtain ⟨st3, hst⟩ := Option.isSome_iff_exists.mp hr.exec.chans
  rw [List.map_append, List.map_cons] at hst
  obtain ⟨st1, hst1, hst⟩ := execAll_split hst
  obtain ⟨st2, hsend, hst2⟩ := execAll_cons hst
  have shut : ∀ {j}, (j, (⟨.close .ctl (w.idOf (.regulator, a.regulator)), ()⟩ : Ev)) ∈ τ₁ → closings (proj (.part (.regulator, a.regulator) .main) τ₁) ≠ [] := by
    intro j hj
    rcases user (List.mem_append_left _ hj) rfl with rfl | rfl
    · exact closings_of_mem (mem_proj.mpr hj)
    · exact absurd rfl (hopen _ (mem_proj.mpr hj) _ _)
  cases r with
  | false =>
    obtain ⟨hcl, _⟩ := exec_send_false hsend
    rcases (closed_iff hst1 .ctl _).mp hcl with h | ⟨e, he, h⟩
    · simp [Store.init] at h
    · obtain ⟨⟨j, e⟩, hj, rfl⟩ := List.mem_map.mp he
      obtain rfl := closes_on h
      have hO := (regulator_ordered (hr.exec.tasks _ _ hR) hp).1
      have := (hO.after (u := proj (.part (.regulator, a.regulator) .main) τ₁) (v := proj (.part (.regulator, a.regulator) .main) τ₂) (by simp [proj]) (shut hj)).2.2
      rw [this]; simp
  | true =>
    obtain ⟨hop, _⟩ := exec_send hsend
    have nocl : ¬ closedIn .ctl (w.idOf (.regulator, a.regulator)) (τ₁.map Prod.snd) := by
      intro h
      have := (closed_iff hst1 .ctl _).mpr (Or.inr h)
      rw [hop] at this; cases this
    have hsent : ∀ e ∈ proj (.manager a.regulator) τ₁, isRequest (w.idOf (.regulator, a.regulator)) e = true → e = ⟨.send .ctl (w.idOf (.regulator, a.regulator)) (), true⟩ := by
      intro e he hq
      obtain ⟨q, b⟩ := e
      cases q with
      | send k c v =>
        cases k <;> simp [isRequest] at hq
        subst hq
        cases b with
        | true => rfl
        | false =>
          exfalso
          obtain ⟨u1, u2, hu⟩ := List.append_of_mem (mem_proj.mp he)
          have hst1' := hst1
          rw [hu, List.map_append, List.map_cons] at hst1'
          obtain ⟨s1, g1, hst1'⟩ := execAll_split hst1'
          obtain ⟨s2, g2, _⟩ := execAll_cons hst1'
          obtain ⟨g3, _⟩ := exec_send_false g2
          rcases (closed_iff g1 .ctl _).mp g3 with h | ⟨e, he, h⟩
          · simp [Store.init] at h
          · exact nocl ⟨e, by rw [hu, List.map_append]; exact List.mem_append_left _ he, h⟩
      | _ => simp [isRequest] at hq
    have takes : ∀ x ∈ τ₁ ++ τ₂, gotOf .ctl (w.idOf (.regulator, a.regulator)) x.2 ≠ none → x.1 = .part (.regulator, a.regulator) .main := by
      rintro ⟨j, e⟩ hx hg
      have hx' : (j, e) ∈ τ₁ ++ (.manager a.regulator, (⟨.send .ctl (w.idOf (.regulator, a.regulator)) (), true⟩ : Ev)) :: τ₂ := by
        simp only [List.mem_append, List.mem_cons] at hx ⊢
        rcases hx with hx | hx
        · exact Or.inl hx
        · exact Or.inr (Or.inr hx)
      obtain ⟨v, hv⟩ := Option.ne_none_iff_exists'.mp hg
      rcases user hx' (on_of_got hv) with h | rfl
      · exact h
      · exfalso
        rcases manager_ctl hM hn (mem_proj.mpr hx') (on_of_got hv) with ⟨b, h⟩ | ⟨k, c, h⟩
        · subst h; simp [gotOf] at hv
        · subst h; simp [gotOf] at hv
    refine C16_paused (c := w.idOf (.regulator, a.regulator)) (k := .manager a.regulator) hr.exec hR hp (by simp) rfl takes ?_ ?_
    · have f := fifo hst1 .ctl (w.idOf (.regulator, a.regulator))
      rw [gotOn_proj (i := .part (.regulator, a.regulator) .main) (fun x hx => takes x (List.mem_append_left _ hx)), ← A.toRigged.controls hC T hr.initial ha hst1] at f
      have f : sentOn .ctl (w.idOf (.regulator, a.regulator)) (τ₁.map Prod.snd) = sentOn .ctl (w.idOf (.regulator, a.regulator)) (proj (.manager a.regulator) τ₁) := f
      rw [f, sent_requests hsent]
      exact h1
    · rintro ⟨j, e⟩ hx hj hq
      have hx' : (j, e) ∈ τ₁ ++ (.manager a.regulator, (⟨.send .ctl (w.idOf (.regulator, a.regulator)) (), true⟩ : Ev)) :: τ₂ := by simp [hx]
      rcases user hx' hq with h | rfl
      · exact hj h
      · rcases manager_ctl hM hn (mem_proj.mpr hx') hq with ⟨b, h⟩ | ⟨k, c, h⟩
        · unfold requests at h2
          rw [List.countP_eq_zero] at h2
          apply h2 e (mem_proj.mpr hx)
          subst h; simp [isRequest]
        · refine manager_odd hM hn ?_ e (mem_proj.mpr hx') k c h
          rw [proj_append, proj_cons_self, requests_append]
          unfold requests at h1 h2 ⊢
          rw [List.countP_cons, h2]
          simp [isRequest]
          omega

/-- Once its manager has been told that a buffer's count has ended, the buffer takes in nine more messages at most. -/
theorem Assembled.gone (A : Assembled c hs w) (hC : Complete hs) (T : Attended cs w) (hr : w.Run cs (realCaps hs) τ) {a : Capture} (ha : a ∈ cs) {x : Str} (hx : x ∈ a.buffers)
    (he : ended (w.idOf (.buffer, x)) (proj (.manager a.regulator) τ) = true) :
    ∃ τ₁ τ₂, τ = τ₁ ++ τ₂ ∧ ended (w.idOf (.buffer, x)) (proj (.manager a.regulator) τ₁) = false ∧
      (received (proj (.part (.buffer, x) .input) τ)).length ≤ (received (proj (.part (.buffer, x) .input) τ₁)).length + 9 := by
  have hn := A.toRigged.chans_nodup T ha
  -- the first time it is told
  have first : ∀ (τ : List (Who × Ev)), ended (w.idOf (.buffer, x)) (proj (.manager a.regulator) τ) = true →
      ∃ τ₁ τ₂, τ = τ₁ ++ (.manager a.regulator, ⟨.tryRecv .size (w.idOf (.buffer, x)), .closed⟩) :: τ₂ ∧ ended (w.idOf (.buffer, x)) (proj (.manager a.regulator) τ₁) = false := by
    intro τ
    induction τ with
    | nil => intro h; simp [proj, ended] at h
    | cons y τ ih =>
      intro h
      obtain ⟨j, e⟩ := y
      by_cases hj : j = .manager a.regulator
      · subst hj
        by_cases ht : tellsEnd (w.idOf (.buffer, x)) e = true
        · refine ⟨[], τ, ?_, by simp [proj, ended]⟩
          obtain ⟨q, r⟩ := e
          cases q with
          | tryRecv k c' =>
            cases k <;> cases r <;> simp [tellsEnd] at ht
            subst ht; rfl
          | _ => simp [tellsEnd] at ht
        · rw [proj_cons_self] at h
          unfold ended at h
          rw [List.any_cons] at h
          simp only [ht, Bool.false_or] at h
          obtain ⟨τ₁, τ₂, rfl, h2⟩ := ih h
          refine ⟨_ :: τ₁, τ₂, rfl, ?_⟩
          rw [proj_cons_self]
          unfold ended at h2 ⊢
          rw [List.any_cons, h2]
          simpa using ht
      · rw [proj_cons_ne hj] at h
        obtain ⟨τ₁, τ₂, rfl, h2⟩ := ih h
        exact ⟨_ :: τ₁, τ₂, rfl, by rw [proj_cons_ne hj]; exact h2⟩
  obtain ⟨τ₁, τ₂, rfl, h1⟩ := first τ he
  refine ⟨τ₁, _, rfl, h1, ?_⟩
  obtain ⟨_, k1, _, _⟩ := A.counted hC T hr ha hx
  obtain ⟨_, _, k2, _⟩ := A.counted hC T hr.initial ha hx
  obtain ⟨p, q, m, hk, B⟩ := A.toRigged.bufferOwn hC T hr (A.toRigged.watched T ha hx)
  have hM := hr.exec.tasks _ _ (T.manages ha)
  have hm1 : (w.managing a).Partial (proj (.manager a.regulator) τ₁ ++ [⟨.tryRecv .size (w.idOf (.buffer, x)), .closed⟩]) := by
    have : proj (.manager a.regulator) (τ₁ ++ (.manager a.regulator, (⟨.tryRecv .size (w.idOf (.buffer, x)), .closed⟩ : Ev)) :: τ₂) =
        (proj (.manager a.regulator) τ₁ ++ [⟨.tryRecv .size (w.idOf (.buffer, x)), .closed⟩]) ++ proj (.manager a.regulator) τ₂ := by simp [proj]
    rw [this] at hM
    exact hM.prefix
  have hopen := manager_open hm1 hn fun k c h => by have := congrArg Ev.q h; cases this
  obtain ⟨st3, hst⟩ := Option.isSome_iff_exists.mp hr.exec.chans
  rw [List.map_append, List.map_cons] at hst
  obtain ⟨st1, hst1, hst⟩ := execAll_split hst
  obtain ⟨st2, htry, _⟩ := execAll_cons hst
  obtain ⟨_, hcl, _⟩ := exec_try_closed htry
  have shut : closings (proj (.part (.buffer, x) .count) τ₁) ≠ [] := by
    rcases (closed_iff hst1 .size _).mp hcl with h | ⟨e, he, h⟩
    · simp [Store.init] at h
    · obtain ⟨⟨j, e⟩, hj, rfl⟩ := List.mem_map.mp he
      obtain rfl := closes_on h
      rcases A.toRigged.users hC T hr (List.mem_append_left _ hj) rfl with h | ⟨h, _⟩ | ⟨_, a', ha', z, hz, h1, h2⟩ | ⟨h, _⟩
      · cases h
      · cases h
      · have := A.distinct _ _ (A.toRigged.watched T ha hx) (A.toRigged.watched T ha' hz) h1
        simp only [Prod.mk.injEq, true_and] at this
        subst this
        rcases h2 with rfl | rfl
        · exact closings_of_mem (mem_proj.mpr hj)
        · by_cases haa : a' = a
          · subst haa
            exact absurd rfl (hopen _ (mem_proj.mpr hj) _ _)
          · exact absurd (T.capture_eq ha' ha hz hx) haa
      · cases h
  have hc : (totalTask (if m then some (w.idOf (.buffer, x)) else none) (2 * w.idOf (.buffer, x)) (2 * w.idOf (.buffer, x) + 1)).Partial (proj (.part (.buffer, x) .count) (τ₁ ++ _ :: τ₂)) :=
    B.run.tasks _ _ B.cnt
  rw [proj_append] at hc
  have hg := count_over hc shut .mon (2 * w.idOf (.buffer, x))
  rw [proj_append, proj_append] at k1
  simp only [nGot, gotOn_append, hg, List.append_nil, heard_append] at k1 k2
  rw [proj_append, received_append, List.length_append]
  unfold heard at k1 k2
  omega

end
end Verif
