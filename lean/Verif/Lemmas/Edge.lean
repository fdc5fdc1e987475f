import Verif.Lemmas.Await
import Verif.Props.Motion
import Verif.Model.Tasks
/-!
# Channels between two tasks
-/
namespace Verif

theorem sentOn_data (c : Nat) (tr : List Ev) : sentOn .data c tr = acceptedBy (.chan c) tr := by
  unfold sentOn acceptedBy offers acts
  rw [List.filterMap_map, List.filterMap_filterMap]
  congr 1
  funext e
  obtain ⟨q, r⟩ := e
  cases q with
  | recv k c' => cases k <;> cases r <;> rfl
  | tryRecv k c' => cases k <;> cases r <;> rfl
  | send k c' v => cases k <;> cases r <;> simp [sentOf, act]
  | ioWrite h d => cases r <;> simp [sentOf, act]
  | streamRead h => cases r <;> simp [sentOf, act]
  | close k c' => rfl
  | stat k c' => rfl
  | ioFlush => rfl
  | sleep => rfl
  | status => rfl

theorem gotOn_data (c : Nat) (tr : List Ev) : gotOn .data c tr = receivedFrom (.chan c) tr := by
  unfold gotOn receivedFrom acts
  rw [List.filterMap_map]
  congr 1
  funext e
  obtain ⟨q, r⟩ := e
  cases q with
  | recv k c' => cases k <;> cases r <;> simp [gotOf, act]
  | tryRecv k c' => cases k <;> cases r <;> simp [gotOf, act]
  | send k c' v => cases k <;> cases r <;> rfl
  | ioWrite h d => cases r <;> simp [gotOf, act]
  | streamRead h => cases r <;> simp [gotOf, act]
  | close k c' => rfl
  | stat k c' => rfl
  | ioFlush => rfl
  | sleep => rfl
  | status => rfl


/-- A closed channel does not accept. -/
theorem shut_sent {cap : Caps} {c : Nat} {k : Kind} {es : List Ev} {st st' : Store} (h : execAll cap st es = some st') (hc : (st k c).closed = true) : sentOn k c es = [] := by
  unfold sentOn
  rw [List.filterMap_eq_nil_iff]
  intro e he
  obtain ⟨a, b, rfl⟩ := List.append_of_mem he
  obtain ⟨s1, h1, h2⟩ := execAll_split h
  obtain ⟨s2, h2, _⟩ := execAll_cons h2
  have hc1 := (closed_iff h1 k c).mpr (Or.inl hc)
  cases hs : sentOf k c e with
  | none => rfl
  | some v => have := ((exec_chan h2 k c).2.2 v hs).1; rw [hc1] at this; simp at this

theorem accepted_one {cap : Caps} {st st' : Store} {e : Ev} {c : Nat} (h : exec cap st e = some st') :
    acceptedBy (.chan c) [e] = offeredTo (.chan c) [e] ∨ (st' .data c).closed = true ∧ acceptedBy (.chan c) [e] = [] := by
  obtain ⟨q, r⟩ := e
  cases q with
  | recv k c' => left; cases k <;> cases r <;> rfl
  | tryRecv k c' => left; cases k <;> cases r <;> rfl
  | send k c' v =>
    cases k <;> try (left; rfl)
    by_cases hc : c' = c
    · subst hc
      cases r with
      | true => left; simp [acceptedBy, offeredTo, offers, acts, act]
      | false =>
        obtain ⟨g1, g2⟩ := exec_send_false h
        exact Or.inr ⟨by rw [g2]; exact g1, by simp [acceptedBy, offers, acts, act]⟩
    · left; cases r <;> simp [acceptedBy, offeredTo, offers, acts, act, hc]
  | ioWrite h d => left; cases r <;> rfl
  | streamRead h => left; cases r <;> rfl
  | _ => left; rfl

/-- What a channel accepts of a task is an initial segment of what the task offers: once closed it accepts no more. -/
theorem accepted_prefix {ι : Type} [DecidableEq ι] {cap : Caps} {st st' : Store} {τ : List (ι × Ev)} (h : execAll cap st (τ.map Prod.snd) = some st')
    (c : Nat) (i : ι) : acceptedBy (.chan c) (proj i τ) <+: offeredTo (.chan c) (proj i τ) := by
  induction τ generalizing st with
  | nil => simp [acceptedBy]
  | cons x τ ih =>
    obtain ⟨s1, h1, h2⟩ := execAll_cons h
    have ih := ih h2
    obtain ⟨k, e⟩ := x
    by_cases hk : k = i
    · subst hk
      rw [proj_cons_self]
      have e1 : acceptedBy (.chan c) (e :: proj k τ) = acceptedBy (.chan c) [e] ++ acceptedBy (.chan c) (proj k τ) := by rw [← acceptedBy_append]; rfl
      have e2 : offeredTo (.chan c) (e :: proj k τ) = offeredTo (.chan c) [e] ++ offeredTo (.chan c) (proj k τ) := by rw [← offeredTo_append]; rfl
      rw [e1, e2]
      rcases accepted_one (c := c) h1 with hd | ⟨hc, hd⟩
      · rw [hd]; exact (List.prefix_append_right_inj _).mpr ih
      · have : acceptedBy (.chan c) (proj k τ) = [] := by
          rw [← sentOn_data]
          have := shut_sent (c := c) h2 hc
          unfold sentOn at this ⊢
          rw [List.filterMap_eq_nil_iff] at this ⊢
          intro e he
          exact this e (List.mem_map.mpr ⟨_, mem_proj.mp he, rfl⟩)
        rw [hd, this]; exact List.nil_prefix
    · rw [proj_cons_ne hk]; exact ih

/-- Only task `a` puts into a channel and only task `b` takes out: what `b` has got is an initial segment of what `a` has offered. -/
theorem edge_prefix {ι : Type} [DecidableEq ι] {cap : Caps} {τ : List (ι × Ev)} {st : Store} {a b : ι} {c : Nat}
    (h : execAll cap Store.init (τ.map Prod.snd) = some st)
    (ha : ∀ x ∈ τ, sentOf .data c x.2 ≠ none → x.1 = a) (hb : ∀ x ∈ τ, gotOf .data c x.2 ≠ none → x.1 = b) :
    acceptedBy (.chan c) (proj a τ) = receivedFrom (.chan c) (proj b τ) ++ (st .data c).q := by
  have := fifo h .data c
  rw [sentOn_proj ha, gotOn_proj hb, sentOn_data, gotOn_data] at this
  simpa [Store.init] using this

theorem drops_acts {l : List (Kind × Nat)} {t : List Ev} (h : t <+: dropEvs l) :
    received t = [] ∧ endings t = 0 ∧ offers t = [] ∧ (∀ c, notified c t = []) ∧ ∀ kc ∈ closings t, kc ∈ l := by
  have key : ∀ a ∈ acts t, ∃ k c, (k, c) ∈ l ∧ a = .close k c := by
    intro a ha
    obtain ⟨e, he, rfl⟩ := List.mem_map.mp ha
    obtain ⟨k, c, hl, rfl⟩ := mem_dropEvs h e he
    exact ⟨k, c, hl, rfl⟩
  refine ⟨?_, ?_, ?_, ?_, ?_⟩
  · unfold received; rw [List.filterMap_eq_nil_iff]; intro a ha; obtain ⟨k, c, _, rfl⟩ := key a ha; rfl
  · unfold endings; rw [List.countP_eq_zero]; intro a ha; obtain ⟨k, c, _, rfl⟩ := key a ha; simp
  · unfold offers; rw [List.filterMap_eq_nil_iff]; intro a ha; obtain ⟨k, c, _, rfl⟩ := key a ha; rfl
  · intro c'; unfold notified; rw [List.filterMap_eq_nil_iff]; intro a ha; obtain ⟨k, c, _, rfl⟩ := key a ha; rfl
  · intro kc hk
    unfold closings at hk
    obtain ⟨a, ha, hx⟩ := List.mem_filterMap.mp hk
    obtain ⟨k, c, hl, rfl⟩ := key a ha
    simp at hx; subst hx; exact hl

/-- A relay works and then winds up: closing starts when reading and writing are over. -/
theorem relay_parts {pull mon spy push tr} (h : (relayTask pull mon spy push).Partial tr) (hp : pull ≠ .none) (hm : mon.Apart) :
    ∃ t1 t2, tr = t1 ++ t2 ∧ closings t1 = [] ∧ received t2 = [] ∧ endings t2 = 0 ∧ offers t2 = [] ∧
      (∀ t, push.target = some t → (offers tr).map Offer.d <+: received tr ∧ (received tr).length ≤ (offers tr).length + 1 ∧
        (∀ o ∈ offers tr, o.to = t)) ∧
      (∀ s d, Act.got s d ∈ acts tr → pull.source = some s) := by
  have whole : ∀ {tr}, LoopPartial (motionBody pull mon spy push) 0 tr →
      (∀ t, push.target = some t → (offers tr).map Offer.d <+: received tr ∧ (received tr).length ≤ (offers tr).length + 1 ∧
        (∀ o ∈ offers tr, o.to = t)) ∧ (∀ s d, Act.got s d ∈ acts tr → pull.source = some s) := by
    intro tr h
    refine ⟨fun t ht => ?_, ?_⟩
    · obtain ⟨a, b, c, _⟩ := C07_relay_prefix h hp hm t ht
      exact ⟨a, b, c⟩
    · obtain ⟨n, t1, t2, h1, h2, rfl⟩ := h
      obtain ⟨k, _, i1, _⟩ := rounds_seen h1 hp hm
      obtain ⟨t3, x, h3⟩ := h2.extend
      have k4 : ∀ s d, Act.got s d ∈ acts (t2 ++ t3) → pull.source = some s := by
        intro s d hd
        rcases motionBody_inv h3 with ⟨e, _, hw⟩ | ⟨res, u1, u2, hu, hw, hrest⟩
        · exact worker_source hw s d hd
        · rw [hu, acts_append, List.mem_append] at hd
          rcases hd with hd | hd
          · exact worker_source hw s d hd
          · exfalso
            rcases hrest with ⟨_, rfl, _⟩ | ⟨_, ⟨hc, _⟩ | ⟨_, hh, _, _, hc⟩⟩
            · simp at hd
            · rw [hc] at hd; unfold closeActs at hd; cases push <;> simp at hd
            · rw [hc] at hd; simp at hd
      intro s d hd
      rw [acts_append, List.mem_append] at hd
      rcases hd with hd | hd
      · exact i1 s d hd
      · exact k4 s d (by simp [hd])
  have cut : ∀ {tr}, LoopPartial (motionBody pull mon spy push) 0 tr →
      ∃ t1 t2, tr = t1 ++ t2 ∧ closings t1 = [] ∧ received t2 = [] ∧ endings t2 = 0 ∧ offers t2 = [] := by
    rintro tr ⟨n, t1, t2, h1, h2, rfl⟩
    obtain ⟨k, _, _, _, i3, _⟩ := rounds_seen h1 hp hm
    obtain ⟨t3, x, h3⟩ := h2.extend
    rcases motionBody_inv h3 with ⟨e, _, hw⟩ | ⟨res, u1, u2, hu, hw, hrest⟩
    · exact ⟨t1 ++ t2, [], by simp, by simp [i3, (round_seen hw hp hm ⟨t3, rfl⟩).open_], rfl, rfl, rfl⟩
    · have hpre : t2 <+: u1 ++ u2 := ⟨t3, hu⟩
      rcases prefix_append_cases hpre with hpre | ⟨v, rfl, hv⟩
      · exact ⟨t1 ++ t2, [], by simp, by simp [i3, (round_seen hw hp hm hpre).open_], rfl, rfl, rfl⟩
      · refine ⟨t1 ++ u1, v, by simp, by simp [i3, (round_seen hw hp hm List.prefix_rfl).open_], ?_⟩
        have close0 : ∀ {u v : List Ev}, heard u = 0 → received u = [] → offers u = [] → v <+: u →
            received v = [] ∧ endings v = 0 ∧ offers v = [] := by
          rintro u v h1 h2 h3 ⟨w, rfl⟩
          simp at h2 h3
          refine ⟨h2.1, ?_, h3.1⟩
          simp [heard] at h1; omega
        rcases hrest with ⟨_, rfl, _⟩ | ⟨_, ⟨hc, _⟩ | ⟨_, hh, _, _, hc⟩⟩
        · simp at hv; subst hv; simp
        · obtain ⟨c1, c2, c3, c4⟩ := closeActs_proj hc
          exact close0 c1 c2 c3 hv
        · obtain ⟨c1, c2, c3, c4, _⟩ := flush_proj hc
          exact close0 c1 c2 c3 hv
  rcases h with h | ⟨r, u1, u2, h, hd, rfl⟩
  · obtain ⟨t1, t2, rfl, a⟩ := cut h
    exact ⟨t1, t2, rfl, a.1, a.2.1, a.2.2.1, a.2.2.2, whole h⟩
  · have hL : LoopPartial (motionBody pull mon spy push) 0 u1 := LoopRuns.toPartial h
    obtain ⟨t1, t2, rfl, a⟩ := cut hL
    obtain ⟨d1, d2, d3, _, d5⟩ := drops_acts hd
    obtain ⟨w1, w2⟩ := whole hL
    refine ⟨t1, t2 ++ u2, by simp, a.1, by simp [a, d1], by simp [a, d2], by simp [a, d3], ?_, ?_⟩
    · intro t ht
      have := w1 t ht
      rw [offers_append, received_append, d1, d3, List.append_nil, List.append_nil]
      exact this
    · intro s d hx
      rw [acts_append, List.mem_append] at hx
      rcases hx with hx | hx
      · exact w2 s d hx
      · exfalso
        unfold received at d1
        rw [List.filterMap_eq_nil_iff] at d1
        simpa using d1 _ hx

theorem offeredTo_eq {tr : List Ev} {t : End} (h : ∀ o ∈ offers tr, o.to = t) : offeredTo t tr = (offers tr).map Offer.d := by
  unfold offeredTo
  revert h
  induction offers tr with
  | nil => simp
  | cons o l ih => intro h; simp [h o (by simp), ih (fun o ho => h o (by simp [ho]))]

theorem acceptedBy_eq {tr : List Ev} {t : End} (h : ∀ o ∈ offers tr, o.to = t) (hw : ∀ o ∈ offers tr, o.w = .ok) :
    acceptedBy t tr = (offers tr).map Offer.d := by
  unfold acceptedBy
  revert h hw
  induction offers tr with
  | nil => simp
  | cons o l ih => intro h hw; simp [h o (by simp), hw o (by simp), ih (fun o ho => h o (by simp [ho])) (fun o ho => hw o (by simp [ho]))]

theorem closedIn_closings {k : Kind} {c : Nat} {tr : List Ev} : closedIn k c tr ↔ (k, c) ∈ closings tr := by
  unfold closedIn closings acts
  simp only [List.mem_filterMap, List.mem_map]
  constructor
  · rintro ⟨⟨q, r⟩, he, hc⟩
    cases q <;> simp [closesChan] at hc
    rename_i k' c'
    obtain ⟨rfl, rfl⟩ := hc
    exact ⟨_, ⟨_, he, rfl⟩, rfl⟩
  · rintro ⟨a, ⟨e, he, rfl⟩, ha⟩
    refine ⟨e, he, ?_⟩
    obtain ⟨q, r⟩ := e
    cases q with
    | recv k c' => cases k <;> cases r <;> simp [act] at ha
    | tryRecv k c' => cases k <;> cases r <;> simp [act] at ha
    | send k c' v => cases k <;> cases r <;> simp [act] at ha
    | ioWrite h d => cases r <;> simp [act] at ha
    | streamRead h => cases r <;> simp [act] at ha
    | close k' c' => simp [act] at ha; simp [closesChan, ha]
    | _ => simp [act] at ha

/-- Every end a worker sees is that of its input. -/
theorem worker_ended {pull mon pushs spy doTry tr} {r : Except MErr WorkerResult}
    (h : MRuns (motionWorker pull mon pushs spy doTry) tr r) :
    ∀ s, Act.ended s ∈ acts tr → pull.source = some s := by
  have rd : ∀ {t1 r}, MRuns (motionRead pull doTry) t1 r → ∀ s, Act.ended s ∈ acts t1 → pull.source = some s := by
    intro t1 r h1 s hm
    have := motionRead_runs h1
    cases r with
    | ok x =>
      cases x with
      | data d' => obtain ⟨s', hs, ha⟩ := this; rw [ha] at hm; simp at hm
      | finished => rcases this with ⟨_, ha⟩ | ⟨s', hs, ha⟩ <;> rw [ha] at hm <;> simp at hm; rw [hs, hm]
      | skipped => obtain ⟨s', hs, ha⟩ := this; rw [ha] at hm; simp at hm
    | error e =>
      cases e <;> simp [ReadSees] at this
      · obtain ⟨_, _, ha⟩ := this; rw [ha] at hm; simp at hm
      · rw [this] at hm; simp at hm
  have nr : ∀ {t r}, MRuns (notifyRead mon pull) t r → ∀ s, Act.ended s ∉ acts t := by
    intro t r h1 s hm
    rcases notifyRead_runs h1 with ⟨_, rfl, _⟩ | ⟨c, b, _, ha, _⟩
    · simp at hm
    · rw [ha] at hm; simp at hm
  have nw : ∀ {t r}, MRuns (notifyWritten mon pull) t r → ∀ s, Act.ended s ∉ acts t := by
    intro t r h1 s hm
    rcases notifyWritten_runs h1 with ⟨_, rfl, _⟩ | ⟨c, b, _, ha, _⟩
    · simp at hm
    · rw [ha] at hm; simp at hm
  have pq : ∀ {x t r}, MRuns (pushAll x spy pushs pushs.length) t r → ∀ s, Act.ended s ∉ acts t := by
    intro x t r h1 s hm
    have := pushAll_quiet h1 _ hm
    simp [Act.isQuiet] at this
  intro s hm
  rcases motionWorker_inv h with ⟨e, rfl, h1⟩ | ⟨h1, hr⟩ | ⟨x, t1, t2, rfl, hx, h1, h2⟩
  · exact rd h1 s hm
  · exact rd h1 s hm
  · rw [acts_append, List.mem_append] at hm
    rcases hm with hm | hm
    · exact rd h1 s hm
    · exfalso
      rcases h2 with ⟨e, h0, h3⟩ | ⟨t3, t4, rfl, h3, h4⟩
      · exact nr h3 s hm
      · rw [acts_append, List.mem_append] at hm
        rcases hm with hm | hm
        · exact nr h3 s hm
        · rcases h4 with ⟨e, h0, h5⟩ | ⟨m, t5, t6, rfl, h5, h6⟩
          · exact pq h5 s hm
          · rw [acts_append, List.mem_append] at hm
            rcases hm with hm | hm
            · exact pq h5 s hm
            · rcases h6 with ⟨e, h0, h7⟩ | ⟨h7, hr⟩ <;> exact nw h7 s hm

theorem rounds_ended {pull mon spy push n tr n'} (h : LoopRounds (motionBody pull mon spy push) n tr n') :
    ∀ s, Act.ended s ∈ acts tr → pull.source = some s := by
  have one : ∀ {n tr x}, (motionBody pull mon spy push n).Runs tr x → ∀ s, Act.ended s ∈ acts tr → pull.source = some s := by
    intro n tr x h s hd
    rcases motionBody_inv h with ⟨e, _, hw⟩ | ⟨res, u1, u2, rfl, hw, hrest⟩
    · exact worker_ended hw s hd
    · rw [acts_append, List.mem_append] at hd
      rcases hd with hd | hd
      · exact worker_ended hw s hd
      · exfalso
        rcases hrest with ⟨_, rfl, _⟩ | ⟨_, ⟨hc, _⟩ | ⟨_, hh, _, _, hc⟩⟩
        · simp at hd
        · rw [hc] at hd; unfold closeActs at hd; cases push <;> simp at hd
        · rw [hc] at hd; simp at hd
  induction h with
  | nil => simp
  | next hb _ ih =>
    intro s hd
    rw [acts_append, List.mem_append] at hd
    rcases hd with hd | hd
    · exact one hb s hd
    · exact ih s hd

theorem relay_ended {pull mon spy push tr} (h : (relayTask pull mon spy push).Partial tr) :
    ∀ s, Act.ended s ∈ acts tr → pull.source = some s := by
  have one : ∀ {n tr}, (motionBody pull mon spy push n).Partial tr → ∀ s, Act.ended s ∈ acts tr → pull.source = some s := by
    intro n tr h s hd
    obtain ⟨t3, x, h3⟩ := h.extend
    rcases motionBody_inv h3 with ⟨e, _, hw⟩ | ⟨res, u1, u2, hu, hw, hrest⟩
    · exact worker_ended hw s (by simp [hd])
    · have hd : Act.ended s ∈ acts (tr ++ t3) := by simp [hd]
      rw [hu, acts_append, List.mem_append] at hd
      rcases hd with hd | hd
      · exact worker_ended hw s hd
      · exfalso
        rcases hrest with ⟨_, rfl, _⟩ | ⟨_, ⟨hc, _⟩ | ⟨_, hh, _, _, hc⟩⟩
        · simp at hd
        · rw [hc] at hd; unfold closeActs at hd; cases push <;> simp at hd
        · rw [hc] at hd; simp at hd
  have loop : ∀ {tr}, LoopPartial (motionBody pull mon spy push) 0 tr → ∀ s, Act.ended s ∈ acts tr → pull.source = some s := by
    rintro tr ⟨n, t1, t2, h1, h2, rfl⟩ s hd
    rw [acts_append, List.mem_append] at hd
    rcases hd with hd | hd
    · exact rounds_ended h1 s hd
    · exact one h2 s hd
  rcases h with h | ⟨r, u1, u2, h, hd, rfl⟩
  · exact loop h
  · intro s hx
    rw [acts_append, List.mem_append] at hx
    rcases hx with hx | hx
    · exact loop (LoopRuns.toPartial h) s hx
    · exfalso
      have := (drops_acts hd).2.1
      unfold endings at this
      rw [List.countP_eq_zero] at this
      simpa using this _ hx

/-- While a relay is at work it has not closed its input. -/
theorem relay_running {pull mon spy push tr q c} (h : (relayTask pull mon spy push).Awaits tr q) (hp : pull ≠ .none) (hm : mon.Apart)
    (ht : push.target ≠ some (.chan c)) : (Kind.data, c) ∉ closings tr := by
  obtain ⟨n, t1, t2, h1, h2, rfl⟩ := h
  obtain ⟨k, _, _, _, i3, _⟩ := rounds_seen h1 hp hm
  rw [closings_append, i3, List.nil_append]
  obtain ⟨t3, x, h3⟩ := h2.partial.extend
  have : (Kind.data, c) ∉ closings (t2 ++ t3) := by
    intro hc
    rcases motionBody_inv h3 with ⟨e, _, hw⟩ | ⟨res, u1, u2, hu, hw, hrest⟩
    · rw [(round_seen hw hp hm List.prefix_rfl).open_] at hc; simp at hc
    · rw [hu, closings_append, (round_seen hw hp hm List.prefix_rfl).open_, List.nil_append] at hc
      rcases hrest with ⟨_, rfl, _⟩ | ⟨_, ⟨hx, _⟩ | ⟨_, hh, _, _, hx⟩⟩
      · simp at hc
      · have : Act.close .data c ∈ acts u2 := by
          unfold closings at hc
          obtain ⟨a, ha, hb⟩ := List.mem_filterMap.mp hc
          cases a <;> simp at hb
          obtain ⟨rfl, rfl⟩ := hb; exact ha
        rw [hx] at this
        cases push with
        | sender j c' => simp [closeActs] at this; simp [Push.target, this] at ht
        | _ => simp [closeActs] at this
      · rw [(flush_proj hx).2.2.2.2] at hc; simp at hc
  intro hc
  exact this (by rw [closings_append]; exact List.mem_append_left _ hc)

/-- Reading and writing come before closing. -/
def Ordered (tr : List Ev) : Prop :=
  ∃ t1 t2, tr = t1 ++ t2 ∧ closings t1 = [] ∧ received t2 = [] ∧ endings t2 = 0 ∧ offers t2 = []

theorem relay_ordered {pull mon spy push tr} (h : (relayTask pull mon spy push).Partial tr) (hp : pull ≠ .none) (hm : mon.Apart) :
    Ordered tr := by
  obtain ⟨t1, t2, a, b, c, d, e, _⟩ := relay_parts h hp hm
  exact ⟨t1, t2, a, b, c, d, e⟩

/-- After a closing there is no reading or writing. -/
theorem Ordered.after {tr u v : List Ev} (h : Ordered tr) (hs : tr = u ++ v) (hc : closings u ≠ []) :
    received v = [] ∧ endings v = 0 ∧ offers v = [] := by
  obtain ⟨t1, t2, rfl, h1, h2, h3, h4⟩ := h
  rw [List.append_eq_append_iff] at hs
  rcases hs with ⟨w, rfl, rfl⟩ | ⟨w, rfl, rfl⟩
  · simp at h2 h3 h4; exact ⟨h2.2, h3.2, h4.2⟩
  · simp at h1; exact absurd h1.1 hc

/-- Once it has closed channel `c`, the task neither reads from it nor writes to it. -/
def Retired (c : Nat) (tr : List Ev) : Prop := ∀ u v, tr = u ++ v → (Kind.data, c) ∈ closings u →
  (∀ d, Act.got (.chan c) d ∉ acts v) ∧ Act.ended (.chan c) ∉ acts v ∧ ∀ d w, Act.offer (.chan c) d w ∉ acts v

theorem Retired.prefix {c : Nat} {a b : List Ev} (h : Retired c (a ++ b)) : Retired c a := by
  rintro u v rfl hc
  obtain ⟨h1, h2, h3⟩ := h u (v ++ b) (by simp) hc
  simp only [acts_append, List.mem_append, not_or] at h1 h2 h3
  exact ⟨fun d => (h1 d).1, h2.1, fun d w => (h3 d w).1⟩

theorem Ordered.retired {tr : List Ev} (h : Ordered tr) (c : Nat) : Retired c tr := by
  intro u v hs hc
  obtain ⟨h1, h2, h3⟩ := h.after hs (by intro h0; rw [h0] at hc; simp at hc)
  refine ⟨fun d hd => ?_, fun hd => ?_, fun d w hd => ?_⟩
  · unfold received at h1; rw [List.filterMap_eq_nil_iff] at h1; simpa using h1 _ hd
  · unfold endings at h2; rw [List.countP_eq_zero] at h2; simpa using h2 _ hd
  · unfold offers at h3; rw [List.filterMap_eq_nil_iff] at h3; simpa using h3 _ hd

section edge
variable {ι : Type} [DecidableEq ι] {cap : Caps} {τ : List (ι × Ev)} {st : Store} {a b : ι} {c : Nat}

theorem proj_split {i : ι} {τ : List (ι × Ev)} {u v : List Ev} {e : Ev} (h : proj i τ = u ++ e :: v) :
    ∃ τ1 τ2, τ = τ1 ++ (i, e) :: τ2 ∧ proj i τ1 = u ∧ proj i τ2 = v := by
  induction τ generalizing u with
  | nil => simp at h
  | cons x τ ih =>
    obtain ⟨j, e'⟩ := x
    by_cases hj : j = i
    · subst hj
      rw [proj_cons_self] at h
      cases u with
      | nil => simp at h; obtain ⟨rfl, h⟩ := h; exact ⟨[], τ, rfl, rfl, h⟩
      | cons e0 u =>
        simp at h
        obtain ⟨rfl, h⟩ := h
        obtain ⟨τ1, τ2, rfl, h1, h2⟩ := ih h
        exact ⟨_ :: τ1, τ2, rfl, by rw [proj_cons_self, h1], h2⟩
    · rw [proj_cons_ne hj] at h
      obtain ⟨τ1, τ2, rfl, h1, h2⟩ := ih h
      exact ⟨_ :: τ1, τ2, rfl, by rw [proj_cons_ne hj, h1], h2⟩

/-- A write that was refused was refused because the reader closed the channel. -/
theorem edge_refused (h : execAll cap Store.init (τ.map Prod.snd) = some st)
    (hon : ∀ x ∈ τ, x.2.q.on = some (.data, c) → x.1 = a ∨ x.1 = b) (ha : Retired c (proj a τ))
    {u v : List Ev} {d : Bytes} (he : proj a τ = u ++ ⟨.send .data c d, false⟩ :: v) :
    ∃ τ1 τ2, τ = τ1 ++ (a, ⟨.send .data c d, false⟩) :: τ2 ∧ proj a τ1 = u ∧ (.data, c) ∈ closings (proj b τ1) := by
  obtain ⟨τ1, τ2, rfl, h1, h2⟩ := proj_split he
  refine ⟨τ1, τ2, rfl, h1, ?_⟩
  rw [List.map_append] at h
  obtain ⟨s1, g1, g2⟩ := execAll_split h
  obtain ⟨s2, g2, _⟩ := execAll_cons g2
  have hc := (exec_send_false g2).1
  rw [closed_iff g1] at hc
  rcases hc with hc | ⟨e, hm, hc⟩
  · simp [Store.init] at hc
  · obtain ⟨x, hx, rfl⟩ := List.mem_map.mp hm
    have hcl : ∀ i, x.1 = i → (.data, c) ∈ closings (proj i τ1) := by
      rintro i rfl
      exact closedIn_closings.mp ⟨x.2, mem_proj.mpr hx, hc⟩
    rcases hon x (by simp [hx]) (on_of_closes hc) with hi | hi
    · exfalso
      exact (ha _ _ he (by rw [← h1]; exact hcl a hi)).2.2 d (.closed .channelClosed) (by simp [act])
    · exact hcl b hi

theorem accepted_all {tr : List Ev} (h : ∀ d, (⟨.send .data c d, false⟩ : Ev) ∉ tr) :
    acceptedBy (.chan c) tr = offeredTo (.chan c) tr := by
  induction tr with
  | nil => rfl
  | cons e tr ih =>
    have ih := ih (fun d hd => h d (by simp [hd]))
    have e1 : acceptedBy (.chan c) (e :: tr) = acceptedBy (.chan c) [e] ++ acceptedBy (.chan c) tr := by rw [← acceptedBy_append]; rfl
    have e2 : offeredTo (.chan c) (e :: tr) = offeredTo (.chan c) [e] ++ offeredTo (.chan c) tr := by rw [← offeredTo_append]; rfl
    rw [e1, e2, ih]
    congr 1
    obtain ⟨q, r⟩ := e
    cases q with
    | recv k c' => cases k <;> cases r <;> rfl
    | tryRecv k c' => cases k <;> cases r <;> rfl
    | send k c' v =>
      cases k <;> cases r <;> try rfl
      by_cases hc : c' = c
      · subst hc; exact absurd (List.mem_cons_self) (h v)
      · simp [acceptedBy, offeredTo, offers, acts, act, hc]
      · by_cases hc : c' = c <;> simp [acceptedBy, offeredTo, offers, acts, act, hc]
    | ioWrite h d => cases r <;> rfl
    | streamRead h => cases r <;> rfl
    | _ => rfl

/-- While the reader has not closed the channel, everything offered is accepted. -/
theorem edge_open (h : execAll cap Store.init (τ.map Prod.snd) = some st)
    (hon : ∀ x ∈ τ, x.2.q.on = some (.data, c) → x.1 = a ∨ x.1 = b) (ha : Retired c (proj a τ))
    (hb : (.data, c) ∉ closings (proj b τ)) : acceptedBy (.chan c) (proj a τ) = offeredTo (.chan c) (proj a τ) := by
  apply accepted_all
  intro d hd
  obtain ⟨u, v, he⟩ := List.append_of_mem hd
  obtain ⟨τ1, τ2, rfl, _, hc⟩ := edge_refused h hon ha he
  apply hb
  rw [proj_append, closings_append]
  exact List.mem_append_left _ hc

theorem ended_event {e : Ev} (h : act e = .ended (.chan c)) : e = ⟨.recv .data c, none⟩ ∨ e = ⟨.tryRecv .data c, .closed⟩ := by
  obtain ⟨q, r⟩ := e
  cases q with
  | recv k c' => cases k <;> cases r <;> simp [act] at h; left; rw [h]
  | tryRecv k c' => cases k <;> cases r <;> simp [act] at h; right; rw [h]
  | send k c' v => cases k <;> cases r <;> simp [act] at h
  | ioWrite h d => cases r <;> simp [act] at h
  | streamRead h => cases r <;> simp [act] at h
  | _ => simp [act] at h

/-- When the reader has seen the end of the channel, the writer has closed it, everything it offered was accepted
and has been received. -/
theorem edge_complete (h : execAll cap Store.init (τ.map Prod.snd) = some st)
    (hon : ∀ x ∈ τ, x.2.q.on = some (.data, c) → x.1 = a ∨ x.1 = b) (ha : Retired c (proj a τ)) (hb : Retired c (proj b τ))
    (hs : ∀ x ∈ τ, sentOf .data c x.2 ≠ none → x.1 = a) (hg : ∀ x ∈ τ, gotOf .data c x.2 ≠ none → x.1 = b)
    (hend : Act.ended (.chan c) ∈ acts (proj b τ)) :
    acceptedBy (.chan c) (proj a τ) = offeredTo (.chan c) (proj a τ) ∧
    receivedFrom (.chan c) (proj b τ) = offeredTo (.chan c) (proj a τ) ∧ (.data, c) ∈ closings (proj a τ) := by
  obtain ⟨e, hm, he⟩ := List.mem_map.mp hend
  obtain ⟨u, v, hsplit⟩ := List.append_of_mem hm
  obtain ⟨τ1, τ2, rfl, hu, hv⟩ := proj_split hsplit
  have h0 := h
  rw [List.map_append] at h
  obtain ⟨s1, g1, g2⟩ := execAll_split h
  obtain ⟨s2, g3, g4⟩ := execAll_cons g2
  have hfin : (s1 .data c).q = [] ∧ (s1 .data c).closed = true := by
    rcases ended_event he with rfl | rfl
    · exact ⟨(exec_recv_none g3).1, (exec_recv_none g3).2.1⟩
    · exact ⟨(exec_try_closed g3).1, (exec_try_closed g3).2.1⟩
  have hnob : (.data, c) ∉ closings (proj b τ1) := by
    intro hc
    exact (hb _ _ hsplit (by rw [hu] at hc; exact hc)).2.1 (by simp [he])
  have hcla : (.data, c) ∈ closings (proj a τ1) := by
    have hc := hfin.2
    rw [closed_iff g1] at hc
    rcases hc with hc | ⟨e', hm', hc⟩
    · simp [Store.init] at hc
    · obtain ⟨x, hx, rfl⟩ := List.mem_map.mp hm'
      have hcl : ∀ i, x.1 = i → (.data, c) ∈ closings (proj i τ1) := by
        rintro i rfl
        exact closedIn_closings.mp ⟨x.2, mem_proj.mpr hx, hc⟩
      rcases hon x (by simp [hx]) (on_of_closes hc) with hi | hi
      · exact hcl a hi
      · exact absurd (hcl b hi) hnob
  have hacc : acceptedBy (.chan c) (proj a (τ1 ++ (b, e) :: τ2)) = offeredTo (.chan c) (proj a (τ1 ++ (b, e) :: τ2)) := by
    apply accepted_all
    intro d hd
    obtain ⟨u', v', he'⟩ := List.append_of_mem hd
    have hin : (⟨.send .data c d, false⟩ : Ev) ∈ proj a τ1 := by
      rw [proj_append, List.mem_append] at hd
      rcases hd with hd | hd
      · exact hd
      · exfalso
        exact (ha _ _ (proj_append _ _ _) hcla).2.2 d (.closed .channelClosed) (List.mem_map.mpr ⟨_, hd, rfl⟩)
    obtain ⟨u2, v2, he2⟩ := List.append_of_mem hin
    have ha1 : Retired c (proj a τ1) := by rw [proj_append] at ha; exact ha.prefix
    obtain ⟨τ3, τ4, rfl, _, hc⟩ := edge_refused g1 (fun x hx => hon x (List.mem_append_left _ hx)) ha1 he2
    apply hnob
    rw [proj_append, closings_append]
    exact List.mem_append_left _ hc
  refine ⟨hacc, ?_, ?_⟩
  · have hq : (st .data c).q = [] := by
      have f := fifo g2 .data c
      rw [hfin.1, shut_sent g2 hfin.2] at f
      simp at f
      exact f.2
    have := edge_prefix h0 hs hg
    rw [hq, List.append_nil, hacc] at this
    exact this.symm
  · rw [proj_append, closings_append]
    exact List.mem_append_left _ hcla

end edge

end Verif
