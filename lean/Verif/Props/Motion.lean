import Verif.Lemmas.Relay
import Verif.Props.Worker
/-!
# Properties C07 and C08: relays

`motion` (motion.rs:564-585) moves everything from one input to one output. It is what faucets,
drains, programs and both halves of a buffer run.
-/
namespace Verif

/-- **C07**, at every moment of every run, whatever happens around the relay: what was written is an
initial segment of what was read, at most one message behind, all of it to the one output; and
everything read comes from the one input. -/
theorem C07_relay_prefix {pull mon spy push tr} (h : LoopPartial (motionBody pull mon spy push) 0 tr)
    (hp : pull ≠ .none) (hm : mon.Apart) (t : End) (ht : push.target = some t) :
    (offers tr).map Offer.d <+: received tr ∧ (received tr).length ≤ (offers tr).length + 1 ∧
    (∀ o ∈ offers tr, o.to = t) ∧ (∀ s d, Act.got s d ∈ acts tr → pull.source = some s) := by
  obtain ⟨n, t1, t2, h1, h2, rfl⟩ := h
  obtain ⟨k, _, i1, i2, i3, i4, i5, i6, _⟩ := rounds_seen h1 hp hm
  have i6 := i6 (by simp [ht])
  obtain ⟨t3, x, h3⟩ := h2.extend
  have close0 : ∀ {u v : List Ev}, heard u = 0 → received u = [] → offers u = [] → v <+: u →
      received v = [] ∧ offers v = [] := by
    rintro u v h1 h2 h3 ⟨w, rfl⟩
    simp at h2 h3
    exact ⟨h2.1, h3.1⟩
  have key : (offers t2).map Offer.d <+: received t2 ∧ (received t2).length ≤ (offers t2).length + 1 ∧
      (∀ o ∈ offers t2, push.target = some o.to) ∧ (∀ s d, Act.got s d ∈ acts t2 → pull.source = some s) := by
    have fin : ∀ {w : List Ev}, RoundSeen mon push w →
        (offers w).map Offer.d <+: received w ∧ (received w).length ≤ (offers w).length + 1 ∧
        (∀ o ∈ offers w, push.target = some o.to) := by
      intro w rs
      refine ⟨rs.written, ?_, rs.target⟩
      have := rs.one; unfold heard at this; omega
    rcases motionBody_inv h3 with ⟨e, _, hw⟩ | ⟨res, u1, u2, hu, hw, hrest⟩
    · obtain ⟨a, b, c⟩ := fin (round_seen hw hp hm ⟨t3, rfl⟩)
      exact ⟨a, b, c, fun s d hm => worker_source hw s d (by simp [hm])⟩
    · have hpre : t2 <+: u1 ++ u2 := ⟨t3, hu⟩
      rcases prefix_append_cases hpre with hpre | ⟨v, rfl, hv⟩
      · obtain ⟨a, b, c⟩ := fin (round_seen hw hp hm hpre)
        exact ⟨a, b, c, fun s d hm => worker_source hw s d ((prefix_acts hpre).subset hm)⟩
      · obtain ⟨a, b, c⟩ := fin (round_seen hw hp hm List.prefix_rfl)
        have hv0 : received v = [] ∧ offers v = [] ∧ ∀ s d, Act.got s d ∉ acts v := by
          have nogot : ∀ {w : List Ev}, received w = [] → ∀ s d, Act.got s d ∉ acts w := by
            intro w hr s d hm
            unfold received at hr
            rw [List.filterMap_eq_nil_iff] at hr
            simpa using hr _ hm
          rcases hrest with ⟨_, rfl, _⟩ | ⟨_, ⟨hc, _⟩ | ⟨_, hh, _, _, hc⟩⟩
          · simp at hv; subst hv; simp
          · obtain ⟨c1, c2, c3, c4⟩ := closeActs_proj hc
            obtain ⟨d1, d2⟩ := close0 c1 c2 c3 hv
            exact ⟨d1, d2, nogot d1⟩
          · obtain ⟨c1, c2, c3, c4, _⟩ := flush_proj hc
            obtain ⟨d1, d2⟩ := close0 c1 c2 c3 hv
            exact ⟨d1, d2, nogot d1⟩
        refine ⟨by simpa [hv0.1, hv0.2.1] using a, by simpa [hv0.1, hv0.2.1] using b, ?_, ?_⟩
        · intro o ho
          simp [hv0.2.1] at ho
          exact c o ho
        · intro s d hm
          rw [acts_append, List.mem_append] at hm
          rcases hm with hm | hm
          · exact worker_source hw s d hm
          · exact absurd hm (hv0.2.2 s d)
  obtain ⟨k1, k2, k3, k4⟩ := key
  refine ⟨?_, ?_, ?_, ?_⟩
  · simp only [offers_append, List.map_append, received_append, i6]
    exact (List.prefix_append_right_inj _).mpr k1
  · have := congrArg List.length i6
    simp at this ⊢; omega
  · intro o ho
    rw [offers_append, List.mem_append] at ho
    rcases ho with ho | ho
    · have := i2 o ho; rw [ht] at this; simpa using this.symm
    · have := k3 o ho; rw [ht] at this; simpa using this.symm
  · intro s d ho
    rw [acts_append, List.mem_append] at ho
    rcases ho with ho | ho
    · exact i1 s d ho
    · exact k4 s d ho

/-- **C07**, a relay that ends without error has written everything it read, in order, and then, as
its last actions, closed its output (and its notification channels); the count it returns is the number of messages plus
one for the end of the input, unless it ended because the output was found closed (variation F). -/
theorem C07_relay_complete {pull mon spy push tr n} (h : LoopRuns (motionBody pull mon spy push) 0 tr (.ok n))
    (hp : pull ≠ .none) (hm : mon.Apart) (t : End) (ht : push.target = some t) :
    (offers tr).map (fun o => (o.to, o.d)) = (received tr).map (fun d => (t, d)) ∧
    (endings tr = 1 ∧ n = (received tr).length + 1 ∨
     endings tr = 0 ∧ n = (received tr).length ∧ push.breakable = .finish ∧
      ∃ O d why, offers tr = O ++ [⟨t, d, .closed why⟩]) ∧
    ∃ t1 t2, tr = t1 ++ t2 ∧ closings t1 = [] ∧ acts t2 = closeActs push mon := by
  have hpre := C07_relay_prefix h.toPartial hp hm t ht
  obtain ⟨n0, t1, t2, rfl, h1, h2⟩ := h.rounds
  obtain ⟨k, hk, i1, i2, i3, i4, i5, i6, _⟩ := rounds_seen h1 hp hm
  have i6 := i6 (by simp [ht])
  rcases motionBody_inv h2 with ⟨e, h0, hw⟩ | ⟨res, u1, u2, rfl, hw, ⟨_, _, h0⟩ | ⟨hf, ⟨hc, hx⟩ | ⟨_, _, _, h0, _⟩⟩⟩
  · simp at h0
  · simp at h0
  · have rd := round_done hw hp hm
    obtain ⟨c1, c2, c3, c4⟩ := closeActs_proj hc
    have hoff : (offers (t1 ++ (u1 ++ u2))).map Offer.d = received (t1 ++ (u1 ++ u2)) := by
      simp [i6, rd.all_written (by simp [ht]), c2, c3]
    simp [rd.read] at hx
    have c1' : endings u2 = 0 := by unfold heard at c1; omega
    refine ⟨?_, ?_, t1 ++ u1, u2, by simp, by simp [i3, rd.open_], hc⟩
    · rw [← hoff, List.map_map]
      apply List.map_congr_left
      intro o ho
      simp [hpre.2.2.1 o ho]
    · have hh := rd.heard_one
      have : (received u1).length = 1 ∧ endings u1 = 0 ∨ received u1 = [] ∧ endings u1 = 1 := by
        unfold heard at hh
        rcases Nat.eq_zero_or_pos (endings u1) with h | h
        · left; omega
        · right; exact ⟨List.eq_nil_of_length_eq_zero (by omega), by omega⟩
      rcases this with ⟨hl, he⟩ | ⟨hl, he⟩
      · right
        refine ⟨by simp [i5, he, c1'], ?_, ?_⟩
        · unfold heard at i4; simp [c2]; omega
        · match hr : received u1 with
          | [d] =>
            obtain ⟨_, _, h6⟩ := C06_pipe_variations hw d hr _ rfl
            obtain ⟨l1, _, l2⟩ := h6 res rfl
            have hall := l2.mp hf
            have ho := rd.all_written (by simp [ht])
            rw [hr] at ho
            match hou : offers u1 with
            | [o] =>
              rw [hou] at ho
              simp at ho
              have hL : outcomes [push] [o.w] = [(push, o.w)] := by
                cases push <;> simp [outcomes]
                simp [Push.target] at ht
              rw [hou] at hall
              simp [hL] at hall
              obtain ⟨hb, why, hwhy⟩ := hall
              refine ⟨hb, offers t1, d, why, ?_⟩
              have : o.to = t := hpre.2.2.1 o (by simp [hou])
              simp [hou, c3]
              cases o; simp at ho hwhy this; simp [ho, hwhy, this]
            | [] => rw [hou] at ho; simp at ho
            | _ :: _ :: _ => rw [hou] at ho; simp at ho
          | [] => rw [hr] at hl; simp at hl
          | _ :: _ :: _ => rw [hr] at hl; simp at hl
      · left
        refine ⟨by simp [i5, he, c1'], ?_⟩
        unfold heard at i4; simp [c2, hl]; omega
  · simp at h0

/-- **C07**, a relay that fails has not closed any channel by itself (its channel ends are dropped afterwards, see
`relayTask`). -/
theorem C07_relay_failed {pull mon spy push tr e} (h : LoopRuns (motionBody pull mon spy push) 0 tr (.error e))
    (hp : pull ≠ .none) (hm : mon.Apart) : closings tr = [] := by
  obtain ⟨n0, t1, t2, rfl, h1, h2⟩ := h.rounds
  obtain ⟨k, hk, i1, i2, i3, i4, i5, i6, _⟩ := rounds_seen h1 hp hm
  rcases motionBody_inv h2 with ⟨e, h0, hw⟩ | ⟨res, u1, u2, rfl, hw, ⟨_, _, h0⟩ | ⟨hf, ⟨hc, hx⟩ | ⟨_, _, _, h0, hc⟩⟩⟩
  · simp [i3, (round_seen hw hp hm List.prefix_rfl).open_]
  · simp at h0
  · simp at hx
  · simp [i3, (round_seen hw hp hm List.prefix_rfl).open_, (flush_proj hc).2.2.2.2]

/-- A relay that moves one message and ends. -/
example : LoopRuns (motionBody (.receiver ⟨0, 1⟩ 0) { written := some 7 } none (.sender ⟨1, some .out, 2, .terminate⟩ 1)) 0
    ([⟨.recv .data 0, some [97]⟩, ⟨.send .data 1 [97], true⟩, ⟨.send .mon 7 (.wrote 0), true⟩] ++
     [⟨.recv .data 0, none⟩, ⟨.send .mon 7 (.wrote 0), true⟩, ⟨.close .data 1, ()⟩, ⟨.close .mon 7, ()⟩])
    (.ok 2) := by
  refine .next (s' := 1) ?_ (.stop ?_)
  · exact ⟨some [97], _, rfl, true, _, rfl, true, _, rfl, rfl, rfl⟩
  · exact ⟨none, _, rfl, true, _, rfl, (), _, rfl, (), _, rfl, rfl, rfl⟩

private theorem eq_replicate_of {α : Type} {l : List α} {a : α} {n : Nat} (h : ∀ x ∈ l, x = a) (hn : l.length = n) :
    l = List.replicate n a := by
  rw [List.eq_replicate_iff]; exact ⟨hn, h⟩

/-- **C08**, at every moment: one notification of each kind per thing heard (message or end), the one
for reading before the one for writing, and none missing but for the last. -/
theorem C08_notifications_prefix {pull mon spy push tr c c'} (h : LoopPartial (motionBody pull mon spy push) 0 tr)
    (hp : pull ≠ .none) (hc : mon.read = some c) (hc' : mon.written = some c') (hne : c ≠ c') :
    notified c tr = List.replicate (notified c tr).length (.read 0) ∧
    notified c' tr = List.replicate (notified c' tr).length (.wrote 0) ∧
    (notified c' tr).length ≤ (notified c tr).length ∧
    (notified c tr).length ≤ (received tr).length + endings tr ∧
    (received tr).length + endings tr ≤ (notified c' tr).length + 1 := by
  have hm : mon.Apart := by
    rintro x ⟨h1, h2⟩; rw [hc] at h1; rw [hc'] at h2; simp at h1 h2; omega
  obtain ⟨n, t1, t2, h1, h2, rfl⟩ := h
  obtain ⟨k, _, i1, i2, i3, i4, i5, i6, i7, i8, i9, i10, i11⟩ := rounds_seen h1 hp hm
  have i8 := i8 (by simp [hc])
  have i9 := i9 (by simp [hc'])
  simp only [pings, hc, hc'] at i8 i9
  obtain ⟨t3, x, h3⟩ := h2.extend
  have key : (∀ m ∈ notified c t2, m = .read 0) ∧ (∀ m ∈ notified c' t2, m = .wrote 0) ∧
      (notified c' t2).length ≤ (notified c t2).length ∧ (notified c t2).length ≤ heard t2 ∧
      heard t2 ≤ 1 := by
    have fin : ∀ {w : List Ev}, RoundSeen mon push w →
        (∀ m ∈ notified c w, m = .read 0) ∧ (∀ m ∈ notified c' w, m = .wrote 0) ∧
        (notified c' w).length ≤ (notified c w).length ∧ (notified c w).length ≤ heard w ∧ heard w ≤ 1 := by
      intro w rs
      have a := rs.order (by simp [hc])
      have b := rs.read_le
      have e := rs.one
      simp only [pings, hc, hc'] at a b
      exact ⟨rs.read_msgs c hc, rs.written_msgs c' hc', a, b, e⟩
    rcases motionBody_inv h3 with ⟨e, _, hw⟩ | ⟨res, u1, u2, hu, hw, hrest⟩
    · exact fin (round_seen hw hp hm ⟨t3, rfl⟩)
    · have hpre : t2 <+: u1 ++ u2 := ⟨t3, hu⟩
      rcases prefix_append_cases hpre with hpre | ⟨v, rfl, hv⟩
      · exact fin (round_seen hw hp hm hpre)
      · obtain ⟨w, rfl⟩ := hv
        have hz : heard (v ++ w) = 0 ∧ ∀ x, notified x (v ++ w) = [] := by
          rcases hrest with ⟨_, h0, _⟩ | ⟨_, ⟨h0, _⟩ | ⟨_, hh, _, _, h0⟩⟩
          · rw [h0]; simp
          · obtain ⟨c1, c2, c3, c4⟩ := closeActs_proj h0; exact ⟨c1, c4⟩
          · obtain ⟨c1, c2, c3, c4, _⟩ := flush_proj h0; exact ⟨c1, c4⟩
        have hv1 : heard v = 0 := by have := hz.1; simp at this; omega
        have hv2 : ∀ x, notified x v = [] := by intro x; have := hz.2 x; simp at this; exact this.1
        have := fin (round_seen hw hp hm List.prefix_rfl)
        simpa [hv1, hv2] using this
  obtain ⟨k1, k2, k3, k4, k5⟩ := key
  refine ⟨eq_replicate_of ?_ rfl, eq_replicate_of ?_ rfl, ?_, ?_, ?_⟩
  · intro m hm
    rw [notified_append, List.mem_append] at hm
    rcases hm with hm | hm
    · exact i10 c hc m hm
    · exact k1 m hm
  · intro m hm
    rw [notified_append, List.mem_append] at hm
    rcases hm with hm | hm
    · exact i11 c' hc' m hm
    · exact k2 m hm
  · simp; omega
  · show _ ≤ heard (t1 ++ t2); simp; omega
  · show heard (t1 ++ t2) ≤ _
    simp
    have : heard t1 = k := i4.symm
    omega

/-- **C08**, a relay that ends without error has sent exactly one notification of each kind it was
asked for per thing heard. -/
theorem C08_notifications_complete {pull mon spy push tr n} (h : LoopRuns (motionBody pull mon spy push) 0 tr (.ok n))
    (hp : pull ≠ .none) (hm : mon.Apart) :
    n = (received tr).length + endings tr ∧
    (∀ c, mon.read = some c → notified c tr = List.replicate n (.read 0)) ∧
    (∀ c, mon.written = some c → notified c tr = List.replicate n (.wrote 0)) := by
  obtain ⟨n0, t1, t2, rfl, h1, h2⟩ := h.rounds
  obtain ⟨k, hk, i1, i2, i3, i4, i5, i6, i7, i8, i9, i10, i11⟩ := rounds_seen h1 hp hm
  rcases motionBody_inv h2 with ⟨e, h0, hw⟩ | ⟨res, u1, u2, rfl, hw, ⟨_, _, h0⟩ | ⟨hf, ⟨hc, hx⟩ | ⟨_, _, _, h0, _⟩⟩⟩
  · simp at h0
  · simp at h0
  · have rd := round_done hw hp hm
    obtain ⟨c1, c2, c3, c4⟩ := closeActs_proj hc
    simp [rd.read] at hx
    refine ⟨?_, ?_, ?_⟩
    · show n = heard _
      simp [rd.heard_one, c1]; omega
    · intro c hc
      apply eq_replicate_of
      · intro m hm
        simp [c4] at hm
        rcases hm with hm | hm
        · exact i10 c hc m hm
        · exact rd.read_msgs c hc m hm
      · have a := i8 (by simp [hc])
        have b := rd.read_eq (by simp [hc])
        simp only [pings, hc] at a b
        simp [c4]; omega
    · intro c hc
      apply eq_replicate_of
      · intro m hm
        simp [c4] at hm
        rcases hm with hm | hm
        · exact i11 c hc m hm
        · exact rd.written_msgs c hc m hm
      · have a := i9 (by simp [hc])
        have b := rd.written_eq (by simp [hc])
        simp only [pings, hc] at a b
        simp [c4]; omega
  · simp at h0

example : ({ read := some 3, written := some 7 } : Notifications).Apart := by
  rintro c ⟨h1, h2⟩; simp at h1 h2; omega

end Verif
