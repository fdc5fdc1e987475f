import Verif.Lemmas.Fails
import Verif.Lemmas.Edge
import Verif.Props.Regulator
import Verif.Props.JunctionEnd
/-!
# What all data-moving components have in common
-/
namespace Verif

/-- At every moment: the component reads from its inputs and writes to its outputs only; it writes to each output
what it receives, in order, at most one message behind; it leaves alone a channel it has closed. -/
structure Conduct (srcs tgts : List End) (tr : List Ev) : Prop where
  got : ∀ s d, Act.got s d ∈ acts tr → s ∈ srcs
  ended : ∀ s, Act.ended s ∈ acts tr → s ∈ srcs
  to : ∀ o ∈ offers tr, o.to ∈ tgts
  copies : ∀ t ∈ tgts, offeredTo t tr <+: received tr ∧ (received tr).length ≤ (offeredTo t tr).length + 1
  retired : ∀ c, Retired c tr

/-- At the end, when nothing failed: all inputs have ended, everything received was written everywhere and all
outputs are closed. -/
structure Finished (srcs tgts : List End) (tr : List Ev) : Prop where
  ended : ∀ s ∈ srcs, Act.ended s ∈ acts tr
  all : ∀ t ∈ tgts, offeredTo t tr = received tr
  closed : ∀ c, .chan c ∈ tgts → (Kind.data, c) ∈ closings tr

theorem endings_pos {tr : List Ev} (h : 0 < endings tr) : ∃ s, Act.ended s ∈ acts tr := by
  unfold endings at h
  rw [List.countP_pos_iff] at h
  obtain ⟨a, ha, hb⟩ := h
  cases a <;> simp at hb
  exact ⟨_, ha⟩

theorem ended_endings {tr : List Ev} {s : End} (h : Act.ended s ∈ acts tr) : 0 < endings tr := by
  unfold endings
  rw [List.countP_pos_iff]
  exact ⟨_, h, rfl⟩

theorem mem_offers {tr : List Ev} {o : Offer} : o ∈ offers tr ↔ Act.offer o.to o.d o.w ∈ acts tr := by
  unfold offers
  rw [List.mem_filterMap]
  constructor
  · rintro ⟨a, ha, h⟩
    cases a <;> simp at h
    subst h; exact ha
  · intro h; exact ⟨_, h, rfl⟩

theorem mem_closings {tr : List Ev} {k : Kind} {c : Nat} : (k, c) ∈ closings tr ↔ Act.close k c ∈ acts tr := by
  unfold closings
  rw [List.mem_filterMap]
  constructor
  · rintro ⟨a, ha, h⟩
    cases a <;> simp at h
    obtain ⟨rfl, rfl⟩ := h; exact ha
  · intro h; exact ⟨_, h, rfl⟩

/-! ## Relays -/

theorem relay_to {pull mon spy push tr} (h : (relayTask pull mon spy push).Partial tr) (hp : pull ≠ .none) (hm : mon.Apart) :
    ∀ o ∈ offers tr, push.target = some o.to := by
  cases ht : push.target with
  | some t =>
    obtain ⟨_, _, _, _, _, _, _, h1, _⟩ := relay_parts h hp hm
    intro o ho
    rw [(h1 t ht).2.2 o ho]
  | none =>
    have loop : ∀ {tr}, LoopPartial (motionBody pull mon spy push) 0 tr → offers tr = [] := by
      rintro tr ⟨n, t1, t2, h1, h2, rfl⟩
      obtain ⟨k, _, _, i2, _⟩ := rounds_seen h1 hp hm
      have e1 : offers t1 = [] := by
        rw [List.eq_nil_iff_forall_not_mem]; intro o ho; have := i2 o ho; rw [ht] at this; simp at this
      obtain ⟨t3, x, h3⟩ := h2.extend
      have e2 : offers (t2 ++ t3) = [] := by
        have wk : ∀ {t r}, MRuns (motionWorker pull mon [push] spy false) t r → offers t = [] := by
          intro t r hw
          rw [List.eq_nil_iff_forall_not_mem]; intro o ho
          have := (round_seen hw hp hm List.prefix_rfl).target o ho; rw [ht] at this; simp at this
        rcases motionBody_inv h3 with ⟨e, _, hw⟩ | ⟨res, u1, u2, hu, hw, hrest⟩
        · exact wk hw
        · rw [hu, offers_append, wk hw, List.nil_append]
          rcases hrest with ⟨_, rfl, _⟩ | ⟨_, ⟨hc, _⟩ | ⟨_, hh, _, _, hc⟩⟩
          · rfl
          · exact (closeActs_proj hc).2.2.1
          · exact (flush_proj hc).2.2.1
      rw [offers_append] at e2 ⊢
      rw [e1, (List.append_eq_nil_iff.mp e2).1]; rfl
    have : offers tr = [] := by
      rcases h with h | ⟨r, u1, u2, h, hd, rfl⟩
      · exact loop h
      · rw [offers_append, loop h.toPartial, (drops_acts hd).2.2.1]; rfl
    rw [this]; simp

theorem relay_conduct {pull mon spy push tr} (h : (relayTask pull mon spy push).Partial tr) (hp : pull ≠ .none) (hm : mon.Apart) :
    Conduct pull.source.toList push.target.toList tr := by
  obtain ⟨_, _, _, _, _, _, _, h1, h2⟩ := relay_parts h hp hm
  refine ⟨?_, ?_, ?_, ?_, fun c => (relay_ordered h hp hm).retired c⟩
  · intro s d hd; rw [h2 s d hd]; simp
  · intro s hs; rw [relay_ended h s hs]; simp
  · intro o ho; rw [relay_to h hp hm o ho]; simp
  · intro t ht
    simp at ht
    obtain ⟨a, b, c⟩ := h1 t ht
    rw [offeredTo_eq c]
    exact ⟨a, by simpa using b⟩

/-- A relay that has ended well has read everything there was, unless it may stop when nobody listens and did so. -/
theorem relay_ends {pull mon spy push t1 n} (hr : LoopRuns (motionBody pull mon spy push) 0 t1 (.ok n)) (hp : pull ≠ .none) (hm : mon.Apart)
    (hx : push.breakable ≠ .finish ∨ ∀ o ∈ offers t1, ∀ why, o.w ≠ .closed why) :
    Finished pull.source.toList push.target.toList (t1 ++ dropEvs (relayTask pull mon spy push).drops) := by
  have hpart : (relayTask pull mon spy push).Partial (t1 ++ dropEvs (relayTask pull mon spy push).drops) :=
    Or.inr ⟨.ok n, t1, _, hr, List.prefix_rfl, rfl⟩
  obtain ⟨d1, _, d3, _⟩ := drops_acts (List.prefix_rfl (l := dropEvs (relayTask pull mon spy push).drops))
  refine ⟨?_, ?_, ?_⟩
  · -- the end of the input has been heard
    have he : 0 < endings t1 := by
      obtain ⟨n0, u1, u2, rfl, h1, h2⟩ := hr.rounds
      rcases motionBody_inv h2 with ⟨e, h0, _⟩ | ⟨res, v1, v2, rfl, hw, ⟨_, _, h0⟩ | ⟨hfin, ⟨_, _⟩ | ⟨_, _, _, h0, _⟩⟩⟩
      · simp at h0
      · simp at h0
      · cases hs : pull.source with
        | none => cases pull <;> simp [Pull.source] at hs; exact absurd rfl hp
        | some s =>
          rcases Nat.eq_zero_or_pos (endings v1) with h0 | h0
          · exfalso
            have rd := round_done hw hp hm
            have h1' := rd.heard_one
            unfold heard at h1'
            obtain ⟨d, hd⟩ : ∃ d, received v1 = [d] := by
              match hrv : received v1 with
              | [] => rw [hrv, h0] at h1'; simp at h1'
              | [d] => exact ⟨d, rfl⟩
              | _ :: _ :: _ => rw [hrv, h0] at h1'; simp at h1'
            obtain ⟨_, _, h6⟩ := C06_pipe_variations hw d hd _ rfl
            obtain ⟨l1, _, l2⟩ := h6 res rfl
            have hall := l2.mp hfin
            have hne : outcomes [push] ((offers v1).map Offer.w) ≠ [] := by
              intro h; rw [h] at l1; simp at l1
            obtain ⟨y, hy⟩ := List.exists_mem_of_ne_nil _ hne
            obtain ⟨hy1, why, hy2⟩ := hall y hy
            have hy0 : y.2 = .ok ∨ y.2 ∈ (offers v1).map Offer.w := by
              revert hy
              cases push with
              | none => intro hy; simp [outcomes] at hy; left; rw [hy]
              | sender j c => intro hy; cases hw' : (offers v1).map Offer.w <;> rw [hw'] at hy <;> simp [outcomes] at hy; right; rw [hy]; simp
              | io j c => intro hy; cases hw' : (offers v1).map Offer.w <;> rw [hw'] at hy <;> simp [outcomes] at hy; right; rw [hy]; simp
            rw [hy2] at hy0
            rcases hy0 with hy0 | hy0
            · simp at hy0
            · obtain ⟨o, ho, how⟩ := List.mem_map.mp hy0
              rcases hx with hx | hx
              · have : y.1 ∈ [push] := by rw [← l1]; exact List.mem_map.mpr ⟨_, hy, rfl⟩
                simp only [List.mem_singleton] at this
                rw [this] at hy1; exact hx hy1
              · exact hx o (by simp [ho]) why how
          · simp; omega
      · simp at h0
    intro s hs
    simp at hs
    obtain ⟨s', hs'⟩ := endings_pos he
    have hs'' : Act.ended s' ∈ acts (t1 ++ dropEvs (relayTask pull mon spy push).drops) := by simp [hs']
    have := relay_ended hpart s' hs''
    rw [hs] at this; simp at this; subst this; exact hs''
  · intro t ht
    simp at ht
    obtain ⟨c1, _⟩ := C07_relay_complete hr hp hm t ht
    have hto : ∀ o ∈ offers (t1 ++ dropEvs (relayTask pull mon spy push).drops), o.to = t := by
      intro o ho
      have := relay_to hpart hp hm o ho
      rw [ht] at this; simp at this; exact this.symm
    rw [offeredTo_eq hto, offers_append, received_append, d1, d3, List.append_nil, List.append_nil]
    have := congrArg (List.map Prod.snd) c1
    simpa [List.map_map, Function.comp_def] using this
  · intro c hc
    simp at hc
    rw [closings_append, List.mem_append]; right
    rw [(drops_idle _).2]
    cases push <;> simp [Push.target] at hc
    subst hc
    simp [relayTask, Push.owned]

theorem relay_finished {pull mon spy push tr} (h : (relayTask pull mon spy push).Done tr) (hp : pull ≠ .none) (hm : mon.Apart)
    (hf : ∀ a ∈ acts tr, a.fails = false) : Finished pull.source.toList push.target.toList tr := by
  obtain ⟨r, t1, hr, rfl⟩ := h
  have hq : ∀ a ∈ acts t1, a.fails = false := fun a ha => hf a (by simp [ha])
  cases r with
  | error e => obtain ⟨a, ha, hb⟩ := relay_fails hr hp; rw [hq a ha] at hb; simp at hb
  | ok n =>
    refine relay_ends (n := n) hr hp hm (Or.inr fun o ho why hw => ?_)
    have := hq _ (mem_offers.mp ho)
    rw [hw] at this; simp [Act.fails] at this

/-! ## Regulators -/

theorem regulator_ordered {pull push spy ctl tr} (h : (regulatorTask pull push spy ctl).Partial tr) (hp : pull ≠ .none) :
    Ordered tr ∧ (∀ o ∈ offers tr, push.target = some o.to) ∧ (∀ s d, Act.got s d ∈ acts tr → pull.source = some s) ∧
    (∀ s, Act.ended s ∈ acts tr → pull.source = some s) := by
  have one : ∀ {n t}, (regulatorBody pull push spy ctl n).Partial t →
      (∃ t1 t2, t = t1 ++ t2 ∧ closings t1 = [] ∧ received t2 = [] ∧ endings t2 = 0 ∧ offers t2 = []) ∧
      (∀ s, Act.ended s ∈ acts t → pull.source = some s) := by
    intro n t h
    obtain ⟨t3, x, h3⟩ := h.extend
    obtain ⟨r, u1, u2, hu, hw, h2⟩ := regulatorBody_inv h3
    have hidle : Idle u2 := by
      rcases h2 with ⟨res, rfl, hf, hc, h0⟩ | ⟨res, rfl, hf, hc, hx⟩ | ⟨e, rfl, rfl, h0⟩
      · exact (closeControl_idle hc).1
      · exact (controlPoint_idle hc).1
      · exact ⟨rfl, rfl, rfl, by simp⟩
    rcases prefix_append_cases (show t <+: u1 ++ u2 from ⟨t3, hu⟩) with hpre | ⟨v, rfl, hv⟩
    · exact ⟨⟨t, [], by simp, (round_seen hw hp apart_nil hpre).open_, rfl, rfl, rfl⟩,
        fun s hm => worker_ended hw s ((prefix_acts hpre).subset hm)⟩
    · have hv := hidle.prefix hv
      refine ⟨⟨u1, v, rfl, (round_seen hw hp apart_nil List.prefix_rfl).open_, hv.received, hv.endings, hv.offers⟩, ?_⟩
      intro s hm
      rw [acts_append, List.mem_append] at hm
      rcases hm with hm | hm
      · exact worker_ended hw s hm
      · have := ended_endings hm; rw [hv.endings] at this; omega
  have loop : ∀ {tr}, LoopPartial (regulatorBody pull push spy ctl) 0 tr →
      Ordered tr ∧ (∀ o ∈ offers tr, push.target = some o.to) ∧ (∀ s d, Act.got s d ∈ acts tr → pull.source = some s) ∧
      (∀ s, Act.ended s ∈ acts tr → pull.source = some s) := by
    rintro tr ⟨n, t1, t2, h1, h2, rfl⟩
    obtain ⟨_, i1, i2, i3, i4, i5⟩ := regulator_rounds h1 hp
    obtain ⟨_, _, k3, k4⟩ := regulator_part h2 hp
    obtain ⟨⟨u1, u2, rfl, j1, j2, j3, j4⟩, j5⟩ := one h2
    refine ⟨⟨t1 ++ u1, u2, by simp, by simp [i3, j1], j2, j3, j4⟩, ?_, ?_, ?_⟩
    · intro o ho
      rw [offers_append, List.mem_append] at ho
      rcases ho with ho | ho
      · exact i2 o ho
      · exact k3 o ho
    · intro s d hm
      rw [acts_append, List.mem_append] at hm
      rcases hm with hm | hm
      · exact i1 s d hm
      · exact k4 s d hm
    · intro s hm
      rw [acts_append, List.mem_append] at hm
      rcases hm with hm | hm
      · have := ended_endings hm; omega
      · exact j5 s hm
  rcases h with h | ⟨r, u1, u2, h, hd, rfl⟩
  · exact loop h
  · obtain ⟨⟨a, b, rfl, l1, l2, l3, l4⟩, l5, l6, l7⟩ := loop (LoopRuns.toPartial h)
    obtain ⟨d1, d2, d3, _, _⟩ := drops_acts hd
    refine ⟨⟨a, b ++ u2, by simp, l1, by simp [l2, d1], by simp [l3, d2], by simp [l4, d3]⟩, ?_, ?_, ?_⟩
    · intro o ho
      rw [offers_append, d3, List.append_nil] at ho
      exact l5 o ho
    · intro s d hm
      rw [acts_append, List.mem_append] at hm
      rcases hm with hm | hm
      · exact l6 s d hm
      · have : d ∈ received u2 := by unfold received; exact List.mem_filterMap.mpr ⟨_, hm, rfl⟩
        rw [d1] at this; simp at this
    · intro s hm
      rw [acts_append, List.mem_append] at hm
      rcases hm with hm | hm
      · exact l7 s hm
      · have := ended_endings hm; omega

theorem regulator_conduct {pull push spy ctl tr} (h : (regulatorTask pull push spy ctl).Partial tr) (hp : pull ≠ .none) :
    Conduct pull.source.toList push.target.toList tr := by
  obtain ⟨h1, h2, h3, h4⟩ := regulator_ordered h hp
  refine ⟨?_, ?_, ?_, ?_, fun c => h1.retired c⟩
  · intro s d hd; rw [h3 s d hd]; simp
  · intro s hs; rw [h4 s hs]; simp
  · intro o ho; rw [h2 o ho]; simp
  · intro t ht
    simp at ht
    obtain ⟨a, b, c, _⟩ := C17_prefix h hp t ht
    rw [offeredTo_eq c]
    exact ⟨a, by simpa using b⟩

/-- As `relay_ends`. -/
theorem regulator_ends {pull push spy ctl t1 n} (hr : LoopRuns (regulatorBody pull push spy ctl) 0 t1 (.ok n)) (hp : pull ≠ .none)
    (hx : push.breakable ≠ .finish ∨ ∀ o ∈ offers t1, ∀ why, o.w ≠ .closed why) :
    Finished pull.source.toList push.target.toList (t1 ++ dropEvs (regulatorTask pull push spy ctl).drops) := by
  have hpart : (regulatorTask pull push spy ctl).Partial (t1 ++ dropEvs (regulatorTask pull push spy ctl).drops) :=
    Or.inr ⟨.ok n, t1, _, hr, List.prefix_rfl, rfl⟩
  obtain ⟨_, ht2, _, hend⟩ := regulator_ordered hpart hp
  obtain ⟨d1, _, d3, _⟩ := drops_acts (List.prefix_rfl (l := dropEvs (regulatorTask pull push spy ctl).drops))
  refine ⟨?_, ?_, ?_⟩
  · have he : 0 < endings t1 := by
      obtain ⟨n0, u1, u2, rfl, h1, h2⟩ := hr.rounds
      obtain ⟨r, v1, v2, rfl, hw, h2⟩ := regulatorBody_inv h2
      rcases h2 with ⟨res, rfl, hfin, hc, h0⟩ | ⟨res, rfl, hf, hc, h0⟩ | ⟨e, rfl, rfl, h0⟩
      · rcases Nat.eq_zero_or_pos (endings v1) with h0 | h0
        · exfalso
          have rd := round_done hw hp apart_nil
          have h1' := rd.heard_one
          unfold heard at h1'
          obtain ⟨d, hd⟩ : ∃ d, received v1 = [d] := by
            match hrv : received v1 with
            | [] => rw [hrv, h0] at h1'; simp at h1'
            | [d] => exact ⟨d, rfl⟩
            | _ :: _ :: _ => rw [hrv, h0] at h1'; simp at h1'
          obtain ⟨_, _, h6⟩ := C06_pipe_variations hw d hd _ rfl
          obtain ⟨l1, _, l2⟩ := h6 res rfl
          have hall := l2.mp hfin
          have hne : outcomes [push] ((offers v1).map Offer.w) ≠ [] := by
            intro h; rw [h] at l1; simp at l1
          obtain ⟨y, hy⟩ := List.exists_mem_of_ne_nil _ hne
          obtain ⟨hy1, why, hy2⟩ := hall y hy
          have hy0 : y.2 = .ok ∨ y.2 ∈ (offers v1).map Offer.w := by
            revert hy
            cases push with
            | none => intro hy; simp [outcomes] at hy; left; rw [hy]
            | sender j c => intro hy; cases hw' : (offers v1).map Offer.w <;> rw [hw'] at hy <;> simp [outcomes] at hy; right; rw [hy]; simp
            | io j c => intro hy; cases hw' : (offers v1).map Offer.w <;> rw [hw'] at hy <;> simp [outcomes] at hy; right; rw [hy]; simp
          rw [hy2] at hy0
          rcases hy0 with hy0 | hy0
          · simp at hy0
          · obtain ⟨o, ho, how⟩ := List.mem_map.mp hy0
            rcases hx with hx | hx
            · have : y.1 ∈ [push] := by rw [← l1]; exact List.mem_map.mpr ⟨_, hy, rfl⟩
              simp only [List.mem_singleton] at this
              rw [this] at hy1; exact hx hy1
            · exact hx o (by simp [ho]) why how
        · simp; omega
      · simp at h0
      · simp at h0
    intro s hs
    simp at hs
    obtain ⟨s', hs'⟩ := endings_pos he
    have hs'' : Act.ended s' ∈ acts (t1 ++ dropEvs (regulatorTask pull push spy ctl).drops) := by simp [hs']
    have := hend s' hs''
    rw [hs] at this; simp at this; subst this; exact hs''
  · intro t ht
    simp at ht
    obtain ⟨c1, _⟩ := C17_complete hr hp t ht
    have hto : ∀ o ∈ offers (t1 ++ dropEvs (regulatorTask pull push spy ctl).drops), o.to = t := by
      intro o ho
      have := ht2 o ho
      rw [ht] at this; simp at this; exact this.symm
    rw [offeredTo_eq hto, offers_append, received_append, d1, d3, List.append_nil, List.append_nil]
    have := congrArg (List.map Prod.snd) c1
    simpa [List.map_map, Function.comp_def] using this
  · intro c hc
    simp at hc
    rw [closings_append, List.mem_append]; right
    rw [(drops_idle _).2]
    cases push <;> simp [Push.target] at hc
    subst hc
    simp [regulatorTask, Push.owned]

theorem regulator_finished {pull push spy ctl tr} (h : (regulatorTask pull push spy ctl).Done tr) (hp : pull ≠ .none)
    (hf : ∀ a ∈ acts tr, a.fails = false) : Finished pull.source.toList push.target.toList tr := by
  obtain ⟨r, t1, hr, rfl⟩ := h
  have hq : ∀ a ∈ acts t1, a.fails = false := fun a ha => hf a (by simp [ha])
  cases r with
  | error e => obtain ⟨a, ha, hb⟩ := regulator_fails hr hp; rw [hq a ha] at hb; simp at hb
  | ok n =>
    refine regulator_ends (n := n) hr hp (Or.inr fun o ho why hw => ?_)
    have := hq _ (mem_offers.mp ho)
    rw [hw] at this; simp [Act.fails] at this

end Verif
