import Verif.Lemmas.Caller
import Verif.Lemmas.RegulatorRuns
import Verif.Props.Motion
/-!
# Properties C16, C17 and C18: pausing
-/
namespace Verif

section
variable {ι : Type} [DecidableEq ι] {cap : Caps} {sys : ι → Option Task} {r k : ι}

/-- **C16** In every execution of a regulator `r` together with any other tasks over any channels: from
the moment a pause request is delivered (it is a pause if an even number were delivered before, see
`C18_alternate`) until anybody else touches the control channel again, `r` writes at most one message.
(Only `r` takes requests out of its control channel, of capacity 1.) -/
theorem C16_paused {τ₁ τ₂ : List (ι × Ev)} {pull push spy c}
    (hE : Execution cap sys (τ₁ ++ (k, ⟨.send .ctl c (), true⟩) :: τ₂))
    (hr : sys r = some (regulatorTask pull push spy (some c))) (hp : pull ≠ .none) (hk : k ≠ r)
    (hcap : cap .ctl c = some 1)
    (takes : ∀ x ∈ τ₁ ++ τ₂, gotOf .ctl c x.2 ≠ none → x.1 = r)
    (pause : (sentOn .ctl c (τ₁.map Prod.snd)).length % 2 = 0)
    (quiet : ∀ x ∈ τ₂, x.1 ≠ r → x.2.q.on ≠ some (.ctl, c)) :
    (offers (proj r τ₂)).length ≤ 1 := by
  have htask := hE.tasks r _ hr
  obtain ⟨st3, hst⟩ := Option.isSome_iff_exists.mp hE.chans
  rw [List.map_append, List.map_cons] at hst
  obtain ⟨st1, hst1, hst⟩ := execAll_split hst
  obtain ⟨st2, hsend, hst2⟩ := execAll_cons hst
  obtain ⟨hop, hroom, hq2, hcl2⟩ := exec_send hsend
  have hq1 : (st1 .ctl c).q = [] := by
    rw [hcap] at hroom
    exact List.eq_nil_of_length_eq_zero (by simp only [hasRoom] at hroom; omega)
  rw [hq1] at hq2
  obtain ⟨q, hphase⟩ := regTask_phase htask hp
  have hctl := regTask_ctl htask
  rw [proj_append, proj_cons_ne hk] at hphase hctl
  rw [acts_append] at hphase hctl
  rw [Phase.run_append] at hphase
  cases hp1 : Phase.run .fresh (acts (proj r τ₁)) with
  | none => simp [hp1] at hphase
  | some p =>
    rw [hp1] at hphase
    simp only [Option.bind_some] at hphase
    have hf := fifo hst1 .ctl c
    rw [hq1, List.append_nil, gotOn_proj (i := r) (fun x hx => takes x (by simp [hx]))] at hf
    have hf : sentOn .ctl c (τ₁.map Prod.snd) = gotOn .ctl c (proj r τ₁) := hf
    have nocl : ¬ closedIn .ctl c (τ₁.map Prod.snd) := by
      intro h
      have := (closed_iff hst1 .ctl c).mpr (Or.inr h)
      rw [hop] at this; simp at this
    have hopen : ∀ a ∈ acts (proj r τ₁), a ≠ .ctlWait c none := by
      intro a ha h0
      simp only [acts, List.mem_map] at ha
      obtain ⟨e, he, rfl⟩ := ha
      have he' := act_ctlWait h0
      subst he'
      have hm := mem_proj.mp he
      obtain ⟨a1, a2, hsplit⟩ := List.append_of_mem hm
      rw [hsplit, List.map_append, List.map_cons] at hst1
      obtain ⟨s1, g1, hst1⟩ := execAll_split hst1
      obtain ⟨s2, g2, hst1⟩ := execAll_cons hst1
      obtain ⟨_, g3, _⟩ := exec_recv_none g2
      have := (closed_iff g1 .ctl c).mp g3
      rcases this with h | ⟨e, he, h⟩
      · simp [Store.init] at h
      · exact nocl ⟨e, by rw [hsplit]; simp only [List.map_append, List.mem_append]; exact Or.inl he, h⟩
    by_cases hov : p = .over
    · subst hov
      rw [offers_eq, over_offers hphase]; simp
    · have hpar := phase_parity hp1 (fun a ha => hctl a (List.mem_append.mpr (Or.inl ha))) hopen hov
      rw [← hf] at hpar
      have hpw : p ≠ .waiting := by
        intro h0; rw [h0] at hpar; simp only [] at hpar
        simp at hpar; omega
      have hinv : PauseInv (st2 .ctl c) p := by
        cases p with
        | fresh => exact ⟨hq2, hcl2⟩
        | wrote => exact ⟨hq2, hcl2⟩
        | waiting => exact absurd rfl hpw
        | over => trivial
      have := pause_credit hst2 hphase (fun a ha => hctl a (List.mem_append.mpr (Or.inr ha))) quiet hinv
      refine Nat.le_trans this ?_
      cases p <;> simp [Phase.credit]

/-- **C16** for the control handle as the program provides it: whenever the handle is in the paused state after a
request was accepted, the regulator writes at most one message until the holder of the handle does
something again (gets a resume request through, or drops the handle). -/
theorem C16_paused_handle {τ₁ τ₂ : List (ι × Ev)} {pull push spy c calls rest} {h : Control}
    (hE : Execution cap sys (τ₁ ++ (k, ⟨.send .ctl c (), true⟩) :: τ₂))
    (hr : sys r = some (regulatorTask pull push spy (some c))) (hp : pull ≠ .none) (hk : k ≠ r)
    (hcap : cap .ctl c = some 1)
    (others : ∀ x ∈ τ₁ ++ τ₂, x.2.q.on = some (.ctl, c) → x.1 = r ∨ x.1 = k)
    (holder : LoopRounds (callerTask c calls).body (Control.new c, calls) (proj k τ₁ ++ [⟨.send .ctl c (), true⟩]) (h, rest))
    (paused : h.paused = true) (quiet : proj k τ₂ = []) :
    (offers (proj r τ₂)).length ≤ 1 := by
  have htask := hE.tasks r _ hr
  obtain ⟨st3, hst⟩ := Option.isSome_iff_exists.mp hE.chans
  rw [List.map_append, List.map_cons] at hst
  obtain ⟨st1, hst1, hst⟩ := execAll_split hst
  obtain ⟨st2, hsend, hst2⟩ := execAll_cons hst
  obtain ⟨hop, hroom, hq2, hcl2⟩ := exec_send hsend
  obtain ⟨_, outs, htr, hpar⟩ := caller_rounds holder
  rw [paused] at hpar
  simp [Control.new] at htr hpar
  have hsends : ∀ e ∈ proj k τ₁, ∃ b, e = ⟨.send .ctl c (), b⟩ := by
    intro e he
    have : e ∈ proj k τ₁ ++ [⟨.send .ctl c (), true⟩] := by simp [he]
    rw [htr] at this
    simp only [List.mem_map] at this
    obtain ⟨b, _, h⟩ := this
    exact ⟨b, h.symm⟩
  have nocl : ¬ closedIn .ctl c (τ₁.map Prod.snd) := by
    intro h
    have := (closed_iff hst1 .ctl c).mpr (Or.inr h)
    rw [hop] at this; simp at this
  have hall : ∀ e ∈ proj k τ₁, e = ⟨.send .ctl c (), true⟩ := by
    intro e he
    obtain ⟨b, rfl⟩ := hsends e he
    cases b with
    | true => rfl
    | false =>
      exfalso
      obtain ⟨a1, a2, hsplit⟩ := List.append_of_mem (mem_proj.mp he)
      rw [hsplit, List.map_append, List.map_cons] at hst1
      obtain ⟨s1, g1, hst1⟩ := execAll_split hst1
      obtain ⟨s2, g2, hst1⟩ := execAll_cons hst1
      obtain ⟨g3, _⟩ := exec_send_false g2
      rcases (closed_iff g1 .ctl c).mp g3 with h | ⟨e, he, h⟩
      · simp [Store.init] at h
      · exact nocl ⟨e, by rw [hsplit]; simp only [List.map_append, List.mem_append]; exact Or.inl he, h⟩
  have hown : ∀ e ∈ proj r (τ₁ ++ τ₂), sentOf .ctl c e = none := by
    intro e he
    obtain ⟨q, hph⟩ := regTask_phase htask hp
    cases hs : sentOf .ctl c e with
    | none => rfl
    | some v =>
      exfalso
      have ho : act e = .other := by
        obtain ⟨q, r⟩ := e
        cases q with
        | send k' c' v =>
          cases r with
          | false => simp [sentOf] at hs
          | true => cases k' <;> simp [sentOf] at hs; rfl
        | _ => simp [sentOf] at hs
      have noother : ∀ {p q : Phase} {A : List Act}, p.run A = some q → Act.other ∉ A := by
        intro p q A
        induction A generalizing p with
        | nil => simp
        | cons a A ih =>
          intro h
          simp only [Phase.run] at h
          split at h
          · simp at h
          · rename_i p' hp'
            intro hm
            rcases List.mem_cons.mp hm with rfl | hm
            · cases p <;> simp [Phase.step] at hp'
            · exact ih h hm
      have hmem : e ∈ proj r (τ₁ ++ (k, ⟨.send .ctl c (), true⟩) :: τ₂) := by
        rw [proj_append, proj_cons_ne hk]; rw [proj_append] at he; exact he
      exact noother hph (by rw [← ho]; exact List.mem_map_of_mem hmem)
  apply C16_paused hE hr hp hk hcap
  · intro x hx hg
    cases hx' : gotOf .ctl c x.2 with
    | none => exact absurd hx' hg
    | some v =>
      rcases others x hx (on_of_got hx') with h | h
      · exact h
      · exfalso
        rw [List.mem_append] at hx
        have hxk : (k, x.2) = x := by rw [← h]
        rcases hx with hx | hx
        · have := hall x.2 (mem_proj.mpr (by rw [hxk]; exact hx))
          rw [this] at hx'; simp [gotOf] at hx'
        · have : x.2 ∈ proj k τ₂ := mem_proj.mpr (by rw [hxk]; exact hx)
          rw [quiet] at this; simp at this
  · rw [sentOn_proj (i := k)]
    · have hlen : (sentOn .ctl c (proj k τ₁)).length = (proj k τ₁).length := by
        clear hsends htr
        generalize proj k τ₁ = l at hall
        induction l with
        | nil => rfl
        | cons e l ih =>
          have h1 := hall e (by simp)
          subst h1
          have := ih (fun e he => hall e (by simp [he]))
          simp only [sentOn, List.filterMap_cons, sentOf] at this ⊢
          simpa using this
      have := congrArg List.length htr
      simp at this
      omega
    · intro x hx hs
      cases hx' : sentOf .ctl c x.2 with
      | none => exact absurd hx' hs
      | some v =>
        rcases others x (by simp [hx]) (on_of_sent hx') with h | h
        · exfalso
          have hxr : (r, x.2) = x := by rw [← h]
          have := hown x.2 (by rw [proj_append, List.mem_append]; exact Or.inl (mem_proj.mpr (by rw [hxr]; exact hx)))
          rw [hx'] at this; simp at this
        · exact h
  · intro x hx hxr ho
    rcases others x (by simp [hx]) ho with h | h
    · exact hxr h
    · have hxk : (k, x.2) = x := by rw [← h]
      have : x.2 ∈ proj k τ₂ := mem_proj.mpr (by rw [hxk]; exact hx)
      rw [quiet] at this; simp at this

end

/-- A regulator that gets a pause request, forwards one message and then finds the request: the
hypotheses of `C16_paused` and `C16_paused_handle` can be met, and one message is possible. -/
example :
    let reg := regulatorTask (.stream ⟨0, 1⟩ 0) (.sender ⟨1, some .out, 2, .terminate⟩ 1) none (some 5)
    let sys : Bool → Option Task := fun i => if i then some (callerTask 5 [.pause]) else some reg
    let τ₂ : List (Bool × Ev) := [(false, ⟨.streamRead 0, .line [97]⟩), (false, ⟨.send .data 1 [97], true⟩),
      (false, ⟨.tryRecv .ctl 5, .got ()⟩)]
    Execution (fun _ _ => some 1) sys ([] ++ (true, ⟨.send .ctl 5 (), true⟩) :: τ₂) ∧
    LoopRounds (callerTask 5 [.pause]).body (Control.new 5, [.pause]) ([] ++ [⟨.send .ctl 5 (), true⟩]) (⟨true, 5⟩, []) ∧
    (offers (proj false τ₂)).length = 1 := by
  have hr : LoopRounds (callerTask 5 [.pause]).body (Control.new 5, [.pause]) ([] ++ [⟨.send .ctl 5 (), true⟩]) (⟨true, 5⟩, []) :=
    .next (tr := [⟨.send .ctl 5 (), true⟩]) ⟨true, _, rfl, rfl, rfl⟩ .nil
  refine ⟨⟨rfl, ?_⟩, hr, rfl⟩
  intro i t hi
  cases i with
  | false =>
    simp at hi; subst hi
    refine Or.inl ⟨(0 : Nat), [], _, .nil, ?_, rfl⟩
    exact ⟨.line [97], rfl, true, rfl, .got (), rfl, trivial⟩
  | true =>
    simp at hi; subst hi
    exact Or.inl ⟨_, _, [], hr, Prog.partial_nil _, rfl⟩

/-- **C17** (regulators, and faucets, whose loop is the same code) At every moment of every run, whatever
requests come and whether or not there is a control handle: what was written is an initial segment of what was read, at most one
message behind, all of it to the one output; and everything read comes from the one input. -/
theorem C17_prefix {pull push spy ctl tr} (h : (regulatorTask pull push spy ctl).Partial tr)
    (hp : pull ≠ .none) (t : End) (ht : push.target = some t) :
    (offers tr).map Offer.d <+: received tr ∧ (received tr).length ≤ (offers tr).length + 1 ∧
    (∀ o ∈ offers tr, o.to = t) ∧ (∀ s d, Act.got s d ∈ acts tr → pull.source = some s) := by
  have key : ∀ {n u}, LoopPartial (regulatorBody pull push spy ctl) n u →
      (offers u).map Offer.d <+: received u ∧ (received u).length ≤ (offers u).length + 1 ∧
      (∀ o ∈ offers u, o.to = t) ∧ (∀ s d, Act.got s d ∈ acts u → pull.source = some s) := by
    rintro n u ⟨n', t1, t2, h1, h2, rfl⟩
    obtain ⟨_, i1, i2, i3, i4, i5⟩ := regulator_rounds h1 hp
    have i5 := i5 (by simp [ht])
    obtain ⟨k1, k2, k3, k4⟩ := regulator_part h2 hp
    refine ⟨?_, ?_, ?_, ?_⟩
    · simp only [offers_append, List.map_append, received_append, i5]
      exact (List.prefix_append_right_inj _).mpr k1
    · have := congrArg List.length i5
      simp at this ⊢; omega
    · intro o ho
      rw [offers_append, List.mem_append] at ho
      rcases ho with ho | ho
      · have := i2 o ho; rw [ht] at this; simpa using this.symm
      · have := k3 o ho; rw [ht] at this; simpa using this.symm
    · intro s d ho
      rw [acts_append, List.mem_append] at ho
      rcases ho with ho | ho
      · exact i1 s d ho
      · exact k4 s d ho
  rcases h with h | ⟨r, t1, t2, h1, h2, rfl⟩
  · exact key h
  · obtain ⟨a, b, c, d⟩ := key h1.toPartial
    have hv := (drops_idle (regulatorTask pull push spy ctl).drops).1.prefix h2
    refine ⟨by simpa [hv.offers, hv.received] using a, by simpa [hv.offers, hv.received] using b,
      by simpa [hv.offers] using c, ?_⟩
    intro s x hm
    rw [acts_append, List.mem_append] at hm
    rcases hm with hm | hm
    · exact d s x hm
    · exact absurd hm (hv.nogot s x)

/-- **C17** A regulator that ends without error has written everything it read, in order; it reports the number of
messages, all of them if its input ended, all but the last if its output was found closed (variation F); and the only things it closes are
its control channel and then, at the very end, its output and its input. -/
theorem C17_complete {pull push spy ctl tr n}
    (h : LoopRuns (regulatorBody pull push spy ctl) 0 tr (.ok n))
    (hp : pull ≠ .none) (t : End) (ht : push.target = some t) :
    (offers tr).map (fun o => (o.to, o.d)) = (received tr).map (fun d => (t, d)) ∧
    (endings tr = 1 ∧ n = (received tr).length ∨
     endings tr = 0 ∧ n + 1 = (received tr).length ∧ push.breakable = .finish ∧
      ∃ O d why, offers tr = O ++ [⟨t, d, .closed why⟩]) ∧
    closings tr = (ctl.map fun c => (Kind.ctl, c)).toList := by
  have hpre := C17_prefix (Or.inl h.toPartial : (regulatorTask pull push spy ctl).Partial tr) hp t ht
  obtain ⟨n0, t1, t2, rfl, h1, h2⟩ := h.rounds
  obtain ⟨hk, i1, i2, i3, i4, i5⟩ := regulator_rounds h1 hp
  have i5 := i5 (by simp [ht])
  obtain ⟨r, u1, u2, rfl, hw, h2⟩ := regulatorBody_inv h2
  rcases h2 with ⟨res, rfl, hf, hc, hx⟩ | ⟨res, rfl, hf, hc, h0⟩ | ⟨e, rfl, rfl, h0⟩
  · have rd := round_done hw hp apart_nil
    obtain ⟨hidle, hcl⟩ := closeControl_idle hc
    simp at hx; subst hx
    have hoff : (offers (t1 ++ (u1 ++ u2))).map Offer.d = received (t1 ++ (u1 ++ u2)) := by
      simp [i5, rd.all_written (by simp [ht]), hidle.offers, hidle.received]
    refine ⟨?_, ?_, by simp [i3, rd.open_, hcl]⟩
    · rw [← hoff, List.map_map]
      apply List.map_congr_left
      intro o ho
      simp [hpre.2.2.1 o ho]
    · have hh := rd.heard_one
      have : (received u1).length = 1 ∧ endings u1 = 0 ∨ received u1 = [] ∧ endings u1 = 1 := by
        unfold heard at hh
        rcases Nat.eq_zero_or_pos (endings u1) with h | h
        · left; omega
        · right; exact ⟨List.eq_nil_of_length_eq_zero (by omega), by omega⟩
      rcases this with ⟨hl, he⟩ | ⟨hl, he⟩
      · right
        refine ⟨by simp [i4, he, hidle.endings], ?_, ?_⟩
        · simp [hidle.received]; omega
        · match hr : received u1 with
          | [d] =>
            obtain ⟨_, _, h6⟩ := C06_pipe_variations hw d hr _ rfl
            obtain ⟨l1, _, l2⟩ := h6 res rfl
            have hall := l2.mp hf
            have ho := rd.all_written (by simp [ht])
            rw [hr] at ho
            match hou : offers u1 with
            | [o] =>
              rw [hou] at ho
              simp at ho
              have hL : outcomes [push] [o.w] = [(push, o.w)] := by
                cases push <;> simp [outcomes]
                simp [Push.target] at ht
              rw [hou] at hall
              simp [hL] at hall
              obtain ⟨hb, why, hwhy⟩ := hall
              refine ⟨hb, offers t1, d, why, ?_⟩
              have : o.to = t := hpre.2.2.1 o (by simp [hou])
              simp [hou, hidle.offers]
              cases o; simp at ho hwhy this; simp [ho, hwhy, this]
            | [] => rw [hou] at ho; simp at ho
            | _ :: _ :: _ => rw [hou] at ho; simp at ho
          | [] => rw [hr] at hl; simp at hl
          | _ :: _ :: _ => rw [hr] at hl; simp at hl
      · left
        refine ⟨by simp [i4, he, hidle.endings], ?_⟩
        simp [hidle.received, hl]; omega
  · simp at h0
  · simp at h0

/-- **C17** A regulator that has ended, in whatever way, has closed its output and its input and, unless it failed, its
control channel. -/
theorem C17_closes {pull push spy ctl tr} {res : Except MErr Nat}
    (h : LoopRuns (regulatorBody pull push spy ctl) 0 tr res)
    (hp : pull ≠ .none) :
    closings (tr ++ dropEvs (regulatorTask pull push spy ctl).drops) =
      (match res with | .ok _ => (ctl.map fun c => (Kind.ctl, c)).toList | .error _ => []) ++
      push.owned ++ pull.owned := by
  have hd := (drops_idle (regulatorTask pull push spy ctl).drops).2
  rw [closings_append, hd, List.append_assoc]
  congr 1
  obtain ⟨n0, t1, t2, rfl, h1, h2⟩ := h.rounds
  obtain ⟨hk, i1, i2, i3, i4, i5⟩ := regulator_rounds h1 hp
  obtain ⟨r, u1, u2, rfl, hw, h2⟩ := regulatorBody_inv h2
  have ho := (round_seen hw hp apart_nil List.prefix_rfl).open_
  rcases h2 with ⟨res, rfl, hf, hc, hx⟩ | ⟨res, rfl, hf, hc, h0⟩ | ⟨e, rfl, rfl, h0⟩
  · simp at hx; subst hx
    simp [i3, ho, (closeControl_idle hc).2]
  · simp at h0
  · simp at h0; subst h0
    simp [i3, ho]

/-- A regulator that is paused between two messages and ends. -/
example : LoopRuns (regulatorBody (.receiver ⟨0, 1⟩ 0) (.sender ⟨1, some .out, 2, .terminate⟩ 1) none (some 5)) 0
    ([⟨.recv .data 0, some [97]⟩, ⟨.send .data 1 [97], true⟩, ⟨.tryRecv .ctl 5, .got ()⟩, ⟨.recv .ctl 5, some ()⟩] ++
     [⟨.recv .data 0, none⟩, ⟨.close .ctl 5, ()⟩]) (.ok 1) := by
  refine .next (s' := 1) ?_ (.stop ?_)
  · exact ⟨some [97], _, rfl, true, _, rfl, .got (), _, rfl, some (), _, rfl, rfl, rfl⟩
  · exact ⟨none, _, rfl, (), _, rfl, rfl, rfl⟩

/-- **C18** Whatever calls are made on a fresh handle: there is one request on the wire per call that changes
something and none for the others; such a call returns whether the request was accepted, the others return
`false`, none fails. -/
theorem C18_calls {c cs tr h bs} (hr : ((Control.new c).calls cs).Runs tr (h, bs)) :
    h.paused = decide ((Call.resume :: cs).getLast (by simp) = .pause) ∧
    ∃ outs, tr = outs.map (fun b => (⟨.send .ctl c (), b⟩ : Ev)) ∧
      outs.length = (effective .resume cs).length ∧ bs = returned .resume cs outs := by
  obtain ⟨_, h2, h3⟩ := calls_runs hr
  refine ⟨?_, h3⟩
  have : lastCall (Control.new c) = .resume := rfl
  rw [this] at h2
  rw [← h2]
  cases hp : h.paused <;> simp [lastCall, hp]

/-- **C18** The requests on the wire are pause, resume, pause, ... -/
theorem C18_alternate (cs : List Call) (i : Nat) (hi : i < (effective .resume cs).length) :
    (effective .resume cs)[i] = if i % 2 = 0 then .pause else .resume := by
  have key : ∀ (cs : List Call) (last : Call) (i : Nat) (hi : i < (effective last cs).length),
      (effective last cs)[i] = if i % 2 = 0 then (if last = .resume then .pause else .resume) else last := by
    intro cs
    induction cs with
    | nil => intro last i hi; simp [effective] at hi
    | cons x xs ih =>
      intro last i hi
      by_cases hx : x = last
      · subst hx; simp only [effective, if_true] at hi ⊢; exact ih _ _ hi
      · simp only [effective, if_neg hx] at hi ⊢
        cases i with
        | zero => cases x <;> cases last <;> simp at hx ⊢
        | succ i =>
          simp only [List.getElem_cons_succ]
          rw [ih x i (by simpa using hi)]
          rcases Nat.mod_two_eq_zero_or_one i with h | h
          · have : (i + 1) % 2 = 1 := by omega
            simp [h, this]
            cases x <;> cases last <;> simp at hx ⊢
          · have : (i + 1) % 2 = 0 := by omega
            simp [h, this]
            cases x <;> cases last <;> simp at hx ⊢
  rw [key cs .resume i hi]; simp

/-- **C18** Repeating calls makes no difference: the calls can produce exactly the traces, and the final state, that the calls
without repetitions can. -/
theorem C18_idempotent (c : Nat) (cs : List Call) (tr : List Ev) (h : Control) :
    (∃ bs, ((Control.new c).calls cs).Runs tr (h, bs)) ↔
    (∃ bs, ((Control.new c).calls (effective .resume cs)).Runs tr (h, bs)) := by
  have key : ∀ (cs : List Call) (h0 : Control) (tr : List Ev),
      (∃ bs, (h0.calls cs).Runs tr (h, bs)) ↔ (∃ bs, (h0.calls (effective (lastCall h0) cs)).Runs tr (h, bs)) := by
    intro cs
    induction cs with
    | nil => intro h0 tr; exact Iff.rfl
    | cons x xs ih =>
      intro h0 tr
      have unf : ∀ ys : List Call, (∃ bs, (h0.calls (x :: ys)).Runs tr (h, bs)) ↔
          ∃ t1 h1 b t2, tr = t1 ++ t2 ∧ (h0.call x).Runs t1 (h1, b) ∧ ∃ bs, (h1.calls ys).Runs t2 (h, bs) := by
        intro ys
        constructor
        · rintro ⟨bs, hr⟩
          simp only [Control.calls] at hr
          rw [Prog.runs_bind] at hr
          obtain ⟨t1, ⟨h1, b⟩, t2, rfl, hc, h2⟩ := hr
          simp only [] at h2
          rw [Prog.runs_bind] at h2
          obtain ⟨t3, ⟨h2', bs'⟩, t4, rfl, hcs, h3⟩ := h2
          simp at h3
          obtain ⟨rfl, rfl, rfl⟩ := h3
          exact ⟨t1, h1, b, t3, by simp, hc, bs', hcs⟩
        · rintro ⟨t1, h1, b, t2, rfl, hc, bs, hcs⟩
          refine ⟨b :: bs, ?_⟩
          simp only [Control.calls]
          rw [Prog.runs_bind]
          refine ⟨t1, (h1, b), t2, rfl, hc, ?_⟩
          simp only []
          rw [Prog.runs_bind]
          exact ⟨t2, (h, bs), [], by simp, hcs, by simp⟩
      have lc : ∀ c, lastCall ⟨decide (x = .pause), c⟩ = x := by intro c; cases x <;> simp [lastCall]
      by_cases hx : x = lastCall h0
      · have same : ∀ {t1 h1 b}, (h0.call x).Runs t1 (h1, b) ↔ t1 = [] ∧ h1 = h0 ∧ b = false := by
          intro t1 h1 b
          constructor
          · intro hc
            obtain ⟨h1', hd⟩ := call_runs hc
            rcases hd with ⟨_, h2, h3⟩ | ⟨h2, _⟩
            · refine ⟨h2, ?_, h3⟩
              rw [h1']; obtain ⟨p, c⟩ := h0
              cases p <;> cases x <;> simp [lastCall] at hx ⊢
            · exact absurd hx h2
          · rintro ⟨rfl, rfl, rfl⟩
            obtain ⟨p, c⟩ := h1
            cases p <;> cases x <;> simp [lastCall] at hx <;> exact ⟨rfl, rfl⟩
        rw [unf]
        simp only [effective, if_pos hx]
        rw [← ih]
        constructor
        · rintro ⟨t1, h1, b, t2, rfl, hc, hcs⟩
          obtain ⟨rfl, rfl, rfl⟩ := same.mp hc
          exact hcs
        · intro hcs; exact ⟨[], h0, false, tr, rfl, same.mpr ⟨rfl, rfl, rfl⟩, hcs⟩
      · simp only [effective, if_neg hx]
        rw [unf, unf]
        constructor
        · rintro ⟨t1, h1, b, t2, rfl, hc, hcs⟩
          refine ⟨t1, h1, b, t2, rfl, hc, ?_⟩
          obtain ⟨rfl, _⟩ := call_runs hc
          have := (ih ⟨decide (x = .pause), h0.chan⟩ t2).mp hcs
          rwa [lc] at this
        · rintro ⟨t1, h1, b, t2, rfl, hc, hcs⟩
          refine ⟨t1, h1, b, t2, rfl, hc, ?_⟩
          obtain ⟨rfl, _⟩ := call_runs hc
          apply (ih ⟨decide (x = .pause), h0.chan⟩ t2).mpr
          rwa [lc]
  exact key cs (Control.new c) tr

/-- **C18** Once a regulator has ended without failing, no request on its control channel is ever accepted again, none
blocks: refusal is possible at once. -/
theorem C18_after_end {ι : Type} [DecidableEq ι] {cap sys} {r : ι} {τ₁ τ₂ : List (ι × Ev)} {pull push spy c n}
    (hE : Execution cap sys (τ₁ ++ τ₂)) (hp : pull ≠ .none)
    (hend : ∃ t1 t2, proj r τ₁ = t1 ++ t2 ∧ LoopRuns (regulatorBody pull push spy (some c)) 0 t1 (.ok n)) :
    (∀ x ∈ τ₂, ∀ b, x.2 = ⟨.send .ctl c (), b⟩ → b = false) ∧
    ∃ st, execAll cap Store.init ((τ₁ ++ τ₂).map Prod.snd) = some st ∧
      exec cap st ⟨.send .ctl c (), false⟩ = some st := by
  obtain ⟨st3, hst⟩ := Option.isSome_iff_exists.mp hE.chans
  obtain ⟨t1, t2, hproj, hrun⟩ := hend
  have hc : closedIn .ctl c (τ₁.map Prod.snd) := by
    have := C17_closes hrun hp
    simp only [Option.map_some, Option.toList_some] at this
    have hm : (Kind.ctl, c) ∈ closings t1 := by
      rw [closings_append, (drops_idle _).2, List.append_assoc] at this
      have := List.append_cancel_right (as := closings t1) (bs := push.owned ++ pull.owned) this
      rw [this]; simp
    unfold closings at hm
    rw [List.mem_filterMap] at hm
    obtain ⟨a, ha, hac⟩ := hm
    simp only [acts, List.mem_map] at ha
    obtain ⟨e, he, rfl⟩ := ha
    have hcl : closesChan .ctl c e = true := by
      have : act e = .close .ctl c := by
        cases hx : act e <;> rw [hx] at hac <;> simp at hac
        rw [hac.1, hac.2]
      obtain ⟨q, rr⟩ := e
      cases q with
      | close k' c' =>
        have : Act.close k' c' = Act.close .ctl c := this
        simp at this; simp [closesChan, this]
      | recv k c' => cases k <;> cases rr <;> simp [act] at this
      | tryRecv k c' => cases k <;> cases rr <;> simp [act] at this
      | send k c' => cases k <;> simp [act] at this
      | streamRead => cases rr <;> simp [act] at this
      | ioWrite => cases rr <;> simp [act] at this
      | _ => simp [act] at this
    have he' : e ∈ proj r τ₁ := by rw [hproj]; simp [he]
    exact ⟨e, List.mem_map.mpr ⟨(r, e), mem_proj.mp he', rfl⟩, hcl⟩
  rw [List.map_append] at hst
  obtain ⟨st1, hst1, hst2⟩ := execAll_split hst
  have hcl1 := (closed_iff hst1 .ctl c).mpr (Or.inr hc)
  constructor
  · intro x hx b hb
    obtain ⟨a1, a2, hsplit⟩ := List.append_of_mem hx
    rw [hsplit, List.map_append, List.map_cons] at hst2
    obtain ⟨s1, g1, hst2⟩ := execAll_split hst2
    obtain ⟨s2, g2, hst2⟩ := execAll_cons hst2
    rw [hb] at g2
    cases b with
    | false => rfl
    | true =>
      have := (exec_send g2).1
      have h2 := (closed_iff g1 .ctl c).mpr (Or.inl hcl1)
      rw [h2] at this; simp at this
  · refine ⟨st3, by rw [List.map_append, execAll_append, hst1]; exact hst2, ?_⟩
    have h2 := (closed_iff hst2 .ctl c).mpr (Or.inl hcl1)
    simp [exec, h2]

/-- Pausing twice and resuming: two requests. -/
example : ((Control.new 5).calls [.pause, .pause, .resume]).Runs
    [⟨.send .ctl 5 (), true⟩, ⟨.send .ctl 5 (), true⟩] (⟨false, 5⟩, [true, false, true]) ∧
    effective .resume [.pause, .pause, .resume] = [.pause, .resume] :=
  ⟨⟨true, _, rfl, true, _, rfl, rfl, rfl⟩, rfl⟩

end Verif
