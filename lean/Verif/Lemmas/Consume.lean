import Verif.Lemmas.Collected
import Verif.Props.JunctionEnd
import Verif.Lemmas.Ruin
/-!
# What components do about receivers that are gone
-/
namespace Verif

/-- What a part writes to, with the pipe variations. -/
def Node.pushs : Node → List Push
  | .relay _ _ _ push => [push]
  | .regulator _ push _ _ => [push]
  | .junction _ pushs _ => pushs

section
variable {S : End → Prop}

/-- A part that has ended without anything fatal has read everything there was, unless it may stop when nobody listens. -/
theorem node_ends_well {n : Node} {tr : List Ev} (hfit : n.Fits S) (hok : n.Ok) (h : n.task.Done tr) (hq : ¬ Failed S tr) (hx : ∃ p ∈ n.pushs, p.breakable ≠ .finish) :
    Finished n.sources n.targets tr := by
  cases n with
  | relay pull mon spy push =>
    obtain ⟨p, hp, hx⟩ := hx
    simp only [Node.pushs, List.mem_singleton] at hp
    subst hp
    obtain ⟨r, t1, hr, rfl⟩ := h
    have hr : LoopRuns (motionBody pull mon spy p) 0 t1 r := hr
    have := (relay_honest (pull := pull) (mon := mon) (spy := spy) hfit).runs_ok trivial hr
    cases r with
    | error e => exact absurd (failed_append.mpr (Or.inl (Falls.failed this))) hq
    | ok n => exact relay_ends hr hok.2.1 (fun c hc => hok.2.2 c hc.1 hc.2) (Or.inl hx)
  | regulator pull push spy ctl =>
    obtain ⟨p, hp, hx⟩ := hx
    simp only [Node.pushs, List.mem_singleton] at hp
    subst hp
    obtain ⟨r, t1, hr, rfl⟩ := h
    have hr : LoopRuns (regulatorBody pull p spy ctl) 0 t1 r := hr
    have := (regulator_honest (pull := pull) (spy := spy) (ctl := ctl) hfit).runs_ok trivial hr
    cases r with
    | error e => exact absurd (failed_append.mpr (Or.inl (Falls.failed this))) hq
    | ok n => exact regulator_ends hr hok.2 (Or.inl hx)
  | junction inputs pushs spy =>
    obtain ⟨r, t1, hr, htr⟩ := h
    have : tr = t1 := by rw [htr]; exact List.append_nil _
    subst this
    have hr : JunctionRuns inputs pushs spy tr r := hr
    have := (junction_honest (spy := spy) hfit.2).runs_ok (by
      intro p hp
      obtain ⟨x, hx, rfl⟩ := List.mem_map.mp (mem_init.mp hp)
      exact hfit.1 x hx) hr
    cases r with
    | error e => exact absurd (Falls.failed this) hq
    | ok n => exact junction_ends hr hok (Or.inl hx)

/-- A loop and what it drops. -/
theorem HonestLoop.task {σ α : Type} {body : σ → Prog (σ ⊕ Except MErr α)} {P : σ → Prop} (h : HonestLoop S body P) {s : σ} (hs : P s) {l : List (Kind × Nat)} {a b : List Ev} {e : Ev}
    (hp : LoopPartial body s (a ++ e :: b) ∨ ∃ r t1 t2, LoopRuns body s t1 r ∧ t2 <+: dropEvs l ∧ a ++ e :: b = t1 ++ t2) (hf : (act e).fatal S) : DropsOnly b := by
  rcases hp with hp | ⟨r, t1, t2, h1, h2, h3⟩
  · exact h.stops hs hp hf
  · have hd : DropsOnly t2 := (dropsOnly_drops (l := l)).sub fun e he => h2.subset he
    have hfail : Failed S (t1 ++ t2) := by rw [← h3]; exact ⟨act e, by simp [acts], hf⟩
    rw [failed_append] at hfail
    have h4 := h.runs_ok hs h1
    cases r with
    | ok n => exact absurd (hfail.resolve_right hd.calm) h4
    | error x =>
      have : Falls S (t1 ++ t2) := Falls.and h4 hd
      rw [← h3] at this
      exact this.rest hf

/-- After something fatal a part does nothing any more but drop things. -/
theorem node_stops {n : Node} {a b : List Ev} {e : Ev} (hfit : n.Fits S) (h : n.task.Partial (a ++ e :: b)) (hf : (act e).fatal S) : DropsOnly b := by
  cases n with
  | relay pull mon spy push => exact (relay_honest (pull := pull) (mon := mon) (spy := spy) hfit).task (s := 0) trivial h hf
  | regulator pull push spy ctl => exact (regulator_honest (pull := pull) (spy := spy) (ctl := ctl) hfit).task (s := 0) trivial h hf
  | junction inputs pushs spy =>
    exact (junction_honest (spy := spy) hfit.2).task (s := junctionInit inputs) (by
      intro p hp
      obtain ⟨x, hx, rfl⟩ := List.mem_map.mp (mem_init.mp hp)
      exact hfit.1 x hx) h hf

/-! ## Giving up -/

/-- Without a way to go on, a refused message is the last. -/
theorem worker_gives_up {pull mon push spy tr} {r : Except MErr WorkerResult} (h : MRuns (motionWorker pull mon [push] spy false) tr r) (hb : push.breakable ≠ .consume) {o : Offer}
    (ho : o ∈ offers tr) {why : ClosedReason} (hw : o.w = .closed why) : ∀ res, r = .ok res → res.finished = true := by
  rintro res rfl
  have c5 := C05_fan_out h
  have hne : received tr ≠ [] := by intro h0; rw [c5.2.1 h0] at ho; simp at ho
  obtain ⟨d, hd⟩ : ∃ d, received tr = [d] := by
    match hrv : received tr with
    | [] => exact absurd hrv hne
    | [d] => exact ⟨d, rfl⟩
    | _ :: _ :: _ => have := c5.1; rw [hrv] at this; simp at this
  obtain ⟨c1, c2, c3⟩ := C06_pipe_variations h d hd _ rfl
  obtain ⟨l1, _, l2⟩ := c3 res rfl
  have lone : ∃ y, outcomes [push] ((offers tr).map Offer.w) = [(push, y)] := by
    match hL : outcomes [push] ((offers tr).map Offer.w) with
    | [] => rw [hL] at l1; simp at l1
    | [(p, y)] => rw [hL] at l1; simp at l1; subst l1; exact ⟨y, rfl⟩
    | _ :: _ :: _ => rw [hL] at l1; simp at l1
  obtain ⟨y, hL⟩ := lone
  have hlen : (offers tr).length ≤ 1 := by
    have := congrArg List.length ((c5.2.2 d hd).2.1 res rfl)
    simp only [List.length_map] at this
    rw [this]
    exact (List.length_filterMap_le _ _)
  have hone : offers tr = [o] := by
    match hv : offers tr with
    | [] => rw [hv] at ho; simp at ho
    | [x] => rw [hv] at ho; simp at ho; rw [ho]
    | _ :: _ :: _ => rw [hv] at hlen; simp at hlen
  have hy : y = .closed why := by
    have htar := (c5.2.2 d hd).2.1 res rfl
    rw [hone] at hL htar
    cases push with
    | none =>
      rw [show [Push.none].filterMap Push.target = [] from rfl] at htar
      simp at htar
    | sender j c => simp [outcomes] at hL; rw [← hL, hw]
    | io j c => simp [outcomes] at hL; rw [← hL, hw]
  rw [l2, hL]
  intro z hz
  simp only [List.mem_singleton] at hz
  subst hz
  refine ⟨?_, why, hy⟩
  show push.breakable = .finish
  cases hv : push.breakable with
  | consume => exact absurd hv hb
  | finish => rfl
  | terminate =>
    obtain ⟨j, w, he⟩ := c1.mpr ⟨push, why, by rw [hL, hy]; simp, hv⟩
    cases he

/-- What comes behind an offer in a round. -/
theorem worker_last {pull mon push spy} {r : Except MErr WorkerResult} {a b : List Ev} {e : Ev} (h : MRuns (motionWorker pull mon [push] spy false) (a ++ e :: b) r) (hp : pull ≠ .none)
    (hm : mon.Apart) {t : End} {d : Bytes} {x : WOut} (he : act e = .offer t d x) : received b = [] ∧ offers b = [] := by
  have h1 := round_seen h hp hm (t := a ++ [e]) ⟨b, by simp⟩
  have h2 := round_seen h hp hm List.prefix_rfl
  have e1 : offers [e] = [⟨t, d, x⟩] := by simp [offers, acts, he]
  have l1 := h1.written.length_le
  have l2 := h2.written.length_le
  have l3 := h2.one
  have l4 := h1.one
  unfold heard at l3 l4
  rw [show a ++ e :: b = (a ++ [e]) ++ b by simp] at l2 l3
  simp only [List.length_map, offers_append, received_append, List.length_append, e1, List.length_singleton] at l1 l2 l3
  constructor
  · apply List.eq_nil_of_length_eq_zero; omega
  · apply List.eq_nil_of_length_eq_zero; omega

/-- Rounds that read and write once. -/
def Simple (pull : Pull) (mon : Notifications) (spy : Option Nat) (push : Push) {σ ρ : Type} (body : σ → Prog (σ ⊕ ρ)) : Prop :=
  ∀ s tr x, (body s).Runs tr x → ∃ r v1 v2, tr = v1 ++ v2 ∧ MRuns (motionWorker pull mon [push] spy false) v1 r ∧ received v2 = [] ∧ offers v2 = [] ∧
    ∀ s', x = .inl s' → ∃ res, r = .ok res ∧ res.finished = false

theorem relay_simple {pull mon spy push} : Simple pull mon spy push (motionBody pull mon spy push) := by
  intro s tr x h
  rcases motionBody_inv h with ⟨e, rfl, h1⟩ | ⟨res, v1, v2, rfl, hw, ⟨h1, rfl, rfl⟩ | ⟨hf, ⟨ha, rfl⟩ | ⟨j, hh, rfl, rfl, ha⟩⟩⟩
  · exact ⟨_, tr, [], by simp, h1, rfl, rfl, by simp⟩
  · exact ⟨_, v1, [], rfl, hw, rfl, rfl, fun s' hs => ⟨res, rfl, h1⟩⟩
  · have := closeActs_proj ha
    exact ⟨_, v1, v2, rfl, hw, this.2.1, this.2.2.1, by simp⟩
  · exact ⟨_, v1, v2, rfl, hw, by simp [received, ha], by simp [offers, ha], by simp⟩

theorem regulator_simple {pull spy push ctl} : Simple pull {} spy push (regulatorBody pull push spy ctl) := by
  intro s tr x h
  obtain ⟨r, v1, v2, rfl, hw, h2⟩ := regulatorBody_inv h
  rcases h2 with ⟨res, rfl, hf, hc, rfl⟩ | ⟨res, rfl, hf, hc, rfl⟩ | ⟨e, rfl, rfl, rfl⟩
  · have := closeControl_idle hc
    exact ⟨_, v1, v2, rfl, hw, this.1.received, this.1.offers, by simp⟩
  · have := controlPoint_idle hc
    exact ⟨_, v1, v2, rfl, hw, this.1.received, this.1.offers, fun s' _ => ⟨res, rfl, hf⟩⟩
  · exact ⟨_, v1, [], rfl, hw, rfl, rfl, by simp⟩

theorem mem_offers_cons {a b : List Ev} {e : Ev} {t : End} {d : Bytes} {x : WOut} (he : act e = .offer t d x) : (⟨t, d, x⟩ : Offer) ∈ offers (a ++ e :: b) :=
  mem_offers.mpr (by simp [acts, he])

/-- Where an event is. -/
theorem split_at {a b t u : List Ev} {e : Ev} (h : a ++ e :: b = t ++ u) : (∃ b', t = a ++ e :: b' ∧ b = b' ++ u) ∨ ∃ a', a = t ++ a' ∧ u = a' ++ e :: b := by
  rw [List.append_eq_append_iff] at h
  rcases h with ⟨z, h1, h2⟩ | ⟨z, h1, h2⟩
  · cases z with
    | nil => right; exact ⟨[], by simpa using h1.symm, by simpa using h2.symm⟩
    | cons y z =>
      simp only [List.cons_append, List.cons.injEq] at h2
      obtain ⟨rfl, rfl⟩ := h2
      exact Or.inl ⟨z, h1, rfl⟩
  · exact Or.inr ⟨z, h1, h2⟩

theorem Simple.gives_up {pull mon spy push} {σ ρ : Type} {body : σ → Prog (σ ⊕ ρ)} (H : Simple pull mon spy push body) (hp : pull ≠ .none) (hm : mon.Apart) (hb : push.breakable ≠ .consume)
    {s : σ} {l : List (Kind × Nat)} {a b : List Ev} {e : Ev} {t : End} {d : Bytes} {why : ClosedReason}
    (h : LoopPartial body s (a ++ e :: b) ∨ ∃ r t1 t2, LoopRuns body s t1 r ∧ t2 <+: dropEvs l ∧ a ++ e :: b = t1 ++ t2) (he : act e = .offer t d (.closed why)) :
    received b = [] ∧ offers b = [] := by
  have quiet : ∀ {s s' t1}, LoopRounds body s t1 s' → ∀ o ∈ offers t1, ∀ why, o.w ≠ .closed why := by
    intro s s' t1 h1
    clear h
    induction h1 with
    | nil => simp
    | next h1 _ ih =>
      intro o ho why hw
      rw [offers_append, List.mem_append] at ho
      rcases ho with ho | ho
      · obtain ⟨r, v1, v2, rfl, g1, g2, g3, g4⟩ := H _ _ _ h1
        rw [offers_append, g3, List.append_nil] at ho
        obtain ⟨res, rfl, hf⟩ := g4 _ rfl
        rw [worker_gives_up g1 hb ho hw res rfl] at hf; cases hf
      · exact ih o ho why hw
  have part : ∀ {a b}, LoopPartial body s (a ++ e :: b) → received b = [] ∧ offers b = [] := by
    rintro a b ⟨s', t1, t2, h1, h2, h3⟩
    rcases split_at h3 with ⟨b', rfl, _⟩ | ⟨a', rfl, rfl⟩
    · exact absurd rfl (quiet h1 _ (mem_offers_cons he) why)
    · obtain ⟨t3, x, h5⟩ := h2.extend
      obtain ⟨r, v1, v2, hv, g1, g2, g3, _⟩ := H _ _ _ h5
      rw [List.append_assoc, List.cons_append] at hv
      rcases split_at hv with ⟨b', rfl, hb'⟩ | ⟨a'', _, rfl⟩
      · obtain ⟨h6, h7⟩ := worker_last g1 hp hm he
        have r1 : received (b ++ t3) = [] := by rw [hb', received_append, h6, g2]; rfl
        have r2 : offers (b ++ t3) = [] := by rw [hb', offers_append, h7, g3]; rfl
        rw [received_append] at r1
        rw [offers_append] at r2
        exact ⟨(List.append_eq_nil_iff.mp r1).1, (List.append_eq_nil_iff.mp r2).1⟩
      · have := mem_offers_cons (a := a'') (b := b ++ t3) he
        rw [g3] at this; simp at this
  rcases h with h | ⟨r, t1, t2, h1, h2, h3⟩
  · exact part h
  · obtain ⟨d1, _, d3, _⟩ := drops_acts h2
    rcases split_at h3 with ⟨b', rfl, rfl⟩ | ⟨a', _, rfl⟩
    · obtain ⟨h4, h5⟩ := part h1.toPartial
      rw [received_append, offers_append, h4, h5, d1, d3]; exact ⟨rfl, rfl⟩
    · have := mem_offers_cons (a := a') (b := b) he
      rw [d3] at this; simp at this

/-- A part with one output that is not to go on when nobody listens does not. -/
theorem node_gives_up {n : Node} {a b : List Ev} {e : Ev} (hok : n.Ok) (hj : ∀ ins outs spy, n ≠ .junction ins outs spy) (hb : ∀ p ∈ n.pushs, p.breakable ≠ .consume)
    (h : n.task.Partial (a ++ e :: b)) {t : End} {d : Bytes} {why : ClosedReason} (he : act e = .offer t d (.closed why)) : received b = [] ∧ offers b = [] := by
  cases n with
  | relay pull mon spy push => exact relay_simple.gives_up (s := 0) hok.2.1 (fun c hc => hok.2.2 c hc.1 hc.2) (hb _ (by simp [Node.pushs])) h he
  | regulator pull push spy ctl => exact regulator_simple.gives_up (s := 0) hok.2 apart_nil (hb _ (by simp [Node.pushs])) h he
  | junction inputs pushs spy => exact absurd rfl (hj _ _ _)

/-- What has ended has closed its inputs. -/
theorem node_shuts {n : Node} {tr : List Ev} (hok : n.Ok) (h : n.task.Done tr) {ch : Nat} (hs : .chan ch ∈ n.sources) : (Kind.data, ch) ∈ closings tr := by
  cases n with
  | relay pull mon spy push =>
    refine done_drops h ?_
    show _ ∈ (relayTask pull mon spy push).drops
    simp [relayTask, source_owned (show pull.source = some (.chan ch) by simpa [Node.sources] using hs)]
  | regulator pull push spy ctl =>
    refine done_drops h ?_
    show _ ∈ (regulatorTask pull push spy ctl).drops
    simp [regulatorTask, source_owned (show pull.source = some (.chan ch) by simpa [Node.sources] using hs)]
  | junction inputs pushs spy =>
    obtain ⟨r, t1, hr, htr⟩ := h
    have : tr = t1 := by rw [htr]; exact List.append_nil _
    subst this
    obtain ⟨hdis, hi, hd, hse, hn, hne⟩ := hok
    obtain ⟨⟨p, k⟩, hx, hxs⟩ := List.mem_filterMap.mp hs
    obtain ⟨j, c, rfl⟩ : ∃ j c, p = .receiver j c := hi _ hx
    simp only [Pull.source, Option.some.injEq, End.chan.injEq] at hxs
    subst hxs
    exact mem_closings.mpr (junction_shuts hd hse hr hx)

end

section
variable {c : Config} {hs : List Hop} {w : Waiter}

/-- The pipe variations with which parts write are those of the hops. -/
theorem Assembled.varies (A : Assembled c hs w) {r : CompRef} {p : Piece} {n : Node} (h : w.node (.part r p) = some n) :
    ∀ q ∈ n.pushs, ∀ ch, q.target = some (.chan ch) → (∀ g, hs[ch]? = some g → q.breakable = g.input.breakable) ∧
      (hs.length ≤ ch → ∀ g ∈ hs, g.from = r → q.breakable = g.input.breakable) := by
  obtain ⟨r', p', k, e, hm, _, he, hn⟩ := A.node_inv h
  simp only [Who.part.injEq] at e
  obtain ⟨rfl, rfl⟩ := e
  have key : ∀ {o : PushEnd} {P}, o ∈ pushEnds w.idOf hs.zipIdx P → ∀ ch, o.push.target = some (.chan ch) →
      (∀ g, hs[ch]? = some g → o.push.breakable = g.input.breakable) ∧ (hs.length ≤ ch → ∀ g ∈ hs, g.from = r → o.push.breakable = g.input.breakable) := by
    intro o P ho ch ht
    obtain ⟨i, h, e1, e2, rfl⟩ := mem_pushEnds.mp ho
    cases ht
    refine ⟨fun g hg => ?_, fun hl => ?_⟩
    · have hg : hs[i]? = some g := hg
      rw [e1] at hg; cases hg; rfl
    · have := get?_lt e1
      exact absurd hl (by show ¬ hs.length ≤ i; omega)
  have head : ∀ {o P}, (pushEnds w.idOf hs.zipIdx P).head? = some o → o ∈ pushEnds w.idOf hs.zipIdx P := fun ho => List.mem_of_mem_head? (by rw [ho]; rfl)
  cases hr : r.1 with
  | faucet =>
    rw [expected_faucet _ _ _ _ hr] at he
    rw [plain_faucet he] at hn
    cases ho : (pushEnds w.idOf hs.zipIdx fun h => h.from = r).head? with
    | none => rw [ho] at hn; cases p <;> simp [Comp.node] at hn
    | some o =>
      rw [ho] at hn
      cases p <;> simp [Comp.node] at hn
      subst hn
      intro q hq
      simp only [Node.pushs, List.mem_singleton] at hq
      subst hq
      exact key (head ho)
  | drain =>
    rw [expected_drain _ _ _ _ hr] at he
    rw [plain_drain he] at hn
    cases ho : (pullEnds w.idOf hs.zipIdx fun h => h.to = r).head?.map Prod.fst with
    | none => rw [ho] at hn; cases p <;> simp [Comp.node] at hn
    | some o =>
      rw [ho] at hn
      cases p <;> simp [Comp.node] at hn
      subst hn
      intro q hq ch ht
      simp only [Node.pushs, List.mem_singleton] at hq
      subst hq
      unfold drainPush at ht
      split at ht <;> cases ht
  | regulator =>
    rw [expected_regulator _ _ _ _ hr] at he
    obtain ⟨m, rfl⟩ := plain_regulator he
    cases hi : (pullEnds w.idOf hs.zipIdx fun h => h.to = r).head?.map Prod.fst with
    | none => rw [hi] at hn; cases p <;> simp [Comp.node] at hn
    | some i =>
      cases ho : (pushEnds w.idOf hs.zipIdx fun h => h.from = r).head? with
      | none => rw [ho, hi] at hn; cases p <;> simp [Comp.node] at hn
      | some o =>
        rw [ho, hi] at hn
        cases p <;> simp [Comp.node] at hn
        subst hn
        intro q hq
        simp only [Node.pushs, List.mem_singleton] at hq
        subst hq
        exact key (head ho)
  | buffer =>
    rw [expected_buffer _ _ _ _ hr] at he
    obtain ⟨m, rfl⟩ := plain_buffer he
    cases hi : (pullEnds w.idOf hs.zipIdx fun h => h.to = r).head?.map Prod.fst with
    | none => rw [hi] at hn; cases p <;> simp [Comp.node] at hn
    | some i =>
      cases ho : (pushEnds w.idOf hs.zipIdx fun h => h.from = r).head? with
      | none => rw [ho, hi] at hn; cases p <;> simp [Comp.node] at hn
      | some o =>
        rw [ho, hi] at hn
        cases p <;> simp [Comp.node] at hn
        · subst hn
          intro q hq ch ht
          simp only [Node.pushs, List.mem_singleton] at hq
          subst hq
          cases ht
          refine ⟨fun g hg => ?_, fun _ g hg hgr => ?_⟩
          · have := get?_lt hg
            rw [A.chans] at this; omega
          · obtain ⟨j, g', e1, e2, e3⟩ := mem_pushEnds.mp (head ho)
            obtain ⟨j', hg⟩ := List.getElem?_of_mem hg
            have := (A.headFrom (by simp [hr]) (by simp [hr]) ho j').mpr ⟨g, hg, hgr⟩
            rw [e3] at this
            have : j' = j := this
            subst this
            rw [e1] at hg; cases hg
            rw [e3]; rfl
        · subst hn
          intro q hq
          simp only [Node.pushs, List.mem_singleton] at hq
          subst hq
          exact key (head ho)
  | junction =>
    rw [expected_junction _ _ _ _ hr] at he
    rw [plain_junction he] at hn
    cases p <;> simp [Comp.node] at hn
    subst hn
    intro q hq
    obtain ⟨o, ho, rfl⟩ := List.mem_map.mp hq
    exact key ho
  | launch =>
    rw [expected_launch _ _ _ _ hr] at he
    rw [plain_launch he] at hn
    cases p with
    | input =>
      obtain ⟨h1, rfl⟩ := relayNode_some (by simpa only [Comp.node] using hn)
      intro q hq ch ht
      simp only [Node.pushs, List.mem_singleton] at hq
      subst hq
      simp only [LaunchEnds.pipe, LaunchEnds.toInput] at ht
      split at ht <;> cases ht
    | output =>
      obtain ⟨h1, rfl⟩ := relayNode_some (by simpa only [Comp.node] using hn)
      cases ho : (pushEnds w.idOf hs.zipIdx fun h => h.src = ⟨.launch, r.2, .out⟩).head? with
      | none => simp [LaunchEnds.pipe, fromStream, ho] at h1
      | some o =>
        simp only [LaunchEnds.pipe, fromStream, ho]
        intro q hq
        simp only [Node.pushs, List.mem_singleton] at hq
        subst hq
        exact key (head ho)
    | error =>
      obtain ⟨h1, rfl⟩ := relayNode_some (by simpa only [Comp.node] using hn)
      cases ho : (pushEnds w.idOf hs.zipIdx fun h => h.src = ⟨.launch, r.2, .err⟩).head? with
      | none => simp [LaunchEnds.pipe, fromStream, ho] at h1
      | some o =>
        simp only [LaunchEnds.pipe, fromStream, ho]
        intro q hq
        simp only [Node.pushs, List.mem_singleton] at hq
        subst hq
        exact key (head ho)
    | main => simp [Comp.node] at hn
    | exit => simp [Comp.node] at hn
    | count => simp [Comp.node] at hn

end
end Verif
