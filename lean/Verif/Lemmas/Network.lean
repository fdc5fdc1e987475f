import Verif.Lemmas.ConductJunction
import Verif.Lemmas.Only
import Verif.Spec.Network
/-!
# Components in networks
-/
namespace Verif

/-! ## Which channels a component touches -/

theorem act_close {e : Ev} {k : Kind} {c : Nat} (h : act e = .close k c) : e.q = .close k c := by
  obtain ⟨q, r⟩ := e
  cases q with
  | recv k c' => cases k <;> cases r <;> simp [act] at h
  | tryRecv k c' => cases k <;> cases r <;> simp [act] at h
  | send k c' v => cases k <;> cases r <;> simp [act] at h
  | ioWrite h d => cases r <;> simp [act] at h
  | streamRead h => cases r <;> simp [act] at h
  | close k' c' => simp [act] at h; rw [h.1, h.2]
  | _ => simp [act] at h

theorem act_sleep {e : Ev} {n : Nat} (h : act e = .sleep n) : e.q.on = none := by
  obtain ⟨q, r⟩ := e
  cases q with
  | recv k c' => cases k <;> cases r <;> simp [act] at h
  | tryRecv k c' => cases k <;> cases r <;> simp [act] at h
  | send k c' v => cases k <;> cases r <;> simp [act] at h
  | ioWrite h d => cases r <;> simp [act] at h
  | streamRead h => cases r <;> simp [act] at h
  | close k' c' => simp [act] at h
  | stat k' c' => simp [act] at h
  | _ => rfl

theorem mem_pollTrace {ws : List Poll} {e : Ev} (h : e ∈ pollTrace ws) : ∃ w ∈ ws, e ∈ w.tr := by
  unfold pollTrace at h
  rw [List.mem_flatten] at h
  obtain ⟨t, ht, he⟩ := h
  obtain ⟨w, hw, rfl⟩ := List.mem_map.mp ht
  exact ⟨w, hw, he⟩

theorem pass_pulls {pushs spy G k ws1 ws2} (hp : Pass pushs spy G k ws1 ws2) : ∀ w ∈ ws1 ++ ws2, w.pull ∈ G.flatten := by
  intro w hw
  rw [List.mem_append] at hw
  rcases hw with hw | hw
  · have : w.pull ∈ (G.take k).flatten := by
      rw [← hp.before]; exact List.mem_map.mpr ⟨w, hw, rfl⟩
    rw [List.mem_flatten] at this ⊢
    obtain ⟨g, h1, h2⟩ := this
    exact ⟨g, (List.take_sublist _ _).subset h1, h2⟩
  · have := hp.group.subset (List.mem_map.mpr ⟨w, hw, rfl⟩)
    rw [List.mem_flatten]
    cases hg : G[k]? with
    | none => rw [hg] at this; simp at this
    | some g => rw [hg] at this; exact ⟨g, List.mem_of_getElem? hg, by simpa using this⟩

theorem pass_runs {pushs spy G k ws1 ws2} (hp : Pass pushs spy G k ws1 ws2) : ∀ w ∈ ws1 ++ ws2, PollRun pushs spy w := by
  intro w hw
  rw [List.mem_append] at hw
  rcases hw with hw | hw
  · exact hp.runs1 w hw
  · exact hp.runs2 w hw

theorem dropActs_owned {p : Pull} {k c} (h : Act.close k c ∈ dropActs p) : (k, c) ∈ p.owned := by
  cases p <;> simp [dropActs] at h
  obtain ⟨rfl, rfl⟩ := h; simp [Pull.owned]

theorem junctionBody_within {pushs spy s tr L} (hs : AllSenders pushs) (h : (junctionBody pushs spy s).Partial tr)
    (h1 : ∀ p ∈ s.stdin.flatten, ∀ kc ∈ p.owned, kc ∈ L) (h2 : ∀ p ∈ pushs, ∀ kc ∈ p.owned, kc ∈ L)
    (h3 : ∀ c, spy = some c → (Kind.spy, c) ∈ L) : ∀ e ∈ tr, Within L e.q := by
  obtain ⟨t3, x, hrun⟩ := h.extend
  obtain ⟨k, ws1, ws2, tail, htr, hp, hend⟩ := junctionBody_inv hrun hs
  intro e he
  have he' : e ∈ tr ++ t3 := by simp [he]
  rw [htr, List.mem_append] at he'
  rcases he' with he' | he'
  · obtain ⟨w, hw, hew⟩ := mem_pollTrace he'
    have hr := pass_runs hp w hw
    exact (motionWorker_only (mon := {}) (h1 _ (pass_pulls hp w hw)) h2 h3 (by simp) (by simp)).partial
      (Prog.runs_partial (show Prog.Runs _ w.tr w.res from hr)) e hew
  · have ha : act e ∈ acts tail := List.mem_map.mpr ⟨e, he', rfl⟩
    have hsleep : ∀ n, act e = .sleep n → Within L e.q := by
      intro n hn kc hk; rw [act_sleep hn] at hk; simp at hk
    have hdrop : ∀ p ∈ s.stdin.flatten, act e ∈ dropActs p → Within L e.q := by
      intro p hp' hm kc hk
      obtain ⟨k', c', hc⟩ := dropActs_close hm
      rw [hc] at hm
      rw [act_close hc] at hk
      simp [Req.on] at hk
      rw [← hk]
      exact h1 p hp' _ (dropActs_owned hm)
    have hfin : act e ∈ finActs ws2 → Within L e.q := by
      intro hm
      obtain ⟨p, hp1, hp2⟩ := mem_finActs.mp hm
      obtain ⟨w, hw, rfl⟩ := List.mem_map.mp hp1
      exact hdrop _ (pass_pulls hp w (List.mem_append_right _ (List.mem_filter.mp hw).1)) hp2
    rcases hend with ⟨_, _, _, _, _, _, _, hx⟩ | ⟨_, _, ⟨_, _, _, _, _, ⟨_, hx, _⟩ | ⟨_, hx, _⟩⟩ | ⟨_, _, hx⟩⟩
    · rw [hx, List.mem_flatMap] at ha
      obtain ⟨p, hp1, hp2⟩ := ha
      exact hdrop p hp1 hp2
    · rw [hx] at ha; simp at ha; exact hsleep _ ha
    · rw [hx] at ha; exact hfin ha
    · rw [hx, List.mem_append] at ha
      rcases ha with ha | ha
      · exact hfin ha
      · rw [List.mem_flatMap] at ha
        obtain ⟨p, hp1, hp2⟩ := ha
        obtain ⟨j, c, rfl⟩ := hs p hp1
        simp [closeActs] at hp2
        intro kc hk
        rw [act_close hp2] at hk
        simp [Req.on] at hk
        rw [← hk]
        exact h2 _ hp1 _ (by simp [Push.owned])

theorem junction_within {inputs pushs spy s0 t0 D0 tr L} (hd : DistinctInputs inputs) (hs : AllSenders pushs)
    (h0 : JInv inputs pushs t0 s0 D0) (h : LoopPartial (junctionBody pushs spy) s0 tr)
    (h1 : ∀ p ∈ s0.stdin.flatten, ∀ kc ∈ p.owned, kc ∈ L) (h2 : ∀ p ∈ pushs, ∀ kc ∈ p.owned, kc ∈ L)
    (h3 : ∀ c, spy = some c → (Kind.spy, c) ∈ L) : ∀ e ∈ tr, Within L e.q := by
  obtain ⟨s, t1, t2, hr, hp, rfl⟩ := h
  induction hr generalizing t0 D0 with
  | nil => intro e he; exact junctionBody_within hs hp h1 h2 h3 e (by simpa using he)
  | @next a b c t t' hb hrest ih =>
    intro e he
    rw [List.append_assoc, List.mem_append] at he
    have hone : LoopRounds (junctionBody pushs spy) a (t ++ []) b := .next hb .nil
    obtain ⟨D1, hJ1, _⟩ := h0.rounds hd hs hone
    rcases he with he | he
    · exact junctionBody_within hs (Prog.runs_partial hb) h1 h2 h3 e he
    · exact ih hJ1 (fun p hp => h1 p (h0.shrink hd hs hone hp)) hp e he

theorem closeControl_only {L : List (Kind × Nat)} {ctl : Option Nat} (h : ∀ c, ctl = some c → (Kind.ctl, c) ∈ L) :
    (closeControl ctl).Only (Within L) := by
  cases ctl with
  | none => exact trivial
  | some c => exact Prog.only_req (by intro kc hk; simp [Req.on] at hk; subst hk; exact h _ rfl)

theorem controlPoint_only {L : List (Kind × Nat)} {ctl : Option Nat} (h : ∀ c, ctl = some c → (Kind.ctl, c) ∈ L) :
    (controlPoint ctl).Only (Within L) := by
  cases ctl with
  | none => exact trivial
  | some c =>
    have hc : ∀ {q : Req}, q.on = some (Kind.ctl, c) → Within L q := by
      intro q hq kc hk; rw [hq] at hk; simp at hk; subst hk; exact h _ rfl
    refine Prog.Only.bind (Prog.only_req (hc rfl)) ?_
    intro a
    cases a
    · exact Prog.Only.bind (Prog.only_req (hc rfl)) fun _ => trivial
    · exact trivial
    · exact trivial

/-- The channels a regulator uses. -/
def regulatorChans (pull : Pull) (push : Push) (spy ctl : Option Nat) : List (Kind × Nat) :=
  push.owned ++ (spy.map fun c => (Kind.spy, c)).toList ++ (ctl.map fun c => (Kind.ctl, c)).toList ++ pull.owned

theorem regulatorBody_only {pull push spy ctl n} :
    (regulatorBody pull push spy ctl n).Only (Within (regulatorChans pull push spy ctl)) := by
  have h1 : ∀ kc ∈ pull.owned, kc ∈ regulatorChans pull push spy ctl := by intro kc h; simp [regulatorChans, h]
  have h2 : ∀ p ∈ [push], ∀ kc ∈ Push.owned p, kc ∈ regulatorChans pull push spy ctl := by
    intro p hp kc h; simp at hp; subst hp; simp [regulatorChans, h]
  have h3 : ∀ c, spy = some c → (Kind.spy, c) ∈ regulatorChans pull push spy ctl := by rintro c rfl; simp [regulatorChans]
  have h4 : ∀ c, ctl = some c → (Kind.ctl, c) ∈ regulatorChans pull push spy ctl := by rintro c rfl; simp [regulatorChans]
  unfold regulatorBody
  refine Prog.Only.bind (p := ExceptT.run _) (motionWorker_only (mon := {}) h1 h2 h3 (by simp) (by simp)) ?_
  intro a
  rcases a with e | res
  · cases e with
    | outputClosed j why d =>
      dsimp only
      split
      · exact trivial
      · split
        · exact trivial
        · exact Prog.Only.bind (controlPoint_only h4) fun _ => trivial
    | _ => exact trivial
  · dsimp only
    split
    · exact Prog.Only.bind (closeControl_only h4) fun _ => trivial
    · exact Prog.Only.bind (controlPoint_only h4) fun _ => trivial

theorem owned_source {pull : Pull} {c : Nat} (h : (Kind.data, c) ∈ pull.owned) : pull.source = some (.chan c) := by
  cases pull <;> simp [Pull.owned] at h
  subst h; rfl

theorem owned_target {push : Push} {c : Nat} (h : (Kind.data, c) ∈ push.owned) : push.target = some (.chan c) := by
  cases push <;> simp [Push.owned] at h
  subst h; rfl

theorem pull_owned_data {pull : Pull} {k c} (h : (k, c) ∈ pull.owned) : k = .data := by
  cases pull <;> simp [Pull.owned] at h
  exact h.1

theorem push_owned_data {push : Push} {k c} (h : (k, c) ∈ push.owned) : k = .data := by
  cases push <;> simp [Push.owned] at h
  exact h.1

/-- A component touches no data channels other than those it reads from and writes to. -/
theorem node_within {n : Node} {tr} (hok : n.Ok) (h : n.task.Partial tr) {e : Ev} (he : e ∈ tr) {c : Nat}
    (hq : e.q.on = some (.data, c)) : .chan c ∈ n.sources ∨ .chan c ∈ n.targets := by
  cases n with
  | relay pull mon spy push =>
    have := relayTask_only h e he _ hq
    simp only [relayChans, List.mem_append] at this
    rcases this with (((h | h) | h) | h) | h
    · right; simp [Node.targets, owned_target h]
    · simp at h
    · simp at h
    · simp at h
    · left; simp [Node.sources, owned_source h]
  | regulator pull push spy ctl =>
    have h : (regulatorTask pull push spy ctl).Partial tr := h
    have := Task.only (P := Within (regulatorChans pull push spy ctl)) (fun s => regulatorBody_only) (by
      intro kc hkc x hx
      simp [Req.on] at hx
      subst hx
      simp only [regulatorTask, regulatorChans, List.mem_append] at hkc ⊢
      rcases hkc with h | h <;> simp [h]) h e he _ hq
    simp only [regulatorChans, List.mem_append] at this
    rcases this with ((h | h) | h) | h
    · right; simp [Node.targets, owned_target h]
    · simp at h
    · simp at h
    · left; simp [Node.sources, owned_source h]
  | junction inputs pushs spy =>
    obtain ⟨_, hi, hd, hs, _⟩ := hok
    have := junction_within (L := (inputs.map Prod.fst).flatMap Pull.owned ++ pushs.flatMap Push.owned ++
      (spy.map fun c => (Kind.spy, c)).toList) hd hs (JInv.init (pushs := pushs)) (junctionTask_partial h) ?_ ?_ ?_ e he _ hq
    · simp only [List.mem_append] at this
      rcases this with (h | h) | h
      · left
        obtain ⟨p, hp, hpo⟩ := List.mem_flatMap.mp h
        obtain ⟨x, hx, rfl⟩ := List.mem_map.mp hp
        exact List.mem_filterMap.mpr ⟨x, hx, owned_source hpo⟩
      · right
        obtain ⟨p, hp, hpo⟩ := List.mem_flatMap.mp h
        exact List.mem_filterMap.mpr ⟨p, hp, owned_target hpo⟩
      · simp at h
    · intro p hp kc hk
      have := (JInv.init (pushs := pushs)).mem.mp hp
      rw [List.append_assoc]
      exact List.mem_append_left _ (List.mem_flatMap.mpr ⟨p, this.1, hk⟩)
    · intro p hp kc hk
      exact List.mem_append_left _ (List.mem_append_right _ (List.mem_flatMap.mpr ⟨p, hp, hk⟩))
    · rintro c rfl; simp

/-! ## When a component closes what it reads from -/

theorem dropEvs_no_fails {l : List (Kind × Nat)} : ∀ a ∈ acts (dropEvs l), a.fails = false := by
  intro a ha
  simp [acts, dropEvs] at ha
  obtain ⟨k, c, _, rfl⟩ := ha
  rfl

theorem relay_closes {pull mon spy push tr c} (h : (relayTask pull mon spy push).Partial tr) (hp : pull ≠ .none) (hm : mon.Apart)
    (hs : pull.source = some (.chan c)) (ht : push.target ≠ some (.chan c)) (hc : (Kind.data, c) ∈ closings tr) :
    Act.ended (.chan c) ∈ acts tr ∨ ∃ a ∈ acts tr, a.fails = true := by
  rcases h with ⟨n, t1, t2, h1, h2, rfl⟩ | ⟨r, u1, u2, h, hd, rfl⟩
  · exfalso
    obtain ⟨k, _, _, _, i3, _⟩ := rounds_seen h1 hp hm
    rw [closings_append, i3, List.nil_append] at hc
    obtain ⟨t3, x, h3⟩ := h2.extend
    have hc : (Kind.data, c) ∈ closings (t2 ++ t3) := by rw [closings_append]; exact List.mem_append_left _ hc
    rcases motionBody_inv h3 with ⟨e, _, hw⟩ | ⟨res, u1, u2, hu, hw, hrest⟩
    · rw [(round_seen hw hp hm List.prefix_rfl).open_] at hc; simp at hc
    · rw [hu, closings_append, (round_seen hw hp hm List.prefix_rfl).open_, List.nil_append] at hc
      rcases hrest with ⟨_, rfl, _⟩ | ⟨_, ⟨hx, _⟩ | ⟨_, hh, _, _, hx⟩⟩
      · simp at hc
      · have := mem_closings.mp hc
        rw [hx] at this
        cases push with
        | sender j c' => simp [closeActs] at this; simp [Push.target, this] at ht
        | _ => simp [closeActs] at this
      · rw [(flush_proj hx).2.2.2.2] at hc; simp at hc
  · by_cases hf : ∃ a ∈ acts u1, a.fails = true
    · obtain ⟨a, ha, hb⟩ := hf
      exact Or.inr ⟨a, by simp [ha], hb⟩
    · left
      have hdone : (relayTask pull mon spy push).Done (u1 ++ dropEvs (relayTask pull mon spy push).drops) := ⟨r, u1, h, rfl⟩
      have := (relay_finished hdone hp hm (by
        intro a ha
        rw [acts_append, List.mem_append] at ha
        rcases ha with ha | ha
        · cases hb : a.fails
          · rfl
          · exact absurd ⟨a, ha, hb⟩ hf
        · exact dropEvs_no_fails a ha)).ended (.chan c) (by simp [hs])
      rw [acts_append, List.mem_append] at this
      rcases this with h | h
      · simp [h]
      · have := ended_endings h; rw [(drops_idle _).1.endings] at this; omega

theorem regulator_closes {pull push spy ctl tr c} (h : (regulatorTask pull push spy ctl).Partial tr) (hp : pull ≠ .none)
    (hs : pull.source = some (.chan c)) (hc : (Kind.data, c) ∈ closings tr) :
    Act.ended (.chan c) ∈ acts tr ∨ ∃ a ∈ acts tr, a.fails = true := by
  rcases h with ⟨n, t1, t2, h1, h2, rfl⟩ | ⟨r, u1, u2, h, hd, rfl⟩
  · exfalso
    obtain ⟨_, _, _, i3, _⟩ := regulator_rounds h1 hp
    rw [closings_append, i3, List.nil_append] at hc
    obtain ⟨t3, x, h3⟩ := h2.extend
    have hc : (Kind.data, c) ∈ closings (t2 ++ t3) := by rw [closings_append]; exact List.mem_append_left _ hc
    obtain ⟨r, u1, u2, hu, hw, h2⟩ := regulatorBody_inv h3
    rw [hu, closings_append, (round_seen hw hp apart_nil List.prefix_rfl).open_, List.nil_append] at hc
    rcases h2 with ⟨res, rfl, hf, hx, h0⟩ | ⟨res, rfl, hf, hx, _⟩ | ⟨e, rfl, rfl, h0⟩
    · rw [(closeControl_idle hx).2] at hc; simp at hc
    · rw [(controlPoint_idle hx).2] at hc; simp at hc
    · simp at hc
  · by_cases hf : ∃ a ∈ acts u1, a.fails = true
    · obtain ⟨a, ha, hb⟩ := hf
      exact Or.inr ⟨a, by simp [ha], hb⟩
    · left
      have hdone : (regulatorTask pull push spy ctl).Done (u1 ++ dropEvs (regulatorTask pull push spy ctl).drops) := ⟨r, u1, h, rfl⟩
      have := (regulator_finished hdone hp (by
        intro a ha
        rw [acts_append, List.mem_append] at ha
        rcases ha with ha | ha
        · cases hb : a.fails
          · rfl
          · exact absurd ⟨a, ha, hb⟩ hf
        · exact dropEvs_no_fails a ha)).ended (.chan c) (by simp [hs])
      rw [acts_append, List.mem_append] at this
      rcases this with h | h
      · simp [h]
      · have := ended_endings h; rw [(drops_idle _).1.endings] at this; omega

theorem AllGone.fails {pushs e tr} (hs : AllSenders pushs) (hne : pushs ≠ []) (h : AllGone pushs e tr) :
    ∃ a ∈ acts tr, a.fails = true := by
  obtain ⟨_, v1, v, v2, d, rest, hv, _, hoff, hcl⟩ := h
  obtain ⟨p, hp⟩ := List.exists_mem_of_ne_nil _ hne
  obtain ⟨j, c, rfl⟩ := hs p hp
  have hm : (End.chan c, d) ∈ (offers v).map (fun o => (o.to, o.d)) := by
    rw [hoff]; unfold toEach
    exact List.mem_map.mpr ⟨_, List.mem_filterMap.mpr ⟨_, hp, rfl⟩, rfl⟩
  obtain ⟨o, ho, _⟩ := List.mem_map.mp hm
  obtain ⟨why, hw⟩ := hcl o ho
  exact ⟨.offer o.to o.d o.w, by rw [hv]; simp [mem_offers.mp ho], by rw [hw]; rfl⟩

theorem junction_closes {inputs pushs spy tr c} (h : (junctionTask inputs pushs spy).Partial tr)
    (hok : (Node.junction inputs pushs spy).Ok) (hsrc : End.chan c ∈ inputs.filterMap fun x => x.1.source)
    (hc : (Kind.data, c) ∈ closings tr) : Act.ended (.chan c) ∈ acts tr ∨ ∃ a ∈ acts tr, a.fails = true := by
  obtain ⟨hdis, hi, hd, hs, hn, hne⟩ := hok
  obtain ⟨s, t1, t2, h1, h2, rfl⟩ := junctionTask_partial h
  obtain ⟨D, hJ, hC⟩ := rounds_closed hd hs JInv.init closedAre_nil h1
  rw [List.nil_append] at hJ hC
  have hc := mem_closings.mp hc
  have gone : ∀ {p : Pull} {e : End} {t : List Ev}, Act.close .data c ∈ dropActs p → p.source = some e →
      (Act.ended e ∈ acts t ∨ AllGone pushs e t) → Act.ended (.chan c) ∈ acts t ∨ ∃ a ∈ acts t, a.fails = true := by
    intro p e t hp he h
    rw [owned_source (dropActs_owned hp)] at he
    simp at he; subst he
    exact h.imp id (AllGone.fails hs hne)
  rw [acts_append, List.mem_append] at hc
  rcases hc with hc | hc
  · obtain ⟨p, hp, hpc⟩ := (hC .data c).mp hc
    obtain ⟨_, e, he, hx⟩ := hJ.gone p hp
    rcases gone hpc he hx with h | ⟨a, ha, hb⟩
    · left; simp [h]
    · exact Or.inr ⟨a, by simp [ha], hb⟩
  · suffices h : Act.ended (.chan c) ∈ acts t2 ∨ ∃ a ∈ acts t2, a.fails = true by
      rcases h with h | ⟨a, ha, hb⟩
      · left; simp [h]
      · exact Or.inr ⟨a, by simp [ha], hb⟩
    obtain ⟨t3, x, hrun⟩ := h2.extend
    obtain ⟨k, ws1, ws2, tail, htr, hp, hend⟩ := junctionBody_inv hrun hs
    rcases prefix_append_cases (show t2 <+: pollTrace (ws1 ++ ws2) ++ tail from ⟨t3, htr⟩) with hpre | ⟨v, rfl, hv⟩
    · exact absurd ((prefix_acts hpre).subset hc) (pollTrace_no_close (pass_runs hp) _ _)
    · have hc : Act.close .data c ∈ acts tail := by
        rw [acts_append, List.mem_append] at hc
        rcases hc with hc | hc
        · exact absurd hc (pollTrace_no_close (pass_runs hp) _ _)
        · exact (prefix_acts hv).subset hc
      have inTrace : ∀ {w : Poll} {a}, w ∈ ws1 ++ ws2 → a ∈ acts w.tr → a ∈ acts (pollTrace (ws1 ++ ws2) ++ v) := by
        intro w a hw ha
        obtain ⟨x, y, hxy⟩ := split_pollTrace hw
        rw [hxy]; simp [ha]
      have hfin : Act.close .data c ∈ finActs ws2 →
          Act.ended (.chan c) ∈ acts (pollTrace (ws1 ++ ws2) ++ v) ∨ ∃ a ∈ acts (pollTrace (ws1 ++ ws2) ++ v), a.fails = true := by
        intro hm
        obtain ⟨p, hp1, hp2⟩ := mem_finActs.mp hm
        obtain ⟨w, hw, rfl⟩ := List.mem_map.mp hp1
        obtain ⟨hw, hwf⟩ := List.mem_filter.mp hw
        obtain ⟨e, he, hx⟩ := poll_fin (hp.runs2 w hw) hs hwf
        rcases gone hp2 he hx with h | ⟨a, ha, hb⟩
        · exact Or.inl (inTrace (List.mem_append_right _ hw) h)
        · exact Or.inr ⟨a, inTrace (List.mem_append_right _ hw) ha, hb⟩
      rcases hend with ⟨e, ws', w, _, rfl, hres, _⟩ | ⟨_, _, ⟨_, _, _, _, _, ⟨_, hx, _⟩ | ⟨_, hx, _⟩⟩ | ⟨_, _, hx⟩⟩
      · right
        have hw : w ∈ ws1 ++ (ws' ++ [w]) := by simp
        obtain ⟨y, hy, hyp⟩ := List.mem_map.mp (hJ.mem.mp (pass_pulls hp w hw)).1
        obtain ⟨j, c', hj⟩ := hi y hy
        rw [hyp] at hj
        have hr := pass_runs hp w hw
        unfold PollRun at hr
        rw [hres] at hr
        obtain ⟨a, ha, hf⟩ := motionWorker_fails (by rw [hj]; simp) (fun _ => ⟨j, c', hj⟩) _ _ hr
        exact ⟨a, inTrace hw ha, hf⟩
      · rw [hx] at hc; simp at hc
      · rw [hx] at hc; exact hfin hc
      · rw [hx, List.mem_append] at hc
        rcases hc with hc | hc
        · exact hfin hc
        · exfalso
          rw [List.mem_flatMap] at hc
          obtain ⟨p, hp1, hp2⟩ := hc
          obtain ⟨j, c', rfl⟩ := hs p hp1
          simp [closeActs] at hp2
          subst hp2
          exact hdis _ hsrc (List.mem_filterMap.mpr ⟨_, hp1, rfl⟩)

/-- A component closes what it reads from only after its end, or after something failed. -/
theorem node_closes {n : Node} {tr c} (hok : n.Ok) (h : n.task.Partial tr) (hs : .chan c ∈ n.sources)
    (hc : (Kind.data, c) ∈ closings tr) : Act.ended (.chan c) ∈ acts tr ∨ ∃ a ∈ acts tr, a.fails = true := by
  cases n with
  | relay pull mon spy push =>
    have hsrc : pull.source = some (.chan c) := by simpa [Node.sources] using hs
    refine relay_closes h hok.2.1 (fun c hc => hok.2.2 c hc.1 hc.2) hsrc ?_ hc
    intro ht
    exact hok.1 _ hs (by simp [Node.targets, ht])
  | regulator pull push spy ctl =>
    exact regulator_closes h hok.2 (by simpa [Node.sources] using hs) hc
  | junction inputs pushs spy => exact junction_closes h hok hs hc

/-! ## Channels between components -/

theorem sent_offer {c : Nat} {e : Ev} (h : sentOf .data c e ≠ none) : ∃ d, act e = .offer (.chan c) d .ok := by
  obtain ⟨q, r⟩ := e
  cases q with
  | send k c' v =>
    cases k <;> cases r <;> simp [sentOf] at h
    subst h
    exact ⟨v, rfl⟩
  | recv k c' => cases k <;> cases r <;> simp [sentOf] at h
  | tryRecv k c' => cases k <;> cases r <;> simp [sentOf] at h
  | ioWrite h d => cases r <;> simp [sentOf] at h
  | streamRead h => cases r <;> simp [sentOf] at h
  | _ => simp [sentOf] at h

theorem got_got {c : Nat} {e : Ev} (h : gotOf .data c e ≠ none) : ∃ d, act e = .got (.chan c) d := by
  obtain ⟨q, r⟩ := e
  cases q with
  | recv k c' =>
    cases k <;> cases r <;> simp [gotOf] at h
    subst h
    exact ⟨_, rfl⟩
  | tryRecv k c' =>
    cases k <;> cases r <;> simp [gotOf] at h
    subst h
    exact ⟨_, rfl⟩
  | send k c' v => cases k <;> cases r <;> simp [gotOf] at h
  | ioWrite h d => cases r <;> simp [gotOf] at h
  | streamRead h => cases r <;> simp [gotOf] at h
  | _ => simp [gotOf] at h

/-- What is known about a channel between two components. -/
structure EdgeFacts {ι : Type} [DecidableEq ι] (τ : List (ι × Ev)) (a : ι) (c : Nat) (b : ι) : Prop where
  on : ∀ x ∈ τ, x.2.q.on = some (.data, c) → x.1 = a ∨ x.1 = b
  sent : ∀ x ∈ τ, sentOf .data c x.2 ≠ none → x.1 = a
  got : ∀ x ∈ τ, gotOf .data c x.2 ≠ none → x.1 = b
  writer : Retired c (proj a τ)
  reader : Retired c (proj b τ)

section
variable {ι : Type} [DecidableEq ι] {N : Network ι} {cap : Caps} {τ : List (ι × Ev)}

theorem Network.conduct (hw : N.Wired) (hx : Execution cap N.sys τ) {i n} (hn : N.node i = some n) :
    Conduct n.sources n.targets (proj i τ) :=
  node_conduct (hw.ok i n hn) (hx.tasks i n.task (by simp [Network.sys, hn]))

theorem Network.facts (hw : N.Wired) (hx : Execution cap N.sys τ) (hu : N.Undisturbed τ) {a c b} (he : N.Edge a c b) :
    EdgeFacts τ a c b := by
  have he' := he
  obtain ⟨n, m, hn, hm, ht, hs⟩ := he
  have on : ∀ x ∈ τ, x.2.q.on = some (.data, c) → x.1 = a ∨ x.1 = b := by
    intro x hxm hq
    cases hk : N.node x.1 with
    | none => exact absurd hq (hu x hxm hk a c b he')
    | some k =>
      rcases node_within (hw.ok _ k hk) (hx.tasks x.1 k.task (by simp [Network.sys, hk])) (mem_proj.mpr hxm) hq with h | h
      · exact Or.inr (hw.reader x.1 b k m c hk hm h hs)
      · exact Or.inl (hw.writer x.1 a k n c hk hn h ht)
  refine ⟨on, ?_, ?_, (N.conduct hw hx hn).retired c, (N.conduct hw hx hm).retired c⟩
  · intro x hxm h
    obtain ⟨d, hd⟩ := sent_offer h
    rcases Option.ne_none_iff_exists'.mp h with ⟨v, hv⟩
    cases hk : N.node x.1 with
    | none => exact absurd (on_of_sent hv) (hu x hxm hk a c b he')
    | some k =>
      have hmem : Act.offer (.chan c) d .ok ∈ acts (proj x.1 τ) := List.mem_map.mpr ⟨x.2, mem_proj.mpr hxm, hd⟩
      have := (N.conduct hw hx hk).to ⟨.chan c, d, .ok⟩ (mem_offers.mpr hmem)
      exact hw.writer x.1 a k n c hk hn this ht
  · intro x hxm h
    obtain ⟨d, hd⟩ := got_got h
    rcases Option.ne_none_iff_exists'.mp h with ⟨v, hv⟩
    cases hk : N.node x.1 with
    | none => exact absurd (on_of_got hv) (hu x hxm hk a c b he')
    | some k =>
      have hmem : Act.got (.chan c) d ∈ acts (proj x.1 τ) := List.mem_map.mpr ⟨x.2, mem_proj.mpr hxm, hd⟩
      exact hw.reader x.1 b k m c hk hm ((N.conduct hw hx hk).got _ _ hmem) hs

theorem Network.Undisturbed.prefix {τ' : List (ι × Ev)} (h : N.Undisturbed (τ ++ τ')) : N.Undisturbed τ :=
  fun x hx => h x (List.mem_append_left _ hx)

end

end Verif
