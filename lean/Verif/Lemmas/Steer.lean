import Verif.Lemmas.Rested
import Verif.Props.Pipeline
/-!
# During a lull no regulator upstream of its buffers is paused
-/
namespace Verif

theorem vain_sentOn {k : Kind} {c : Nat} {t : List Ev} (h : ∀ e ∈ t, tellsNothing e = true) : sentOn k c t = [] := by
  unfold sentOn
  rw [List.filterMap_eq_nil_iff]
  intro e he
  have := h e he
  obtain ⟨q, r⟩ := e
  cases q with
  | send k' c' v => simp [tellsNothing] at this
  | _ => simp [sentOf]

/-- A count that goes on for ever hearing nothing has reported how many notifications of writing it has heard minus how many of reading. -/
theorem count_current {c mIn mOut : Nat} (hne : mIn ≠ mOut) {tr : List Ev} {g : Nat → Ev} (h : ∀ k, (totalTask (some c) mIn mOut).Partial (tr ++ first g k))
    (hid : ∀ i, tellsNothing (g i) = true) : lastReport c tr + nGot .mon mOut tr = nGot .mon mIn tr := by
  obtain ⟨k, s, j, s', h1, h2⟩ := Task.vain h hid
  have H := keeps_rounds (tr := []) (count_keeps (sender := some c) hne) h1 count_starts
  rw [List.nil_append] at H
  have hv : ∀ e ∈ first g k, tellsNothing e = true := by
    intro e he
    obtain ⟨i, _, rfl⟩ := mem_first.mp he
    exact hid i
  obtain ⟨_, h3, h4⟩ := H
  have h4 := (h4 c rfl).1
  unfold lastReport at h4 ⊢
  rw [sentOn_append, vain_sentOn hv, List.append_nil] at h4
  rw [h4]
  simp only [nGot, gotOn_append, vain_gotOn hv (Or.inr rfl), List.append_nil] at h3
  exact h3

/-- A regulator waiting to be asked to resume has taken an odd number of requests. -/
theorem regulator_waits {pull : Pull} {push : Push} {spy : Option Nat} {c : Nat} {tr : List Ev} (hp : pull ≠ .none) (h : (regulatorTask pull push spy (some c)).Awaits tr (.recv .ctl c))
    (ho : (⟨.recv .ctl c, none⟩ : Ev) ∉ tr) : (gotOn .ctl c tr).length % 2 = 1 := by
  obtain ⟨q, hq⟩ := regTask_phase (h.step (some ())) hp
  rw [acts_append, Phase.run_append] at hq
  cases hp1 : Phase.run .fresh (acts tr) with
  | none => rw [hp1] at hq; cases hq
  | some p =>
    rw [hp1] at hq
    have hw : p = .waiting := by
      have hq : Phase.run p [.ctlWait c (some ())] = some q := hq
      cases p <;> simp [Phase.run, Phase.step] at hq ⊢
    subst hw
    have := phase_parity hp1 (regTask_ctl h.partial) (by
      intro a ha h0
      obtain ⟨e, he, rfl⟩ := List.mem_map.mp ha
      rw [act_ctlWait h0] at he
      exact ho he) (by simp)
    simpa using this

/-- Having closed the inside of the buffer, the input part only closes. -/
theorem in_closes {ch : BufferChans} {j : PullJourney} {out : Push} {tr : List Ev} {q : Req} (h : (bufferIn ch j out).Awaits tr q) (hc : closings tr ≠ []) : ∃ k c, q = .close k c := by
  obtain ⟨n, t1, t2, h1, h2, rfl⟩ := h
  rw [show (bufferIn ch j out).body n = _ from bufferIn_tree ch j out n] at h2
  rw [closings_append, (in_rounds h1).2.1, List.nil_append] at hc
  have fin : ∀ {m t}, (inEnd ch m).Awaits t q → ∃ k c, q = .close k c := by
    intro m t ht
    have : (inEnd ch m).Only fun q => ∃ k c, q = .close k c := ⟨⟨_, _, rfl⟩, fun _ => ⟨⟨_, _, rfl⟩, fun _ => trivial⟩⟩
    exact this.awaits ht
  cases t2 with
  | nil => exact absurd rfl hc
  | cons e t2 =>
    obtain ⟨r, rfl, h2⟩ := h2
    cases r with
    | none =>
      cases t2 with
      | nil => exact absurd rfl hc
      | cons e t2 =>
        obtain ⟨r, rfl, h2⟩ := h2
        cases r with
        | true => exact fin h2
        | false => exact absurd h2 (by simp [Prog.Awaits])
    | some d =>
      cases t2 with
      | nil => exact absurd rfl hc
      | cons e t2 =>
        obtain ⟨r, rfl, h2⟩ := h2
        cases r with
        | true =>
          cases t2 with
          | nil => exact absurd rfl hc
          | cons e t2 =>
            obtain ⟨r, rfl, h2⟩ := h2
            cases r <;> exact absurd h2 (by simp [Prog.Awaits])
        | false =>
          revert h2
          cases out.breakable with
          | terminate => intro h2; exact absurd h2 (by simp [Prog.Awaits])
          | consume =>
            intro h2
            cases t2 with
            | nil => exact absurd rfl hc
            | cons e t2 =>
              obtain ⟨r, rfl, h2⟩ := h2
              cases r <;> exact absurd h2 (by simp [Prog.Awaits])
          | finish =>
            intro h2
            cases t2 with
            | nil => exact absurd rfl hc
            | cons e t2 =>
              obtain ⟨r, rfl, h2⟩ := h2
              cases r with
              | true => exact fin h2
              | false => exact absurd h2 (by simp [Prog.Awaits])

section
variable {c : Config} {hs : List Hop} {w : Waiter} {cs : List Capture} {cap : Caps} {τ : List (Who × Ev)} {st : Store}

theorem node_unresting {i : Who} {n : Node} (hn : w.node i = some n) (h : w.Resting cs st τ i) : w.net.Idle st τ i := by
  rcases h with (h | ⟨r, rfl, _⟩) | ⟨_, _, rfl, _⟩
  · exact h
  · simp only [Waiter.node] at hn
    cases hk : w.comps.get r with
    | none => rw [hk] at hn; cases hn
    | some k => rw [hk] at hn; cases k <;> simp [Comp.node] at hn
  · simp [Waiter.node] at hn

/-- Who neither has ended nor is at rest waits in vain. -/
theorem Assembled.waits (A : Assembled c hs w) (hC : Complete hs) (hr : w.Run cs cap τ) (hst : execAll cap Store.init (τ.map Prod.snd) = some st) (S : w.Still cs cap st τ)
    {i : Who} {n : Node} (hn : w.node i = some n) (hd : ¬ n.task.Done (proj i τ)) (hi : ¬ w.net.Idle st τ i) : ∃ q, n.task.Awaits (proj i τ) q ∧ Impossible cap st q := by
  have W := A.wired hC
  have hok : n.Ok := W.ok i n hn
  have no := S.none i _ (sys_node hn) hd (fun h => hi (node_unresting hn h))
  rcases (hr.exec.tasks _ _ (sys_node hn)).now (node_speaks hok) with h | ⟨q, hq⟩ | ⟨k, ch, h⟩
  · exact absurd h hd
  · refine ⟨q, hq, fun r => ?_⟩
    cases he : Verif.exec cap st ⟨q, r⟩ with
    | none => rfl
    | some st' =>
      refine absurd ⟨_, hr.step hst (sys_node hn) (hq.step r) he ?_⟩ no
      rintro r rfl
      rw [node_no_exit] at hn; cases hn
  · refine absurd ⟨_, hr.step hst (sys_node hn) h (by simp [Verif.exec]; rfl) ?_⟩ no
    rintro r rfl
    rw [node_no_exit] at hn; cases hn

/-- Where a channel between two components stays full, a regulator further down is paused. -/
theorem Assembled.dammed (A : Assembled c hs w) (hC : Complete hs) (T : Attended cs w) (hr : w.Run cs cap τ) (hst : execAll cap Store.init (τ.map Prod.snd) = some st)
    (hcap : ∀ k ch, cap k ch ≠ some 0) (S : w.Still cs cap st τ)
    (hj : ∀ i inputs pushs spy, w.node i = some (.junction inputs pushs spy) → ∀ f ∈ acts (proj i τ), f.ruins pushs = false)
    {rank : Who → Nat} {R : Nat} (hrank : ∀ a ch b, w.net.Edge a ch b → rank a < rank b) (hR : ∀ i, rank i ≤ R)
    {a : Who} {ch : Nat} {b : Who} (he : w.net.Edge a ch b) (h1 : (st .data ch).closed = false) (h2 : ¬ hasRoom (cap .data ch) (st .data ch).q.length) :
    ∃ x, w.Paused cs st τ x ∧ rank a < rank (.part (.regulator, x) .main) := by
  obtain ⟨E, U⟩ := A.run hC hr
  have W := A.wired hC
  generalize hk : R - rank a = k
  induction k using Nat.strongRecOn generalizing a ch b with
  | _ k ih =>
    have hne : (st .data ch).q ≠ [] := fun h => h2 (caps_room hcap h)
    have F := w.net.facts W E U he
    have he' := he
    obtain ⟨_, m, _, hm, _, hs⟩ := he'
    have hm : w.node b = some m := hm
    have hok : m.Ok := W.ok b m hm
    have shut : Act.ended (.chan ch) ∉ acts (proj b τ) := by
      intro h
      have := closing_closed hst (edge_complete hst F.on F.writer F.reader F.sent F.got h).2.2
      rw [h1] at this; cases this
    have hd : ¬ m.task.Done (proj b τ) := by
      intro hd
      have := closing_closed hst ((node_done hok hd (by rintro inputs pushs spy rfl; exact hj b inputs pushs spy hm) ch).2 hs)
      rw [h1] at this; cases this
    have hid : ¬ w.net.Idle st τ b := by
      rintro ⟨inputs, pushs, spy, hn, _, hall⟩
      have hn : w.node b = some (.junction inputs pushs spy) := hn
      rw [hm] at hn; cases hn
      exact hne (hall ch hs (inUse_open hst shut h1)).1
    have r1 := hrank _ _ _ he
    obtain ⟨q, hq, himp⟩ := A.waits hC hr hst S hm hd hid
    rcases A.asks hC T hr hst hcap S.aside hm hq himp with ⟨c', _, h3, h4, _⟩ | ⟨c', d, b', _, h3, h4, h5⟩ | ⟨x, rfl, h3⟩
    · rw [h3] at hs; simp at hs; subst hs; exact absurd h4 hne
    · have r2 := hrank _ _ _ h3
      have r3 := hR b'
      obtain ⟨x, hx, hx'⟩ := ih (R - rank b) (by omega) h3 h4 h5 rfl
      exact ⟨x, hx, by omega⟩
    · exact ⟨x, h3, r1⟩

/-- Who can be paused. -/
theorem Assembled.paused (A : Assembled c hs w) (hC : Complete hs) (T : Attended cs w) {r : Str} (h : w.Paused cs st τ r) :
    ∃ a ∈ cs, a.regulator = r ∧ ∃ (i : PullEnd) (o : PushEnd),
      (regulatorTask i.pull o.push none (some (w.idOf (.regulator, r)))).Awaits (proj (.part (.regulator, r) .main) τ) (.recv .ctl (w.idOf (.regulator, r))) := by
  obtain ⟨⟨t, ht, hq⟩, _, _⟩ := h
  cases hn : w.node (.part (.regulator, r) .main) with
  | none => rcases A.others hC ht hn with ⟨_, _, _, _, he, _⟩ | ⟨_, _, he, _⟩ | ⟨_, _, he, _⟩ <;> simp at he
  | some n =>
    rw [sys_node hn] at ht; cases ht
    rcases A.kindsAll hC hn (hq.step none) (e := ⟨.recv .ctl (w.idOf (.regulator, r)), none⟩) (by simp) rfl with h | ⟨h, _⟩ | ⟨_, x, hm, _, he, i, o, hk⟩
    · cases h
    · cases h
    · simp only [Who.part.injEq, Prod.mk.injEq, true_and, and_true] at he
      subst he
      obtain ⟨a, ha, har⟩ := List.mem_map.mp ((T.control _ _ _ _ hk).mp rfl)
      obtain ⟨i', o', m, hk'⟩ := A.regulatorNode hC rfl hm
      rw [hk] at hk'; cases hk'
      simp only [Waiter.node, hk, Comp.node, Option.some.injEq] at hn
      subst hn
      exact ⟨a, ha, har, i', o', hq⟩

/-- When nothing happens but looking, and no manager waits for room, a regulator can only be paused when one further down than one of its buffers is. -/
theorem Assembled.pausedBelowOf (A : Assembled c hs w) (hC : Complete hs) (T : Attended cs w) (hr : w.Run cs cap τ) (hst : execAll cap Store.init (τ.map Prod.snd) = some st)
    (hcap : ∀ k ch, cap k ch ≠ some 0) (S : w.StillBut cs cap st τ) (nf : ∀ x p n f, w.node (.part (.buffer, x) p) = some n → f ∈ acts (proj (.part (.buffer, x) p) τ) → f.fails = false)
    (hwait : ∀ x p n, w.node (.part (.buffer, x) p) = some n → ¬ n.task.Done (proj (.part (.buffer, x) p) τ) → ¬ w.net.Idle st τ (.part (.buffer, x) p) →
      ∃ q, n.task.Awaits (proj (.part (.buffer, x) p) τ) q ∧ Impossible cap st q)
    (each : ∀ i t, w.node i = none → (∀ r, i ≠ .part r .exit) → w.sys cs i = some t → ¬ w.CanStep cs cap τ i ∨
      ∃ g : Nat → Ev, (∀ k, t.Partial (proj i τ ++ first g k)) ∧ ∀ j, w.moves i (g j) = false ∧ Verif.exec cap st (g j) = some st)
    {rank : Who → Nat}
    (dam : ∀ x, (∃ a ∈ cs, x ∈ a.buffers) → ∀ ch b, w.net.Edge (.part (.buffer, x) .output) ch b → (st .data ch).closed = false → ¬ hasRoom (cap .data ch) (st .data ch).q.length →
      ∃ y, w.Paused cs st τ y ∧ rank (.part (.buffer, x) .output) < rank (.part (.regulator, y) .main))
    (hctl : ∀ a ∈ cs, ∀ x ∈ a.buffers, rank (.part (.regulator, a.regulator) .main) < rank (.part (.buffer, x) .output))
    {r : Str} (hp : w.Paused cs st τ r) : ∃ x, w.Paused cs st τ x ∧ rank (.part (.regulator, r) .main) < rank (.part (.regulator, x) .main) := by
  obtain ⟨E, U⟩ := A.run hC hr
  have W := A.wired hC
  obtain ⟨a, ha, rfl, pi, po, hq⟩ := A.paused hC T hp
  obtain ⟨_, hctlq, hctlo⟩ := hp
  -- the manager
  have hmd : ¬ (w.managing a).Done (proj (.manager a.regulator) τ) := by
    intro h
    have := closing_closed_kind hst (done_drops h (k := .ctl) (ch := w.idOf (.regulator, a.regulator)) (by simp [managerTask]))
    rw [hctlo] at this; cases this
  have hmn : w.node (.manager a.regulator) = none := by simp [Waiter.node]
  have hodd : requests (w.idOf (.regulator, a.regulator)) (proj (.manager a.regulator) τ) % 2 = 1 := by
    have h1 := regulator_waits (by simp [PullEnd.pull]) hq (fun h => (open_history hst hctlo).2.1 (List.mem_map.mpr ⟨_, mem_proj.mp h, rfl⟩))
    have h2 := A.controls hC T hr ha hst
    rw [hctlq, List.append_nil] at h2
    rw [← h2] at h1
    have h3 : ∀ tr : List Ev, (∀ e ∈ tr, e ≠ ⟨.send .ctl (w.idOf (.regulator, a.regulator)) (), false⟩) →
        requests (w.idOf (.regulator, a.regulator)) tr = (sentOn .ctl (w.idOf (.regulator, a.regulator)) tr).length := by
      intro tr
      induction tr with
      | nil => intro _; rfl
      | cons e tr ih =>
        intro h
        have ih := ih fun e he => h e (by simp [he])
        have he := h e (by simp)
        rw [sentOn_cons, List.length_append]
        unfold requests at ih ⊢
        rw [List.countP_cons, ih]
        obtain ⟨q, r⟩ := e
        cases q with
        | send k ch v =>
          cases k with
          | ctl =>
            by_cases hc : ch = w.idOf (.regulator, a.regulator)
            · subst hc
              cases r with
              | true => simp [isRequest, sentOf]; omega
              | false => exact absurd rfl he
            · cases r <;> simp [isRequest, sentOf, hc]
          | _ => cases r <;> simp [isRequest, sentOf]
        | _ => simp [isRequest, sentOf]
    rw [h3 _ (fun e he h => (open_history hst hctlo).1 () (by rw [← h]; exact List.mem_map.mpr ⟨_, mem_proj.mp he, rfl⟩))]
    exact h1
  obtain ⟨x, hx, hxo, hxq, hpos⟩ : ∃ x ∈ a.buffers, (st .size (w.idOf (.buffer, x))).closed = false ∧ (st .size (w.idOf (.buffer, x))).q = [] ∧
      0 < reported (w.idOf (.buffer, x)) (proj (.manager a.regulator) τ) := by
    rcases each _ _ hmn (by simp) (T.manages ha) with h | ⟨g, h1, h2⟩
    · exfalso
      rcases manager_goes (cap := cap) (st := st) (hr.exec.tasks _ _ (T.manages ha)) hmd with ⟨e, st', h1, h2⟩ | h1
      · exact h ⟨e, hr.step hst (T.manages ha) h1 h2 (by simp)⟩
      · exact h1.2.2 (caps_room hcap hctlq)
    · have J := manager_rest (A.chans_nodup T ha) h1 (cap := cap) (st := st) (fun j => by simpa [Waiter.moves, hmn] using (h2 j).1) (fun j => (h2 j).2)
      obtain ⟨ch, hch, h3⟩ := J.2.2 hodd
      obtain ⟨x, hx, rfl⟩ := List.mem_map.mp hch
      exact ⟨x, hx, h3⟩
  -- the count
  have hm := A.watched T ha hx
  obtain ⟨ai, bo, m, hk, B⟩ := A.bufferOwn hC T hr hm
  have hmt : m = true := (T.monitor _ _ _ _ hk).mpr (List.mem_flatMap.mpr ⟨a, ha, hx⟩)
  subst hmt
  have hcd : ¬ (w.counting x true).Done (proj (.part (.buffer, x) .count) τ) := by
    intro h
    have := closing_closed_kind hst (done_drops h (k := .size) (ch := w.idOf (.buffer, x)) (by simp [totalTask]))
    rw [hxo] at this; cases this
  have hcn : w.node (.part (.buffer, x) .count) = none := by simp [Waiter.node, hk, Comp.node]
  have hcs : w.sys cs (.part (.buffer, x) .count) = some (w.counting x true) := B.cnt
  obtain ⟨g, g1, g2⟩ : ∃ g : Nat → Ev, (∀ k, (w.counting x true).Partial (proj (.part (.buffer, x) .count) τ ++ first g k)) ∧
      ∀ j, w.moves (.part (.buffer, x) .count) (g j) = false ∧ Verif.exec cap st (g j) = some st := by
    rcases each _ _ hcn (by simp) hcs with h | h
    · exfalso
      obtain ⟨e, st', h1, h2⟩ := total_goes (cap := cap) (st := st) (hr.exec.tasks _ _ hcs) hcd (by
        intro ch hch
        cases hch
        exact Or.inr (caps_room hcap hxq))
      exact h ⟨e, hr.step hst hcs h1 h2 (by simp)⟩
    · exact h
  have vain : ∀ j, tellsNothing (g j) = true := fun j => by simpa [Waiter.moves, hcn] using (g2 j).1
  have J := count_rest g1 (cap := cap) (st := st) vain (fun j => (g2 j).2)
  have C := count_current (by omega) g1 vain
  have hrep : lastReport (w.idOf (.buffer, x)) (proj (.part (.buffer, x) .count) τ) = reported (w.idOf (.buffer, x)) (proj (.manager a.regulator) τ) := by
    unfold lastReport reported
    rw [A.sizes hC T hr ha hx hst, hxq, List.append_nil]
  -- the halves
  have hin : w.node (.part (.buffer, x) .input) = some (.relay ai.pull { written := some (2 * w.idOf (.buffer, x)) } none (.sender ⟨0, none, 0, bo.breakable⟩ (w.chans + w.idOf (.buffer, x)))) := by
    simp only [Waiter.node, hk, Comp.node]
  have hout : w.node (.part (.buffer, x) .output) = some (.relay (.receiver ⟨0, 0⟩ (w.chans + w.idOf (.buffer, x))) { read := some (2 * w.idOf (.buffer, x) + 1) } none bo.push) := by
    simp only [Waiter.node, hk, Comp.node]
  have edge : w.net.Edge (.part (.buffer, x) .input) (w.chans + w.idOf (.buffer, x)) (.part (.buffer, x) .output) :=
    ⟨_, _, hin, hout, by simp [Node.targets, Push.target], by simp [Node.sources, Pull.source]⟩
  have F := w.net.facts W E U edge
  have unidle : ∀ {i pull mon spy push}, w.node i = some (.relay pull mon spy push) → ¬ w.net.Idle st τ i := by
    rintro i pull mon spy push hi ⟨_, _, _, hn, _⟩
    have hn : w.node i = _ := hn
    rw [hi] at hn; cases hn
  have hxr := hctl a ha x hx
  have heard : ∀ y, y = x → ¬ w.Deaf cs cap st τ y := by
    rintro y rfl ⟨a', ha', hxa', hu⟩
    rw [← T.capture_eq ha ha' hx hxa'] at hu
    exact hu.2.2 (caps_room hcap hctlq)
  by_cases hod : (Node.relay (.receiver ⟨0, 0⟩ (w.chans + w.idOf (.buffer, x))) { read := some (2 * w.idOf (.buffer, x) + 1) } none bo.push).task.Done (proj (.part (.buffer, x) .output) τ)
  · -- the output has ended, so has the input, and the count will notice
    exfalso
    have fin := node_finished (W.ok (.part (.buffer, x) .output) _ hout) hod (fun f hm => nf x .output _ f hout hm)
    have hend := fin.ended (.chan (w.chans + w.idOf (.buffer, x))) (by simp [Node.sources, Pull.source])
    have hcl := (edge_complete hst F.on F.writer F.reader F.sent F.got hend).2.2
    have hid : (Node.relay ai.pull { written := some (2 * w.idOf (.buffer, x)) } none (.sender ⟨0, none, 0, bo.breakable⟩ (w.chans + w.idOf (.buffer, x)))).task.Done (proj (.part (.buffer, x) .input) τ) := by
      refine Classical.byContradiction fun hnd => ?_
      obtain ⟨q, hq', himp⟩ := hwait _ _ _ hin hnd (unidle hin)
      obtain ⟨k, ch, rfl⟩ := in_closes (ch := ⟨ai.chan, w.chans + w.idOf (.buffer, x), 2 * w.idOf (.buffer, x), 2 * w.idOf (.buffer, x) + 1, some (w.idOf (.buffer, x)), none⟩) (j := ⟨ai.src, ai.dst⟩) (out := bo.push) hq'
        (by intro h0; rw [h0] at hcl; cases hcl)
      rcases impossible_cases himp with ⟨_, _, h, _⟩ | ⟨_, _, _, h, _⟩ <;> cases h
    obtain ⟨m', hm', ho⟩ := J.2
    have : (st .mon m').closed = true := by
      simp only [List.mem_cons, List.not_mem_nil, or_false] at hm'
      rcases hm' with rfl | rfl
      · exact closing_closed_kind hst (done_drops hid (by simp [Node.task, relayTask]))
      · exact closing_closed_kind hst (done_drops hod (by simp [Node.task, relayTask]))
    rw [this] at ho; cases ho
  · obtain ⟨q, hq', himp⟩ := hwait _ _ _ hout hod (unidle hout)
    rcases A.asksOr hC T hr hst hcap S hout hq' himp with ⟨c', rfl, h3, h4, h5⟩ | ⟨c', d, b', _, h3, h4, h5⟩ | ⟨y, he, _⟩ | ⟨y, he, hde⟩
    · -- the buffer is empty
      exfalso
      simp only [Node.sources, Pull.source, Option.toList_some, List.cons.injEq, and_true, End.chan.injEq] at h3
      subst h3
      have hind : ¬ (Node.relay ai.pull { written := some (2 * w.idOf (.buffer, x)) } none (.sender ⟨0, none, 0, bo.breakable⟩ (w.chans + w.idOf (.buffer, x)))).task.Done (proj (.part (.buffer, x) .input) τ) := by
        intro h
        have := closing_closed hst ((node_done (W.ok (.part (.buffer, x) .input) _ hin) h (by rintro _ _ _ h; cases h) (w.chans + w.idOf (.buffer, x))).1 (by simp [Node.targets, Push.target]))
        rw [h5] at this; cases this
      obtain ⟨q2, hq2, himp2⟩ := hwait _ _ _ hin hind (unidle hin)
      rcases A.asksOr hC T hr hst hcap S hin hq2 himp2 with ⟨c2, rfl, k3, k4, k5⟩ | ⟨c2, d, b2, _, k3, k4, k5⟩ | ⟨y, he, _⟩ | ⟨y, he, hde⟩
      · have G := C24_settled B hst (Or.inl ⟨_, hq2, by simp⟩) hq' (by simp) (J.1 _ (by simp)) (J.1 _ (by simp))
        obtain ⟨G1, G2⟩ := G
        obtain ⟨_, _, _, e4, _, e6⟩ := B.ends
        obtain ⟨_, _, f3⟩ := B.fifos hst
        rw [gotOn_proj e4] at G1
        rw [gotOn_proj e6] at G2
        simp only [nGot] at C
        have hoki : (Node.relay ai.pull { written := some (2 * w.idOf (.buffer, x)) } none (.sender ⟨0, none, 0, bo.breakable⟩ (w.chans + w.idOf (.buffer, x)))).Ok := W.ok (.part (.buffer, x) .input) _ hin
        have hoko : (Node.relay (.receiver ⟨0, 0⟩ (w.chans + w.idOf (.buffer, x))) { read := some (2 * w.idOf (.buffer, x) + 1) } none bo.push).Ok := W.ok (.part (.buffer, x) .output) _ hout
        have off := node_asks hoki hq2 (r := some []) (s := .chan c2) (d := []) rfl (.chan (w.chans + w.idOf (.buffer, x))) (by simp [Node.targets, Push.target])
        have acc : acceptedBy (.chan (w.chans + w.idOf (.buffer, x))) (proj (.part (.buffer, x) .input) τ) = offeredTo (.chan (w.chans + w.idOf (.buffer, x))) (proj (.part (.buffer, x) .input) τ) :=
          acceptedBy_all fun o hom => by
            have := nf x .input _ (.offer o.to o.d o.w) hin (mem_offers.mp hom)
            obtain ⟨_, _, wo⟩ := o
            cases wo <;> simp [Act.fails] at this ⊢
        have fifo3 : (received (proj (.part (.buffer, x) .input) τ)).length = (received (proj (.part (.buffer, x) .output) τ)).length := by
          have h1 : sentOn .data (w.chans + w.idOf (.buffer, x)) (proj (.part (.buffer, x) .input) τ) =
            gotOn .data (w.chans + w.idOf (.buffer, x)) (proj (.part (.buffer, x) .output) τ) ++ (st .data (w.chans + w.idOf (.buffer, x))).q := f3
          rw [h4, List.append_nil, sentOn_data, gotOn_data, acc, off] at h1
          rw [h1, receivedFrom_eq]
          intro s' d hg
          simpa [Node.sources, Pull.source] using (node_conduct hoko hq'.partial).got s' d hg
        have noEnd : endings (proj (.part (.buffer, x) .input) τ) = 0 := by
          refine Classical.byContradiction fun hne => ?_
          obtain ⟨s', hs'⟩ := endings_pos (Nat.pos_of_ne_zero hne)
          have := (node_conduct hoki hq2.partial).ended s' hs'
          rw [k3] at this
          simp only [List.mem_cons, List.not_mem_nil, or_false] at this
          subst this
          obtain ⟨e, he, hae⟩ := List.mem_map.mp hs'
          have hmem : e ∈ τ.map Prod.snd := List.mem_map.mpr ⟨_, mem_proj.mp he, rfl⟩
          rcases ended_event hae with rfl | rfl
          · exact (open_history hst k5).2.1 hmem
          · exact (open_history hst k5).2.2 hmem
        rw [noEnd] at G1
        dsimp only at G1 G2
        omega
      · have : c2 = w.chans + w.idOf (.buffer, x) := by
          obtain ⟨k, m', hk1, hm1, ht1, hs1⟩ := k3
          have hk1 : w.node (.part (.buffer, x) .input) = some k := hk1
          rw [hin] at hk1; cases hk1
          simpa [Node.targets, Push.target] using ht1
        subst this
        exact k5 (caps_room hcap h4)
      · simp at he
      · exact heard y (by simp at he; exact he.symm) hde
    · obtain ⟨y, h6, h7⟩ := dam _ ⟨a, ha, hx⟩ _ _ h3 h4 h5
      exact ⟨y, h6, by omega⟩
    · simp at he
    · exact (heard y (by simp at he; exact he.symm) hde).elim

variable {σ : Nat → Option (Who × Ev)} {n : Nat}

/-- During a lull in which no manager waits for room, a regulator can only be paused when one further down than one of its buffers is. -/
theorem Assembled.pausedBelow (A : Assembled c hs w) (hC : Complete hs) (T : Attended cs w) (hr : w.Run cs cap (upTo σ n)) (L : w.Lull cs cap σ n st)
    (hcap : ∀ k ch, cap k ch ≠ some 0) (hu : ∀ r, ¬ w.Unheard cs cap st (upTo σ n) r) (hf : ∀ i, ∀ f ∈ acts (proj i (upTo σ n)), f.trouble = false)
    {rank : Who → Nat} {R : Nat} (hrank : ∀ a ch b, w.net.Edge a ch b → rank a < rank b) (hR : ∀ i, rank i ≤ R)
    (hctl : ∀ a ∈ cs, ∀ x ∈ a.buffers, rank (.part (.regulator, a.regulator) .main) < rank (.part (.buffer, x) .output))
    {r : Str} (hp : w.Paused cs st (upTo σ n) r) : ∃ x, w.Paused cs st (upTo σ n) x ∧ rank (.part (.regulator, r) .main) < rank (.part (.regulator, x) .main) := by
  have hst := L.quiet n (Nat.le_refl _)
  obtain ⟨E, U⟩ := A.run hC hr
  have W := A.wired hC
  have nf := C55_no_failures W E U (A.inside hC hr hf)
  have hj : ∀ i inputs pushs spy, w.node i = some (.junction inputs pushs spy) → ∀ f ∈ acts (proj i (upTo σ n)), f.ruins pushs = false :=
    fun i inputs pushs spy hi f hm => not_ruins (nf i _ f hi hm)
  have S : w.Still cs cap st (upTo σ n) := by
    refine ⟨fun i t ht _ h1 h2 => ?_, hu⟩
    rcases A.rested hC T L hj ht with h | h
    · exact h h2
    · exact h1 h
  exact A.pausedBelowOf hC T hr hst hcap S.aside.toStillBut (fun x p k f hk hm => nf (.part (.buffer, x) p) k f hk hm) (fun x p n hn => A.waits hC hr hst S hn) (fun i t _ _ ht => (L.each i t ht).imp And.right id)
    (fun x _ ch b => A.dammed hC T hr hst hcap S hj hrank hR) hctl hp

end
end Verif
