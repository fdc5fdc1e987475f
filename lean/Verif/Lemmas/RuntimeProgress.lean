import Verif.Props.RuntimeFlow
import Verif.Props.Progress
import Verif.Props.Backpressure
import Verif.Lemmas.Drive
/-!
# When the activities of a runtime can go on
-/
namespace Verif

/-! ## Ranks -/

open Classical in
/-- How many of a list lead to one. -/
noncomputable def rankIn {α : Type} (r : α → α → Prop) (l : List α) (i : α) : Nat := l.countP fun j => Relation.TransGen r j i

theorem countP_le {α : Type} {p q : α → Bool} {l : List α} (h : ∀ x ∈ l, p x = true → q x = true) : l.countP p ≤ l.countP q := by
  induction l with
  | nil => simp
  | cons x l ih =>
    have := ih fun y hy => h y (by simp [hy])
    have h1 := h x (by simp)
    rw [List.countP_cons, List.countP_cons]
    cases hp : p x with
    | false => simp; omega
    | true => simp [h1 hp]; omega

theorem countP_lt {α : Type} {p q : α → Bool} {l : List α} (h : ∀ x ∈ l, p x = true → q x = true) {y : α} (hy : y ∈ l) (h0 : p y = false) (h1 : q y = true) :
    l.countP p < l.countP q := by
  induction l with
  | nil => simp at hy
  | cons x l ih =>
    rw [List.countP_cons, List.countP_cons]
    rcases List.mem_cons.mp hy with rfl | hy
    · have := countP_le fun z hz => h z (List.mem_cons_of_mem _ hz)
      simp [h0, h1]; omega
    · have := ih (fun z hz => h z (by simp [hz])) hy
      have h2 := h x (by simp)
      cases hp : p x with
      | false => simp; omega
      | true => simp [h2 hp]; omega

theorem rankIn_lt {α : Type} {r : α → α → Prop} (hr : ∀ i, ¬ Relation.TransGen r i i) {l : List α} {a b : α} (ha : a ∈ l) (h : r a b) : rankIn r l a < rankIn r l b := by
  classical
  unfold rankIn
  refine countP_lt (y := a) ?_ ha (by simpa using hr a) (by simpa using Relation.TransGen.single h)
  intro x _ hx
  simp only [decide_eq_true_eq] at hx ⊢
  exact .tail hx h

theorem rankIn_le {α : Type} {r : α → α → Prop} {l : List α} {a : α} : rankIn r l a ≤ l.length := by
  unfold rankIn; exact List.countP_le_length

/-- The request does not wait for a notification. -/
def NoNews (q : Req) : Prop := ∀ c, q ≠ .recv .mon c

theorem MOnly.mono {α : Type} {P Q : Req → Prop} {m : M α} (h : MOnly P m) (hpq : ∀ q, P q → Q q) : MOnly Q m := Prog.Only.mono h hpq

theorem relay_noMon {pull mon spy push n} : (motionBody pull mon spy push n).Only NoNews := by
  have noRecv : ∀ q, NoRecv q → NoNews q := fun q h c => h .mon c
  unfold motionBody
  refine Prog.Only.bind (p := ExceptT.run _) ?_ ?_
  · refine MOnly.bind ?_ fun r => ?_
    · unfold motionWorker
      refine MOnly.bind ?_ fun x => ?_
      · cases pull with
        | none => exact monly_pure _
        | receiver j c =>
          refine MOnly.bind (monly_ask (by intro c; simp)) ?_
          intro a; cases a <;> exact monly_pure _
        | stream j c =>
          refine MOnly.bind (monly_ask (by intro c; simp)) ?_
          intro a; cases a <;> first | exact monly_pure _ | exact monly_throw _
      split
      · exact monly_pure _
      · refine MOnly.bind ?_ fun _ => MOnly.bind (pushAll_noRecv.mono noRecv) fun n => MOnly.bind ?_ fun _ => ?_
        · unfold notifyRead
          split
          · refine MOnly.bind (monly_ask (by intro c; simp)) ?_
            intro a; cases a <;> simp
            · split <;> exact monly_throw _
            · exact monly_pure _
          · exact monly_pure _
        · unfold notifyWritten
          split
          · refine MOnly.bind (monly_ask (by intro c; simp)) ?_
            intro a; cases a <;> simp
            · split <;> exact monly_throw _
            · exact monly_pure _
          · exact monly_pure _
        · split <;> exact monly_pure _
    generalize (if r.read = true then n + 1 else n) = m
    show MOnly _ (if r.finished = true then _ else _)
    have closeMon : ∀ m, MOnly NoNews (closeMon m) := by
      intro m
      cases m with
      | none => exact monly_pure _
      | some c => exact monly_ask (by intro c; simp)
    split
    · refine MOnly.bind ?_ fun _ => MOnly.bind (closeMon _) fun _ => MOnly.bind (closeMon _) fun _ => monly_pure _
      exact MOnly.bind (motionClose_noRecv.mono noRecv) fun _ => monly_pure _
    · exact monly_pure _
  · intro a
    rcases a with e | (n | n) <;> exact trivial

/-! ## Steps -/
section
variable {c : Config} {hs : List Hop} {w : Waiter} {cs : List Capture} {cap : Caps} {τ : List (Who × Ev)} {st : Store}

theorem Waiter.Run.step (hr : w.Run cs cap τ) (hst : execAll cap Store.init (τ.map Prod.snd) = some st) {i : Who} {t : Task} {e : Ev} {st' : Store}
    (ht : w.sys cs i = some t) (hp : t.Partial (proj i τ ++ [e])) (he : Verif.exec cap st e = some st')
    (hx : ∀ r, i = .part r .exit → ∀ p ∈ relayPieces, ∀ t, w.sys cs (.part r p) = some t → t.Done (proj (.part r p) τ)) : w.Run cs cap (τ ++ [(i, e)]) := by
  refine ⟨⟨?_, ?_⟩, ?_, ?_⟩
  · rw [List.map_append, execAll_append, hst]
    simp [execAll, he]
  · intro j t' ht'
    rw [proj_append]
    by_cases hij : j = i
    · subst hij
      rw [ht] at ht'; cases ht'
      simpa [proj] using hp
    · have : proj j [(i, e)] = [] := by simp [proj, Ne.symm hij]
      rw [this, List.append_nil]
      exact hr.exec.tasks j t' ht'
  · intro x hx
    rw [List.mem_append] at hx
    rcases hx with hx | hx
    · exact hr.known x hx
    · simp at hx; subst hx; simp [ht]
  · intro τ₁ τ₂ r e' hs
    rcases List.eq_nil_or_concat τ₂ with rfl | ⟨u, x, rfl⟩
    · have h1 := congrArg List.getLast? hs
      have h2 := congrArg List.dropLast hs
      simp at h1 h2
      subst h2
      exact hx r h1.1
    · rw [List.concat_eq_append, ← List.cons_append, ← List.append_assoc] at hs
      have h2 := congrArg List.dropLast hs
      simp only [List.dropLast_concat] at h2
      exact hr.exits τ₁ u r e' h2

theorem node_no_exit {r : CompRef} : w.node (.part r .exit) = none := by
  simp only [Waiter.node]
  cases w.comps.get r with
  | none => rfl
  | some k => cases k <;> simp [Comp.node]

theorem Rigged.canStep (_A : Rigged c hs w) (hr : w.Run cs cap τ) {i : Who} {n : Node} (hn : w.node i = some n) (h : w.net.CanStep cap τ i) : w.CanStep cs cap τ i := by
  obtain ⟨e, he⟩ := h
  obtain ⟨st, hst⟩ := Option.isSome_iff_exists.mp hr.exec.chans
  have h1 := he.chans
  rw [List.map_append, execAll_append, hst] at h1
  obtain ⟨st', hs'⟩ := Option.isSome_iff_exists.mp h1
  have h2 : exec cap st e = some st' := by
    simp [execAll] at hs'
    split at hs'
    · cases hs'
    · next h => rw [h, hs']
  have h3 := he.tasks i n.task (by simp [Network.sys, Waiter.net, hn])
  rw [proj_append, show proj i [(i, e)] = [e] by simp [proj]] at h3
  refine ⟨e, hr.step hst (sys_node hn) h3 h2 ?_⟩
  rintro r rfl
  rw [node_no_exit] at hn; cases hn

/-- No managers have been attached to anything. -/
def Waiter.Unmanaged (w : Waiter) : Prop := ∀ r k, w.comps.get r = some k → k.plain = k

theorem unmanaged {R : Map Hop} (hc : c.connection = hopSets R) (hw : getWaiter c = .ok w) : w.Unmanaged := by
  intro r k hk
  have W := C42_components c R hc hw
  by_cases hm : Mentioned (R.map (·.2)) r
  · rw [W.comps r hm] at hk; cases hk
    exact plain_expected _ _ _ _ _
  · rw [W.only r hm] at hk; cases hk

theorem regulatorSettings_none {w' : Waiter} {order} (h : w.regulatorSettings order = .ok ([], w')) : w' = w := by
  cases order with
  | nil => cases h; rfl
  | cons x l =>
    obtain ⟨r, s⟩ := x
    simp only [Waiter.regulatorSettings] at h
    cases h1 : w.getControl r with
    | missingRegulator _ => rw [h1] at h; cases h
    | missingBuffer _ _ => rw [h1] at h; cases h
    | panic => rw [h1] at h; cases h
    | ok w1 =>
      rw [h1] at h; simp only at h
      cases h2 : w1.monitorAll r s.buffers with
      | missingRegulator _ => rw [h2] at h; cases h
      | missingBuffer _ _ => rw [h2] at h; cases h
      | panic => rw [h2] at h; cases h
      | ok w2 =>
        rw [h2] at h; simp only at h
        cases h3 : w2.regulatorSettings l with
        | missingRegulator _ => rw [h3] at h; cases h
        | missingBuffer _ _ => rw [h3] at h; cases h
        | panic => rw [h3] at h; cases h
        | ok x => obtain ⟨cs, w3⟩ := x; rw [h3] at h; simp at h

theorem regulatorTask_only {pull push spy ctl} {tr : List Ev} (h : (regulatorTask pull push spy ctl).Partial tr) : ∀ e ∈ tr, Within (regulatorChans pull push spy ctl) e.q := by
  refine Task.only (fun s => regulatorBody_only) ?_ h
  intro kc hkc x hx
  simp [Req.on] at hx
  subst hx
  simp only [regulatorTask, regulatorChans, List.mem_append] at hkc ⊢
  rcases hkc with h | h <;> simp [h]

/-- Channels other than for data are only used by the parts of buffers and by regulators, each its own. -/
theorem Rigged.kindsAll (A : Rigged c hs w) (hC : Complete hs) {i : Who} {n : Node} (hn : w.node i = some n) {tr : List Ev} (hp : n.task.Partial tr)
    {e : Ev} (he : e ∈ tr) {k : Kind} {ch : Nat} (hq : e.q.on = some (k, ch)) :
    k = .data ∨ (k = .mon ∧ ∃ x, Mentioned hs (.buffer, x) ∧ (ch = 2 * w.idOf (.buffer, x) ∧ i = .part (.buffer, x) .input ∨ ch = 2 * w.idOf (.buffer, x) + 1 ∧ i = .part (.buffer, x) .output))  ∨
    (k = .ctl ∧ ∃ x, Mentioned hs (.regulator, x) ∧ ch = w.idOf (.regulator, x) ∧ i = .part (.regulator, x) .main ∧ ∃ a b, w.comps.get (.regulator, x) = some (.regulator a b true)) := by
  have W := A.wired hC
  have hok : n.Ok := W.ok i n hn
  obtain ⟨r, p, kk, rfl, hm, hk, hexp, hkn⟩ := A.node_inv hn
  have plain : n.Plain → k = .data := fun hpl => node_plain hok hpl hp he hq
  have relay : ∀ {q : Pull × Push}, relayNode q = some n → n.Plain := by
    intro q h
    obtain ⟨_, rfl⟩ := relayNode_some h
    exact ⟨rfl, rfl⟩
  cases kk with
  | faucet s o =>
    left; apply plain
    cases p <;> cases o <;> simp [Comp.node] at hkn
    subst hkn; exact ⟨rfl, rfl⟩
  | launch =>
    left; apply plain
    cases p <;> simp [Comp.node] at hkn
    all_goals exact relay hkn
  | junction =>
    left; apply plain
    cases p <;> simp [Comp.node] at hkn
    subst hkn; rfl
  | drain d o =>
    left; apply plain
    cases p <;> cases o <;> simp [Comp.node] at hkn
    subst hkn; exact ⟨rfl, rfl⟩
  | regulator a b m =>
    have hr : r.1 = .regulator := by
      cases hr : r.1 with
      | regulator => rfl
      | faucet => rw [expected_faucet _ _ _ _ hr] at hexp; cases hexp
      | drain => rw [expected_drain _ _ _ _ hr] at hexp; cases hexp
      | junction => rw [expected_junction _ _ _ _ hr] at hexp; cases hexp
      | buffer => rw [expected_buffer _ _ _ _ hr] at hexp; cases hexp
      | launch => rw [expected_launch _ _ _ _ hr] at hexp; cases hexp
    obtain ⟨ty, x⟩ := r
    simp only at hr
    subst hr
    cases m with
    | false =>
      left; apply plain
      cases p <;> cases a <;> cases b <;> simp [Comp.node] at hkn
      subst hkn; exact ⟨rfl, rfl⟩
    | true =>
      cases p <;> cases a <;> cases b <;> simp [Comp.node] at hkn
      subst hkn
      have := regulatorTask_only hp e he _ hq
      simp only [regulatorChans, List.mem_append] at this
      rcases this with ((h | h) | h) | h
      · exact Or.inl (push_owned_data h)
      · simp at h
      · simp at h
        exact Or.inr (Or.inr ⟨h.1, x, hm, h.2, rfl, _, _, hk⟩)
      · exact Or.inl (pull_owned_data h)
  | buffer a b m =>
    have hr : r.1 = .buffer := by
      cases hr : r.1 with
      | buffer => rfl
      | faucet => rw [expected_faucet _ _ _ _ hr] at hexp; cases hexp
      | drain => rw [expected_drain _ _ _ _ hr] at hexp; cases hexp
      | junction => rw [expected_junction _ _ _ _ hr] at hexp; cases hexp
      | regulator => rw [expected_regulator _ _ _ _ hr] at hexp; cases hexp
      | launch => rw [expected_launch _ _ _ _ hr] at hexp; cases hexp
    obtain ⟨ty, x⟩ := r
    simp only at hr
    subst hr
    cases p <;> cases a <;> cases b <;> simp [Comp.node] at hkn
    · subst hkn
      have := relayTask_only hp e he _ hq
      simp only [relayChans, List.mem_append] at this
      rcases this with (((h | h) | h) | h) | h
      · exact Or.inl (push_owned_data h)
      · simp at h
      · simp at h; exact Or.inr (Or.inl ⟨h.1, x, hm, Or.inl ⟨h.2, rfl⟩⟩)
      · simp at h
      · exact Or.inl (pull_owned_data h)
    · subst hkn
      have := relayTask_only hp e he _ hq
      simp only [relayChans, List.mem_append] at this
      rcases this with (((h | h) | h) | h) | h
      · exact Or.inl (push_owned_data h)
      · simp at h; exact Or.inr (Or.inl ⟨h.1, x, hm, Or.inr ⟨h.2, rfl⟩⟩)
      · simp at h
      · simp at h
      · exact Or.inl (pull_owned_data h)

/-- Channels other than for data are only used by the parts of buffers, each its own. -/
theorem Rigged.kinds (A : Rigged c hs w) (hC : Complete hs) (hu : w.Unmanaged) {i : Who} {n : Node} (hn : w.node i = some n) {tr : List Ev} (hp : n.task.Partial tr)
    {e : Ev} (he : e ∈ tr) {k : Kind} {ch : Nat} (hq : e.q.on = some (k, ch)) :
    k = .data ∨ (k = .mon ∧ ∃ x, Mentioned hs (.buffer, x) ∧ (ch = 2 * w.idOf (.buffer, x) ∧ i = .part (.buffer, x) .input ∨ ch = 2 * w.idOf (.buffer, x) + 1 ∧ i = .part (.buffer, x) .output)) := by
  rcases A.kindsAll hC hn hp he hq with h | h | ⟨_, x, _, _, _, a, b, h⟩
  · exact Or.inl h
  · exact Or.inr h
  · have := hu _ _ h
    simp [Comp.plain] at this

theorem total_speaks {sender : Option Nat} {mIn mOut : Nat} : ∀ s s', ¬ ((totalTask sender mIn mOut).body s).Runs [] (.inl s') := by
  have : ∀ s s' : Total, ¬ (totalBody sender mIn mOut s).Runs [] (.inl s') := by
    intro s s' h
    rw [total_tree] at h
    unfold countTree at h
    simp [Prog.Runs] at h
  exact this

theorem exit_speaks {e : PushEnd} : ∀ s s', ¬ ((exitTask e).body s).Runs [] (.inl s') := by
  intro s s' h
  obtain ⟨⟩ := s
  change (exitBody none e ()).Runs [] (.inl s') at h
  unfold exitBody at h
  change (Prog.op _ _).Runs [] _ at h
  simp [Prog.Runs] at h

/-- A count nobody watches can always go on. -/
theorem count_goes {mIn mOut : Nat} {tr : List Ev} (h : (totalTask none mIn mOut).Partial tr) (hd : ¬ (totalTask none mIn mOut).Done tr) :
    ∃ e st', (totalTask none mIn mOut).Partial (tr ++ [e]) ∧ exec cap st e = some st' := by
  rcases h.now total_speaks with h1 | ⟨q, hq⟩ | ⟨k, ch, h1⟩
  · exact absurd h1 hd
  · obtain ⟨r, st', h2⟩ := C22_unmonitored_partial (cap := cap) (st := st) hq
    exact ⟨_, st', hq.step r, h2⟩
  · exact ⟨_, _, h1, by simp [exec]; rfl⟩

/-- An exit part goes on unless its channel is open and full. -/
theorem exit_goes {e : PushEnd} {tr : List Ev} (h : (exitTask e).Partial tr) (hd : ¬ (exitTask e).Done tr)
    (hroom : (st .data e.chan).closed = true ∨ hasRoom (cap .data e.chan) (st .data e.chan).q.length) :
    ∃ x st', (exitTask e).Partial (tr ++ [x]) ∧ exec cap st x = some st' := by
  rcases h.now exit_speaks with h1 | ⟨q, hq⟩ | ⟨k, ch, h1⟩
  · exact absurd h1 hd
  · have : ∃ r st', exec cap st ⟨q, r⟩ = some st' := by
      refine Classical.byContradiction fun hno => ?_
      have himp : Impossible cap st q := by
        intro r
        cases hx : exec cap st ⟨q, r⟩ with
        | none => rfl
        | some st' => exact absurd ⟨r, st', hx⟩ hno
      have honly : ∀ (r : q.Resp), _ := fun r => Task.only (t := exitTask e) (fun _ => exitBody_only e) (by simp [exitTask]) (hq.step r) ⟨q, r⟩ (by simp)
      rcases impossible_cases himp with ⟨k, c', rfl, h1, h2⟩ | ⟨k, c', v, rfl, h1, h2⟩
      · have := honly none; simp at this
      · have := honly true
        simp at this
        obtain ⟨rfl, hc, _⟩ := this
        subst hc
        rcases hroom with h | h
        · rw [h] at h1; cases h1
        · exact h2 h
    obtain ⟨r, st', h2⟩ := this
    exact ⟨_, st', hq.step r, h2⟩
  · exact ⟨_, _, h1, by simp [exec]; rfl⟩

end
end Verif
