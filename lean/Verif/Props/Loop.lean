import Verif.Lemmas.Rest
import Verif.Props.Progress
import Verif.Props.Backpressure
/-!
# Property C56: circles of channels
-/
namespace Verif
section
variable {ι : Type} [DecidableEq ι] {N : Network ι} {cap : Caps} {τ : List (ι × Ev)} {st : Store}

theorem send_impossible {k : Kind} {c : Nat} {v : k.Payload} (h1 : (st k c).closed = false) (h2 : ¬ hasRoom (cap k c) (st k c).q.length) :
    Impossible cap st (.send k c v) := by
  intro r
  cases r <;> simp [exec, h1, h2]

/-- What a component that has not ended does in a quiet network. -/
theorem quiet_state (hw : N.Wired) (hx : Execution cap N.sys τ) (hst : execAll cap Store.init (τ.map Prod.snd) = some st)
    (hun : N.Unhindered cap st τ) (hq : N.Quiet cap st τ) {j : ι} {m : Node} (hm : N.node j = some m) (hd : ¬ m.task.Done (proj j τ)) :
    (∃ a c, N.Edge a c j ∧ m.sources = [.chan c] ∧ m.task.Awaits (proj j τ) (.recv .data c) ∧ (st .data c).q = [] ∧ (st .data c).closed = false) ∨
    (∃ c b, N.Blocked cap st τ j c b) ∨
    (N.Idle st τ j ∧ ((∃ c, m.task.Awaits (proj j τ) (.tryRecv .data c)) ∨ ∃ n, m.task.Awaits (proj j τ) (.sleep n))) := by
  have part : m.task.Partial (proj j τ) := hx.tasks j m.task (by simp [Network.sys, hm])
  have step : ∀ {e st'}, m.task.Partial (proj j τ ++ [e]) → exec cap st e = some st' → N.Idle st τ j ∧ (act e).idles = true := by
    intro e st' hp he
    have hex : Execution cap N.sys (τ ++ [(j, e)]) := by
      refine ⟨?_, ?_⟩
      · rw [List.map_append, execAll_append, hst]
        simp [execAll, he]
      · intro i t ht
        rw [proj_append]
        by_cases hij : i = j
        · subst hij
          simp [Network.sys, hm] at ht
          subst ht
          simpa [proj] using hp
        · have : proj i [(j, e)] = [] := by simp [proj, Ne.symm hij]
          rw [this, List.append_nil]
          exact hx.tasks i t ht
    exact hq j m e hm hex
  rcases part.now (node_speaks (hw.ok j m hm)) with h | ⟨q, hqa⟩ | ⟨k, c, h⟩
  · exact absurd h hd
  · by_cases himp : Impossible cap st q
    · have : ∃ a c b, N.Edge a c b ∧ q.on = some (.data, c) := by
        refine Classical.byContradiction fun h => ?_
        exact hun.requests j m q hm hqa (fun a c b he hon => h ⟨a, c, b, he, hon⟩) himp
      obtain ⟨a, c, b, he, hon⟩ := this
      have he' := he
      obtain ⟨k, m', hk, hm', ht, hs⟩ := he'
      rcases node_awaits (hw.ok j m hm) hqa himp hon with ⟨h1, h2, h3, _, rfl⟩ | ⟨h1, h2, h3, d, rfl⟩
      · left
        have : b = j := hw.reader b j m' m c hm' hm hs (by rw [h1]; simp)
        subst this
        exact ⟨a, c, he, h1, hqa, h2, h3⟩
      · right; left
        have : a = j := hw.writer a j k m c hk hm ht h1
        subst this
        exact ⟨c, b, he, ⟨m, d, hm, hqa⟩, h2, h3⟩
    · right; right
      have : ∃ r st', exec cap st ⟨q, r⟩ = some st' := by
        refine Classical.byContradiction fun h => himp fun r => ?_
        cases he : exec cap st ⟨q, r⟩ with
        | none => rfl
        | some st' => exact absurd ⟨r, st', he⟩ h
      obtain ⟨r, st', he⟩ := this
      obtain ⟨h1, h2⟩ := step (hqa.step r) he
      refine ⟨h1, ?_⟩
      cases q with
      | tryRecv k c =>
        cases k <;> cases r <;> simp [act, Act.idles] at h2
        exact Or.inl ⟨c, hqa⟩
      | sleep n => exact Or.inr ⟨n, hqa⟩
      | recv k c => cases k <;> cases r <;> simp [act, Act.idles] at h2
      | send k c v => cases k <;> cases r <;> simp [act, Act.idles] at h2
      | ioWrite h d => cases r <;> simp [act, Act.idles] at h2
      | streamRead h => cases r <;> simp [act, Act.idles] at h2
      | _ => simp [act, Act.idles] at h2
  · have := (step h (by simp [exec]; rfl)).2
    simp [act, Act.idles] at this

theorem not_idle (hw : N.Wired) (hx : Execution cap N.sys τ) (hu : N.Undisturbed τ)
    (hst : execAll cap Store.init (τ.map Prod.snd) = some st) {a c b} (he : N.Edge a c b) (h1 : (st .data c).closed = false)
    (hne : (st .data c).q ≠ []) : ¬ N.Idle st τ b := by
  rintro ⟨inputs, pushs, spy, hn, _, hall⟩
  have F := N.facts hw hx hu he
  obtain ⟨_, m, _, hm, _, hs⟩ := he
  rw [hm] at hn; simp at hn; subst hn
  by_cases hend : Act.ended (.chan c) ∈ acts (proj b τ)
  · have := closing_closed hst (edge_complete hst F.on F.writer F.reader F.sent F.got hend).2.2
    rw [h1] at this; simp at this
  · exact hne (hall c hs (inUse_open hst hend h1)).1

/-- In a quiet network, whoever a component is waiting for to make room is waiting for another one to do so. -/
theorem blocked_next (hw : N.Wired) (hx : Execution cap N.sys τ) (hu : N.Undisturbed τ)
    (hst : execAll cap Store.init (τ.map Prod.snd) = some st)
    (hcap : ∀ a c b, N.Edge a c b → cap .data c ≠ some 0) (hun : N.Unhindered cap st τ)
    (hj : ∀ i inputs pushs spy, N.node i = some (.junction inputs pushs spy) → ∀ f ∈ acts (proj i τ), f.ruins pushs = false)
    (hq : N.Quiet cap st τ) {a c b} (hb : N.Blocked cap st τ a c b) : ∃ c' b', N.Blocked cap st τ b c' b' := by
  have he := hb.edge
  have hne : (st .data c).q ≠ [] := by
    intro h0
    apply hb.full
    have := hcap a c b he
    unfold hasRoom
    rw [h0]
    cases hc : cap .data c with
    | none => trivial
    | some x => rw [hc] at this; simp at this; simp; omega
  have hid := not_idle hw hx hu hst he hb.open_ hne
  have F := N.facts hw hx hu he
  obtain ⟨_, m, _, hm, _, hs⟩ := he
  have hd : ¬ m.task.Done (proj b τ) := by
    intro hd
    have D := node_done (hw.ok b m hm) hd (by rintro inputs pushs spy rfl; exact hj b inputs pushs spy hm) c
    have : (st .data c).closed = true := by
      exact closing_closed hst (D.2 hs)
    rw [hb.open_] at this; simp at this
  rcases quiet_state hw hx hst hun hq hm hd with ⟨a', c', _, h1, _, h2, _⟩ | h | ⟨h, _⟩
  · rw [h1] at hs; simp at hs; subst hs; exact absurd h2 hne
  · exact h
  · exact absurd h hid

theorem pigeon {α : Type} [DecidableEq α] (l : List α) (f : Nat → α) (h : ∀ k, f k ∈ l) : ∃ i j, i < j ∧ f i = f j := by
  induction hn : l.length using Nat.strongRecOn generalizing l f with
  | _ n ih =>
    by_cases hx : ∃ k, f (k + 1) = f 0
    · obtain ⟨k, hk⟩ := hx; exact ⟨0, k + 1, by omega, hk.symm⟩
    · have h0 := h 0
      obtain ⟨i, j, hij, e⟩ := ih (l.erase (f 0)).length (by rw [List.length_erase_of_mem h0]; have := List.length_pos_of_mem h0; omega)
        (l.erase (f 0)) (fun k => f (k + 1)) (fun k => (List.mem_erase_of_ne (fun e => hx ⟨k, e⟩)).mpr (h (k + 1))) rfl
      exact ⟨i + 1, j + 1, by omega, e⟩

/-- **C56**, the only way to get stuck: if in a finite network nothing happens any more although a component is
still waiting to write, there is a circle of components each waiting to write to the full channel to the next. -/
theorem C56_circle (hw : N.Wired) (hx : Execution cap N.sys τ) (hu : N.Undisturbed τ)
    (hst : execAll cap Store.init (τ.map Prod.snd) = some st) {is : List ι} (hfin : ∀ i n, N.node i = some n → i ∈ is)
    (hcap : ∀ a c b, N.Edge a c b → cap .data c ≠ some 0) (hun : N.Unhindered cap st τ)
    (hj : ∀ i inputs pushs spy, N.node i = some (.junction inputs pushs spy) → ∀ f ∈ acts (proj i τ), f.ruins pushs = false)
    (hq : N.Quiet cap st τ) {a c b} (hb : N.Blocked cap st τ a c b) : ∃ n place ch, N.Circle cap st τ n place ch := by
  let T := { x : ι × Nat × ι // N.Blocked cap st τ x.1 x.2.1 x.2.2 }
  have next : ∀ x : T, ∃ y : T, y.1.1 = x.1.2.2 := by
    rintro ⟨⟨a, c, b⟩, h⟩
    obtain ⟨c', b', h'⟩ := blocked_next hw hx hu hst hcap hun hj hq h
    exact ⟨⟨⟨b, c', b'⟩, h'⟩, rfl⟩
  obtain ⟨nx, hnx⟩ := Classical.axiomOfChoice next
  let s : Nat → T := fun k => Nat.rec ⟨(a, c, b), hb⟩ (fun _ x => nx x) k
  have hs : ∀ k, (s (k + 1)).1.1 = (s k).1.2.2 := fun k => hnx (s k)
  obtain ⟨i, j, hij, e⟩ := pigeon is (fun k => (s k).1.1) (fun k => by
    obtain ⟨n, _, hn, _⟩ := (s k).2.edge
    exact hfin _ n hn)
  refine ⟨j - i, fun k => (s (i + k)).1.1, fun k => (s (i + k)).1.2.1, by omega, ?_, ?_⟩
  · show (s (i + (j - i))).1.1 = (s i).1.1
    rw [show i + (j - i) = j by omega]; exact e.symm
  · intro k _
    show N.Blocked cap st τ _ _ (s (i + k + 1)).1.1
    rw [hs]
    exact (s (i + k)).2

/-- **C56**, and there is no way out: the components of such a circle never make another step, and what is in
their channels stays there. -/
theorem C56_frozen (hw : N.Wired) {τ' : List (ι × Ev)} (hx : Execution cap N.sys (τ ++ τ')) (hu : N.Undisturbed (τ ++ τ'))
    (hst : execAll cap Store.init (τ.map Prod.snd) = some st) {n place ch} (hc : N.Circle cap st τ n place ch) :
    (∀ x ∈ τ', ∀ i, i < n → x.1 ≠ place i) ∧ ∃ st', execAll cap Store.init ((τ ++ τ').map Prod.snd) = some st' ∧
      ∀ i, i < n → st' .data (ch i) = st .data (ch i) := by
  classical
  have pick : ∀ j : ι, ∃ o : Option (Req × Kind × Nat), (∀ q k c, o = some (q, k, c) →
        k = .data ∧ ∃ i, i < n ∧ place i = j ∧ c = ch i ∧ (∃ t, N.sys j = some t ∧ t.Awaits (proj j τ) q) ∧ q.on = some (.data, ch i) ∧ Impossible cap st q) ∧
      (o = none → ∀ i, i < n → place i ≠ j) := by
    intro j
    by_cases h : ∃ i, i < n ∧ place i = j
    · obtain ⟨i, hi, rfl⟩ := h
      have B := hc.blocked i hi
      obtain ⟨m, d, hm, ha⟩ := B.waits
      refine ⟨some (.send .data (ch i) d, .data, ch i), ?_, by simp⟩
      rintro q k c h
      simp at h
      obtain ⟨rfl, rfl, rfl⟩ := h
      exact ⟨rfl, i, hi, rfl, rfl, ⟨m.task, by simp [Network.sys, hm], ha⟩, rfl, send_impossible B.open_ B.full⟩
    · exact ⟨none, by simp, fun _ i hi e => h ⟨i, hi, e⟩⟩
  obtain ⟨stuck, hstuck⟩ := Classical.axiomOfChoice pick
  have chan : ∀ i, i < n → ∃ q, stuck (place i) = some (q, .data, ch i) := by
    intro i hi
    cases hs : stuck (place i) with
    | none => exact absurd rfl ((hstuck (place i)).2 hs i hi)
    | some x =>
      obtain ⟨q, k, c⟩ := x
      obtain ⟨rfl, i', hi', e, rfl, ⟨t, ht, ha⟩, hon, _⟩ := (hstuck (place i)).1 q k c hs
      have B := hc.blocked i hi
      obtain ⟨m, d, hm, ha'⟩ := B.waits
      simp [Network.sys, hm] at ht
      subst ht
      have := ha.next (ha'.step true)
      simp at this
      subst this
      simp [Req.on] at hon
      exact ⟨_, by rw [hon]⟩
  have F := frozen (τ' := τ') stuck hst (by
      intro i q k c h
      obtain ⟨rfl, i', _, _, rfl, h1, h2, h3⟩ := (hstuck i).1 q k c h
      exact ⟨h1, h2, h3⟩) hx (by
      intro x hxm hn i q k c h hon
      obtain ⟨rfl, i', hi', _, rfl, _⟩ := (hstuck i).1 q k c h
      have G := N.facts hw hx hu (hc.blocked i' hi').edge
      rcases G.on x (by simp [hxm]) hon with e | e
      · exact (hstuck x.1).2 hn i' hi' e.symm
      · by_cases hl : i' + 1 < n
        · exact (hstuck x.1).2 hn (i' + 1) hl e.symm
        · have : i' + 1 = n := by omega
          rw [this, hc.round] at e
          exact (hstuck x.1).2 hn 0 hc.some_ e.symm)
  obtain ⟨h1, st', h2, h3⟩ := F
  refine ⟨?_, st', ?_, ?_⟩
  · intro x hxm i hi e
    obtain ⟨q, hq⟩ := chan i hi
    have := h1 x hxm
    rw [e, hq] at this; simp at this
  · rw [List.map_append, execAll_append, hst]; exact h2
  · intro i hi
    obtain ⟨q, hq⟩ := chan i hi
    exact h3 _ q _ _ hq

/-- **C56**: where nothing happens any more, nothing has failed and nobody is waiting to write, everything has been processed. -/
theorem quiet_settled (hw : N.Wired) (hx : Execution cap N.sys τ) (hu : N.Undisturbed τ)
    (hst : execAll cap Store.init (τ.map Prod.snd) = some st) (hun : N.Unhindered cap st τ)
    (hf : ∀ j n f, N.node j = some n → f ∈ acts (proj j τ) → ¬ N.Outside j f)
    (hq : N.Quiet cap st τ) (hb : ∀ a c b, ¬ N.Blocked cap st τ a c b) : N.Settled st τ := by
  have nf := C55_no_failures hw hx hu hf
  have fin : ∀ {i n}, N.node i = some n → n.task.Done (proj i τ) → Finished n.sources n.targets (proj i τ) :=
    fun {i n} hn hd => node_finished (hw.ok i n hn) hd (fun a ha => nf i n a hn ha)
  have passed : ∀ i n t, N.node i = some n → t ∈ n.targets → offeredTo t (proj i τ) = received (proj i τ) := by
    intro i n t hn ht
    by_cases hd : n.task.Done (proj i τ)
    · exact (fin hn hd).all t ht
    · rcases quiet_state hw hx hst hun hq hn hd with ⟨a, c, _, _, h1, _⟩ | ⟨c, b, h⟩ | ⟨hid, ⟨c, h1⟩ | ⟨k, h1⟩⟩
      · exact node_asks (r := some []) (hw.ok i n hn) h1 (by rfl) t ht
      · exact absurd h (hb _ _ _)
      · exact node_asks (q := .tryRecv .data c) (r := TryRes.got []) (hw.ok i n hn) h1 (by rfl) t ht
      · obtain ⟨inputs, pushs, spy, hn', _⟩ := hid
        rw [hn] at hn'; simp at hn'; subst hn'
        exact junction_asleep (hw.ok i _ hn) h1 t ht
  have unshut : ∀ {i n c}, N.node i = some n → .chan c ∈ n.sources → Act.ended (.chan c) ∉ acts (proj i τ) → (Kind.data, c) ∉ closings (proj i τ) := by
    intro b m c hm hs hend hcl
    rcases node_closes (hw.ok b m hm) (hx.tasks b m.task (by simp [Network.sys, hm])) hs hcl with h | ⟨f, h1, h2⟩
    · exact hend h
    · rw [nf b m f hm h1] at h2; simp at h2
  refine ⟨?_, ?_, passed⟩
  · intro i n s hn hs hno
    by_cases hd : n.task.Done (proj i τ)
    · exact (fin hn hd).ended s hs
    · rcases quiet_state hw hx hst hun hq hn hd with ⟨a, c, he, h1, _⟩ | ⟨c, b, h⟩ | ⟨hid, _⟩
      · rw [h1] at hs; simp at hs
        exact absurd he (hno a c hs)
      · exact absurd h (hb _ _ _)
      · obtain ⟨inputs, pushs, spy, hn', _, hall⟩ := hid
        rw [hn] at hn'; simp at hn'; subst hn'
        obtain ⟨x, hxi, hxs⟩ := List.mem_filterMap.mp hs
        obtain ⟨jj, c, hp⟩ := (hw.ok i _ hn).2.1 x hxi
        rw [hp] at hxs; simp [Pull.source] at hxs; subst hxs
        refine Classical.byContradiction fun hse => ?_
        obtain ⟨h1, h2⟩ := hall c hs ⟨hse, fun _ e => by cases e; exact unshut hn hs hse⟩
        rcases hun.inputs i _ c hn hs (fun a he => hno a c rfl he) hse with h | h
        · exact h h1
        · rw [h] at h2; simp at h2
  · intro a c b he
    have F := N.facts hw hx hu he
    have e1 := edge_prefix hst F.sent F.got
    obtain ⟨n, m, hn, hm, ht, hs⟩ := id he
    have hp := passed a n _ hn ht
    by_cases hend : Act.ended (.chan c) ∈ acts (proj b τ)
    · obtain ⟨e2, e3, _⟩ := edge_complete hst F.on F.writer F.reader F.sent F.got hend
      have h1 : receivedFrom (.chan c) (proj b τ) = received (proj a τ) := e3.trans hp
      refine ⟨?_, h1⟩
      rw [e2, hp, ← h1] at e1
      simpa using e1
    · have hq0 : (st .data c).q = [] := by
        by_cases hd : m.task.Done (proj b τ)
        · exact absurd ((fin hm hd).ended _ hs) hend
        · rcases quiet_state hw hx hst hun hq hm hd with ⟨a', c', _, h1, _, h2, _⟩ | ⟨c, b, h⟩ | ⟨hid, _⟩
          · rw [h1] at hs; simp at hs; subst hs; exact h2
          · exact absurd h (hb _ _ _)
          · obtain ⟨inputs, pushs, spy, hn', _, hall⟩ := hid
            rw [hm] at hn'; simp at hn'; subst hn'
            exact (hall c hs ⟨hend, fun _ e => by cases e; exact unshut hm hs hend⟩).1
      have hnc : (Kind.data, c) ∉ closings (proj b τ) := unshut hm hs hend
      have e2 := edge_open hst F.on F.writer hnc
      rw [e2, hp, hq0] at e1
      exact ⟨hq0, by simpa using e1.symm⟩

/-- **C56**, a buffer prevents it: if there is an unbounded channel on every circle, then when nothing happens any more,
and nothing has failed from outside, everything has been processed. -/
theorem C56_buffer (hw : N.Wired) (hx : Execution cap N.sys τ) (hu : N.Undisturbed τ)
    (hst : execAll cap Store.init (τ.map Prod.snd) = some st) (hun : N.Unhindered cap st τ)
    (hcap : ∀ a c b, N.Edge a c b → cap .data c ≠ some 0)
    {rank : ι → Nat} {R : Nat} (hr : ∀ a c b, N.Edge a c b → cap .data c ≠ none → rank a < rank b) (hR : ∀ i n, N.node i = some n → rank i ≤ R)
    (hf : ∀ j n f, N.node j = some n → f ∈ acts (proj j τ) → ¬ N.Outside j f)
    (hq : N.Quiet cap st τ) : N.Settled st τ := by
  refine quiet_settled hw hx hu hst hun hf hq ?_
  have nf := C55_no_failures hw hx hu hf
  have bounded : ∀ {a c b}, N.Blocked cap st τ a c b → rank a < rank b := by
    intro a c b h
    refine hr a c b h.edge fun h0 => h.full ?_
    rw [h0]; trivial
  have : ∀ k a c b, R - rank a = k → ¬ N.Blocked cap st τ a c b := by
    intro k
    induction k using Nat.strongRecOn with
    | _ k ih =>
      intro a c b hk h
      obtain ⟨c', b', h'⟩ := blocked_next hw hx hu hst hcap hun (fun i inputs pushs spy h f hm => not_ruins (nf i _ f h hm)) hq h
      have r1 := bounded h
      obtain ⟨_, m, _, hm, _⟩ := h.edge
      have := hR b m hm
      exact ih (R - rank b) (by omega) b c' b' rfl h'
  exact fun a c b => this _ a c b rfl

/-- **C56.** The same seen the other way: as long as such a network has not settled, some component can do something
other than looking at empty inputs. -/
theorem C56_goes_on (hw : N.Wired) (hx : Execution cap N.sys τ) (hu : N.Undisturbed τ)
    (hst : execAll cap Store.init (τ.map Prod.snd) = some st) (hun : N.Unhindered cap st τ)
    (hcap : ∀ a c b, N.Edge a c b → cap .data c ≠ some 0)
    {rank : ι → Nat} {R : Nat} (hr : ∀ a c b, N.Edge a c b → cap .data c ≠ none → rank a < rank b) (hR : ∀ i n, N.node i = some n → rank i ≤ R)
    (hf : ∀ j n f, N.node j = some n → f ∈ acts (proj j τ) → ¬ N.Outside j f)
    (hs : ¬ N.Settled st τ) : ∃ i n e, N.node i = some n ∧ Execution cap N.sys (τ ++ [(i, e)]) ∧ ¬ (N.Idle st τ i ∧ (act e).idles = true) := by
  apply Classical.byContradiction
  intro h
  exact hs (C56_buffer hw hx hu hst hun hcap hr hR hf fun i n e hn he => Classical.byContradiction fun hc => h ⟨i, n, e, hn, he, hc⟩)

/-- **C56**: a network without circles of full channels has processed everything when nothing happens any more. -/
theorem C56_settled (hw : N.Wired) (hx : Execution cap N.sys τ) (hu : N.Undisturbed τ)
    (hst : execAll cap Store.init (τ.map Prod.snd) = some st) (hun : N.Unhindered cap st τ) {is : List ι} (hfin : ∀ i n, N.node i = some n → i ∈ is)
    (hcap : ∀ a c b, N.Edge a c b → cap .data c ≠ some 0)
    (hf : ∀ j n f, N.node j = some n → f ∈ acts (proj j τ) → ¬ N.Outside j f)
    (hq : N.Quiet cap st τ) : N.Settled st τ ∨ ∃ n place ch, N.Circle cap st τ n place ch := by
  have nf := C55_no_failures hw hx hu hf
  by_cases h : ∃ a c b, N.Blocked cap st τ a c b
  · obtain ⟨a, c, b, h⟩ := h
    exact Or.inr (C56_circle hw hx hu hst hfin hcap hun (fun i inputs pushs spy h f hm => not_ruins (nf i _ f h hm)) hq h)
  · exact Or.inl (quiet_settled hw hx hu hst hun hf hq fun a c b hb => h ⟨a, c, b, hb⟩)

end
end Verif
