import Verif.Lemmas.Forever
import Verif.Lemmas.Rest
import Verif.Lemmas.BufferCount
/-!
# What junctions and counts that go on for ever without doing anything have seen
-/
namespace Verif

theorem idles_act {e : Ev} (h : (act e).idles = true) : (∃ c, e = ⟨.tryRecv .data c, .empty⟩) ∨ ∃ n, e = ⟨.sleep n, ()⟩ := by
  obtain ⟨q, r⟩ := e
  cases q with
  | recv k c => cases k <;> cases r <;> simp [act, Act.idles] at h
  | tryRecv k c =>
    cases k with
    | data => cases r <;> simp [act, Act.idles] at h; exact Or.inl ⟨c, rfl⟩
    | _ => simp [act, Act.idles] at h
  | send k c v => cases k <;> simp [act, Act.idles] at h
  | sleep n => exact Or.inr ⟨n, rfl⟩
  | streamRead c => cases r <;> simp [act, Act.idles] at h
  | ioWrite c v => cases r <;> simp [act, Act.idles] at h
  | _ => simp [act, Act.idles] at h

/-- A junction that goes on for ever looking at empty inputs and sleeping has an input that is still in use, and looks at all those. -/
theorem junction_rest {inputs pushs spy} {tr : List Ev} {g : Nat → Ev} (hok : (Node.junction inputs pushs spy).Ok)
    (h : ∀ k, (junctionTask inputs pushs spy).Partial (tr ++ first g k)) (hid : ∀ i, (act (g i)).idles = true) :
    (∃ s ∈ (Node.junction inputs pushs spy).sources, Network.InUse tr s) ∧
    ∀ c, .chan c ∈ (Node.junction inputs pushs spy).sources → Network.InUse tr (.chan c) → ∃ i, g i = ⟨.tryRecv .data c, .empty⟩ := by
  obtain ⟨_, hin, hd, hs, _, hne⟩ := hok
  have hd : DistinctInputs inputs := hd
  have hs : AllSenders pushs := hs
  have idle : ∀ {i k}, ∀ a ∈ acts (first (fun j => g (i + j)) k), a.idles = true := by
    intro i k a ha
    obtain ⟨e, he, rfl⟩ := List.mem_map.mp ha
    obtain ⟨j, _, rfl⟩ := mem_first.mp he
    exact hid _
  have idle0 : ∀ {k}, ∀ a ∈ acts (first g k), a.idles = true := by
    intro k a ha
    obtain ⟨e, he, rfl⟩ := List.mem_map.mp ha
    obtain ⟨j, _, rfl⟩ := mem_first.mp he
    exact hid _
  obtain ⟨⟨k, s, h1⟩, h2⟩ := Task.rounds h (by
    intro i k c he
    rcases idles_act (hid i) with ⟨_, h⟩ | ⟨_, h⟩ <;> rw [h] at he <;> cases he)
  obtain ⟨j, s', h2⟩ := h2 h1
  have h1 : LoopRounds (junctionBody pushs spy) (junctionInit inputs) (tr ++ first g k) s := h1
  have h2 : (junctionBody pushs spy s).Runs (first (fun i => g (k + i)) j) (.inl s') := h2
  obtain ⟨D, hJ, hC⟩ := rounds_closed hd hs JInv.init closedAre_nil h1
  obtain ⟨D', hJ', hC'⟩ := rounds_closed hd hs JInv.init closedAre_nil (h1.snoc h2)
  rw [List.nil_append] at hJ hJ' hC hC'
  obtain ⟨n, ws1, ws2, tail, htr, hp, hend⟩ := junctionBody_inv h2 hs
  have hpoll : ∀ w ∈ ws1 ++ ws2, ∀ a ∈ acts w.tr, a.idles = true := by
    intro w hw a ha
    refine idle (i := k) (k := j) a ?_
    rw [htr, acts_append, List.mem_append]
    left
    obtain ⟨x, y, he⟩ := split_pollTrace hw
    rw [he]; simp [ha]
  have hr : s'.stdin ≠ [] ∧ n = s.stdin.length := by
    rcases hend with ⟨_, _, _, hx, _⟩ | ⟨hok, hk, ⟨s'', hx, _, hne', _⟩ | ⟨_, hx, _⟩⟩
    · cases hx
    · cases hx
      refine ⟨hne', ?_⟩
      rcases hk with ⟨_, w, hw, hrd⟩ | ⟨hk, _⟩
      · exfalso
        rcases poll_shape (hp.runs2 w hw) with ⟨_, _, _, h0⟩ | ⟨_, _, _, _, h0, _⟩ | ⟨_, _, _, h0, _⟩ | ⟨_, h0⟩
        · simp [Poll.isRead, h0] at hrd
        · have := hpoll w (by simp [hw]) _ (by rw [h0]; exact List.mem_cons_self ..)
          simp [Act.idles] at this
        · have := hpoll w (by simp [hw]) _ (by rw [h0]; exact List.mem_cons_self ..)
          simp [Act.idles] at this
        · rw [hok w hw] at h0; cases h0
      · exact hk
    · cases hx
  have shut : ∀ {k' c}, Act.close k' c ∈ acts (tr ++ first g k) → Act.close k' c ∈ acts tr := by
    intro k' c he
    rw [acts_append, List.mem_append] at he
    rcases he with he | he
    · exact he
    · have := idle0 _ he; simp [Act.idles] at this
  have gone : ∀ p ∈ D, ∀ c, p.source = some (.chan c) → (Kind.data, c) ∈ closings tr := by
    intro p hp' c he
    refine mem_closings.mpr (shut ((hC _ _).mpr ⟨p, hp', ?_⟩))
    cases p <;> simp [Pull.source] at he
    subst he; simp [dropActs]
  constructor
  · have : s'.stdin.flatten ≠ [] := by
      intro h3
      apply hr.1
      have h4 := hJ'.groups
      cases hst : s'.stdin with
      | nil => rfl
      | cons gr G =>
        have : gr ∈ s'.stdin := by rw [hst]; simp
        rw [h4] at this
        unfold nonEmpty at this
        have h5 := (List.mem_filter.mp this).2
        rw [hst] at h3
        simp at h3
        rw [h3.1] at h5
        simp at h5
    obtain ⟨p, hp'⟩ := List.exists_mem_of_ne_nil _ this
    obtain ⟨h3, h4⟩ := hJ'.mem.mp hp'
    obtain ⟨x, hx, rfl⟩ := List.mem_map.mp h3
    obtain ⟨jj, c, hxc⟩ := hin x hx
    refine ⟨.chan c, List.mem_filterMap.mpr ⟨x, hx, by rw [hxc]; rfl⟩, fun he => ?_, fun c' e he => ?_⟩
    · obtain ⟨p', hp', hps⟩ := hJ'.here (.chan c) (by simp [he])
      have := hd.inj (hJ'.gone p' hp').1 h3 (by rw [hps, hxc]; rfl)
      subst this
      exact h4 hp'
    · cases e
      obtain ⟨p', hp', hps⟩ := (hC' .data c).mp (by rw [acts_append, acts_append]; simp [mem_closings.mp he])
      have hsrc : p'.source = some (.chan c) := by
        cases p' <;> simp [dropActs] at hps
        subst hps; rfl
      have := hd.inj (hJ'.gone p' hp').1 h3 (by rw [hsrc, hxc]; rfl)
      subst this
      exact h4 hp'
  · intro c hc he
    obtain ⟨x, hx, hxs⟩ := List.mem_filterMap.mp hc
    have hmem : x.1 ∈ s.stdin.flatten := hJ.mem.mpr ⟨List.mem_map.mpr ⟨x, hx, rfl⟩, fun hD => he.2 c rfl (gone _ hD _ hxs)⟩
    rw [← List.take_length (l := s.stdin), ← hr.2, ← hp.before] at hmem
    obtain ⟨w, hw, hwp⟩ := List.mem_map.mp hmem
    have hacts : acts w.tr = [.empty (.chan c)] := by
      rcases poll_shape (hp.runs1 w hw) with ⟨e, h3, h4, _⟩ | ⟨_, _, _, _, h0, _⟩ | ⟨_, _, _, h0, _⟩ | ⟨_, h0⟩
      · rw [hwp, hxs] at h3; cases h3; exact h4
      · have := hpoll w (by simp [hw]) _ (by rw [h0]; exact List.mem_cons_self ..)
        simp [Act.idles] at this
      · have := hpoll w (by simp [hw]) _ (by rw [h0]; exact List.mem_cons_self ..)
        simp [Act.idles] at this
      · simp [Poll.isOk, hp.skipped w hw] at h0
    obtain ⟨ev, hev, hae⟩ := List.mem_map.mp (show Act.empty (.chan c) ∈ w.tr.map act by rw [show w.tr.map act = acts w.tr from rfl, hacts]; simp)
    have hin' : ev ∈ first (fun i => g (k + i)) j := by
      rw [htr, List.mem_append]
      left
      obtain ⟨x, y, he⟩ := split_pollTrace (show w ∈ ws1 ++ ws2 by simp [hw])
      rw [he]; simp [hev]
    obtain ⟨i, _, rfl⟩ := mem_first.mp hin'
    refine ⟨k + i, ?_⟩
    rcases idles_act (hid (k + i)) with ⟨c', h⟩ | ⟨_, h⟩ <;> rw [h] at hae ⊢ <;> simp [act] at hae
    rw [hae]

/-- An event of a count or manager that is nothing but looking in vain, looking whether more may come, or sleeping. -/
def tellsNothing : Ev → Bool
  | ⟨.tryRecv _ _, .empty⟩ => true
  | ⟨.tryRecv _ _, .closed⟩ => true
  | ⟨.stat _ _, _⟩ => true
  | ⟨.sleep _, _⟩ => true
  | _ => false

theorem tellsNothing_exec {e : Ev} (h : tellsNothing e = true) {cap : Caps} {st st' : Store} (hx : exec cap st e = some st') : st' = st := by
  obtain ⟨q, r⟩ := e
  cases q with
  | tryRecv k c =>
    cases r with
    | got v => simp [tellsNothing] at h
    | empty => exact (exec_try_empty hx).2.2
    | closed => exact (exec_try_closed hx).2.2
  | stat k c =>
    simp only [exec] at hx
    split at hx
    · cases hx; rfl
    · cases hx
  | sleep n => simp [exec] at hx; exact hx.symm
  | _ => simp [tellsNothing] at h

theorem count_hears_nothing {sender : Option Nat} {mIn mOut : Nat} {s s' : Total} {u : List Ev} {cap : Caps} {st : Store} (h2 : (totalBody sender mIn mOut s).Runs u (.inl s'))
    (hx' : ∀ e ∈ u, exec cap st e = some st ∧ tellsNothing e = true) :
    (∀ m ∈ [mIn, mOut], (st .mon m).q = []) ∧ ∃ m ∈ [mIn, mOut], (st .mon m).closed = false := by
  rw [total_tree] at h2
  have rest : ∀ {size u}, (totalRest sender mIn mOut s.backOff false size s.last).Runs u (.inl s') → (∀ e ∈ u, exec cap st e = some st ∧ tellsNothing e = true) →
      (∀ m ∈ [mIn, mOut], (st .mon m).q = []) → ∃ m ∈ [mIn, mOut], (st .mon m).closed = false := by
    intro size u h3 hu hq
    refine Classical.byContradiction fun hno => ?_
    have hcl : ∀ m ∈ [mIn, mOut], (st .mon m).closed = true := by
      intro m hm
      cases hc : (st .mon m).closed with
      | true => rfl
      | false => exact absurd ⟨m, hm, hc⟩ hno
    have stat : ∀ {m r}, m ∈ [mIn, mOut] → exec cap st ⟨.stat .mon m, r⟩ = some st → r = (true, true) := by
      intro m r hm he
      obtain ⟨a, b⟩ := r
      simp only [exec] at he
      split at he
      · next hab => rw [hab.1, hab.2, hq m hm, hcl m hm]; rfl
      · cases he
    unfold totalRest at h3
    rw [Prog.runs_bind] at h3
    obtain ⟨t1, r, t2, rfl, h4, h5⟩ := h3
    have h4' : t1 = [] ∧ r.2 = true := by
      unfold reportSize at h4
      cases sender with
      | none => simp at h4; exact ⟨h4.1, by rw [h4.2]⟩
      | some c =>
        by_cases hl : s.last ≠ size
        · simp only [hl, if_true, ne_eq, not_false_eq_true] at h4
          rw [Prog.runs_bind] at h4
          obtain ⟨t3, r3, t4, rfl, h6, h7⟩ := h4
          obtain ⟨rr, t5, rfl, h6⟩ := h6
          have := (hu ⟨.send .size c size, rr⟩ (by simp)).2
          simp [tellsNothing] at this
        · simp only [hl, if_false] at h4
          simp at h4; exact ⟨h4.1, by rw [h4.2]⟩
    obtain ⟨last, ok⟩ := r
    obtain ⟨rfl, h4'⟩ := h4'
    change ok = true at h4'
    subst h4'
    dsimp only at h5
    rw [if_neg (by decide), Prog.runs_bind] at h5
    obtain ⟨t3, r3, t4, rfl, h6, h7⟩ := h5
    obtain ⟨rr, t5, rfl, h6⟩ := h6
    obtain ⟨rfl, rfl⟩ := h6
    have e1 := stat (by simp) (hu ⟨.stat .mon mIn, r3⟩ (by simp)).1
    subst e1
    dsimp only at h7
    rw [Prog.runs_bind] at h7
    obtain ⟨t6, r6, t7, rfl, h8, h9⟩ := h7
    simp only [Bool.and_self, if_true] at h8
    obtain ⟨rr, t8, rfl, h8⟩ := h8
    obtain ⟨rfl, rfl⟩ := h8
    have e2 := stat (by simp) (hu ⟨.stat .mon mOut, r6⟩ (by simp)).1
    subst e2
    simp at h9
  unfold countTree at h2
  obtain ⟨r1, t1, rfl, h3⟩ := h2
  have q1 : (st .mon mIn).q = [] ∧ (countSecond sender mIn mOut s s.size false).Runs t1 (.inl s') := by
    have h4 := hx' ⟨.tryRecv .mon mIn, r1⟩ (by simp)
    cases r1 with
    | got v => simp [tellsNothing] at h4
    | empty => exact ⟨(exec_try_empty h4.1).1, h3⟩
    | closed => exact ⟨(exec_try_closed h4.1).1, h3⟩
  clear h3
  obtain ⟨q1, h3⟩ := q1
  unfold countSecond at h3
  obtain ⟨r2, t2, rfl, h3⟩ := h3
  have q2 : (st .mon mOut).q = [] ∧ (totalRest sender mIn mOut s.backOff false s.size s.last).Runs t2 (.inl s') := by
    have h4 := hx' ⟨.tryRecv .mon mOut, r2⟩ (by simp)
    cases r2 with
    | got v => simp [tellsNothing] at h4
    | empty => exact ⟨(exec_try_empty h4.1).1, h3⟩
    | closed => exact ⟨(exec_try_closed h4.1).1, h3⟩
  clear h3
  obtain ⟨q2, h3⟩ := q2
  have hq : ∀ m ∈ [mIn, mOut], (st .mon m).q = [] := by
    intro m hm
    simp at hm
    rcases hm with rfl | rfl
    · exact q1
    · exact q2
  exact ⟨hq, rest h3 (fun e he => hx' e (by simp [he])) hq⟩

/-- A task that goes on for ever, looking in vain only, goes round its loop again and again. -/
theorem Task.vain {t : Task} {tr : List Ev} {g : Nat → Ev} (h : ∀ k, t.Partial (tr ++ first g k)) (hid : ∀ i, tellsNothing (g i) = true) :
    ∃ k s j s', LoopRounds t.body t.init (tr ++ first g k) s ∧ (t.body s).Runs (first (fun i => g (k + i)) j) (.inl s') := by
  obtain ⟨⟨k, s, h1⟩, h2⟩ := Task.rounds h (by
    intro i k c he
    have := hid i
    generalize g i = e at he this
    obtain ⟨q, r⟩ := e
    simp only at he
    subst he
    simp [tellsNothing] at this)
  obtain ⟨j, s', h2⟩ := h2 h1
  exact ⟨k, s, j, s', h1, h2⟩

/-- A count that goes on for ever hearing nothing, while the channels stay as they are, has heard everything, and more may come. -/
theorem count_rest {sender : Option Nat} {mIn mOut : Nat} {tr : List Ev} {g : Nat → Ev} {cap : Caps} {st : Store}
    (h : ∀ k, (totalTask sender mIn mOut).Partial (tr ++ first g k)) (hid : ∀ i, tellsNothing (g i) = true) (hx : ∀ i, exec cap st (g i) = some st) :
    (∀ m ∈ [mIn, mOut], (st .mon m).q = []) ∧ ∃ m ∈ [mIn, mOut], (st .mon m).closed = false := by
  obtain ⟨k, s, j, s', h1, h2⟩ := Task.vain h hid
  refine count_hears_nothing (mIn := mIn) (mOut := mOut) (cap := cap) h2 ?_
  intro e he
  obtain ⟨i, _, rfl⟩ := mem_first.mp he
  exact ⟨hx _, hid _⟩

end Verif
