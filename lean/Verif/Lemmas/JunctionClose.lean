import Verif.Lemmas.JunctionInv
/-!
# Which channels a junction closes, and when it gives an input up
-/
namespace Verif

theorem poll_no_close {pushs spy} {w : Poll} (h : PollRun pushs spy w) (k : Kind) (c : Nat) : Act.close k c ∉ acts w.tr := by
  intro hm
  rcases poll_shape h with ⟨s', _, ha, _⟩ | ⟨s', d', rest, _, ha, hq, _⟩ | ⟨s', rest, _, ha, hq, _⟩ | ⟨h0, _⟩
  · rw [ha] at hm; simp at hm
  · rw [ha] at hm; simp at hm; simpa [Act.isQuiet] using hq _ hm
  · rw [ha] at hm; simp at hm; simpa [Act.isQuiet] using hq _ hm
  · rw [h0] at hm; simp at hm

theorem pollTrace_no_close {pushs spy} {ws : List Poll} (h : ∀ w ∈ ws, PollRun pushs spy w) (k : Kind) (c : Nat) :
    Act.close k c ∉ acts (pollTrace ws) := by
  intro hm
  obtain ⟨w, hw, hm⟩ := mem_acts_pollTrace hm
  exact poll_no_close (h w hw) k c hm

theorem mem_finActs {ws : List Poll} {a : Act} : a ∈ finActs ws ↔ ∃ p ∈ (ws.filter Poll.isFin).map Poll.pull, a ∈ dropActs p := by
  simp only [finActs, List.mem_flatMap, List.mem_map, List.mem_reverse]

/-- Exactly the dropped inputs have been closed. -/
def ClosedAre (tr : List Ev) (D : List Pull) : Prop := ∀ k c, Act.close k c ∈ acts tr ↔ ∃ p ∈ D, Act.close k c ∈ dropActs p

theorem rounds_closed {inputs pushs spy tr s0 t0 D0 s} (hd : DistinctInputs inputs) (hs : AllSenders pushs)
    (h0 : JInv inputs pushs t0 s0 D0) (hc : ClosedAre t0 D0) (h : LoopRounds (junctionBody pushs spy) s0 tr s) :
    ∃ D, JInv inputs pushs (t0 ++ tr) s D ∧ ClosedAre (t0 ++ tr) D := by
  induction h generalizing t0 D0 with
  | nil => exact ⟨D0, by simpa using h0, by simpa using hc⟩
  | @next a b c t t' hb _ ih =>
    obtain ⟨k, ws1, ws2, tail, rfl, hp, hend⟩ := junctionBody_inv hb hs
    have hin := inert_of_tail hs hend
    rcases hend with ⟨_, _, _, h, _⟩ | ⟨hok, hk, ⟨s', hx, hs1, _, hs2, htail⟩ | ⟨_, h, _⟩⟩
    · simp at h
    · simp at hx; subst hx
      have hk' : (a.stdin[k]? = some (ws2.map Poll.pull)) ∨ (k = a.stdin.length ∧ ws2 = []) := by
        rcases hk with ⟨h, _⟩ | h
        · exact Or.inl h
        · exact Or.inr h
      obtain ⟨D', hJ, hD'⟩ := h0.step hd hs hp hok hk' hin b.backOff
      have : (⟨nextGroups a.stdin k ws2, b.backOff, a.readCount + ws2.countP Poll.isRead⟩ : JState) = b := by
        cases b; simp at hs1 hs2; simp [hs1, hs2]
      rw [this] at hJ
      have hc' : ClosedAre (t0 ++ (pollTrace (ws1 ++ ws2) ++ tail)) D' := by
        intro kk cc
        rw [acts_append, acts_append, List.mem_append, List.mem_append, hc kk cc, hD']
        have hno := pollTrace_no_close (pass_ok hp hok).2 kk cc
        have ht : Act.close kk cc ∈ acts tail ↔ Act.close kk cc ∈ finActs ws2 := by
          rcases htail with ⟨rfl, ha, _⟩ | ⟨_, ha, _⟩
          · rw [ha]; simp [finActs]
          · rw [ha]
        rw [ht, mem_finActs]
        simp only [hno, false_or, List.mem_append]
        constructor
        · rintro (⟨p, h1, h2⟩ | ⟨p, h1, h2⟩)
          · exact ⟨p, Or.inl h1, h2⟩
          · exact ⟨p, Or.inr h1, h2⟩
        · rintro ⟨p, h1 | h1, h2⟩
          · exact Or.inl ⟨p, h1, h2⟩
          · exact Or.inr ⟨p, h1, h2⟩
      obtain ⟨D, h1, h2⟩ := ih hJ hc'
      exact ⟨D, by simpa using h1, by simpa using h2⟩
    · simp at h

theorem closedAre_nil : ClosedAre [] [] := by intro k c; simp

theorem pollTrace_at {ws : List Poll} {ev : Ev} {a b : List Ev} (h : pollTrace ws = a ++ ev :: b) :
    ∃ l w r u v, ws = l ++ w :: r ∧ w.tr = u ++ ev :: v ∧ a = pollTrace l ++ u ∧ b = v ++ pollTrace r := by
  induction ws generalizing a with
  | nil => simp at h
  | cons w ws ih =>
    rw [pollTrace_cons, List.append_eq_append_iff] at h
    rcases h with ⟨x, h1, h2⟩ | ⟨x, h1, h2⟩
    · obtain ⟨l, w', r, u, v, rfl, e2, e3, e4⟩ := ih h2
      exact ⟨w :: l, w', r, u, v, rfl, e2, by rw [h1, e3]; simp, e4⟩
    · cases x with
      | nil =>
        simp at h2
        obtain ⟨l, w', r, u, v, rfl, e2, e3, e4⟩ := ih (a := []) (by simpa using h2.symm)
        refine ⟨w :: l, w', r, u, v, rfl, e2, ?_, e4⟩
        simp at h1
        simp [h1] at e3 ⊢
        exact e3
      | cons y x =>
        simp at h2
        obtain ⟨rfl, rfl⟩ := h2
        exact ⟨[], w, ws, a, x, rfl, h1, rfl, rfl⟩

theorem poll_got_first {pushs spy} {w : Poll} (h : PollRun pushs spy w) {u v : List Ev} {ev e d} (ht : w.tr = u ++ ev :: v)
    (he : act ev = .got e d) : u = [] ∧ w.pull.source = some e := by
  have hm : Act.got e d ∈ acts w.tr := by rw [ht]; simp [he]
  have hsrc := worker_source h e d hm
  refine ⟨?_, hsrc⟩
  rcases poll_shape h with ⟨s', _, ha, _⟩ | ⟨s', d', rest, _, ha, hq, _⟩ | ⟨s', rest, _, ha, hq, _⟩ | ⟨h0, _⟩
  · rw [ha] at hm; simp at hm
  · cases u with
    | nil => rfl
    | cons x u =>
      exfalso
      rw [ht] at ha
      simp at ha
      have := hq (.got e d) (by rw [← ha.2]; simp [he])
      simp [Act.isQuiet] at this
  · rw [ha] at hm; simp at hm
    have := hq _ hm
    simp [Act.isQuiet] at this
  · rw [h0] at hm; simp at hm

theorem JInv.shrink {inputs pushs spy tr s0 t0 D0 s} (hd : DistinctInputs inputs) (hs : AllSenders pushs)
    (h0 : JInv inputs pushs t0 s0 D0) (h : LoopRounds (junctionBody pushs spy) s0 tr s) {p : Pull}
    (hp : p ∈ s.stdin.flatten) : p ∈ s0.stdin.flatten := by
  obtain ⟨D, hJ, hsub⟩ := h0.rounds hd hs h
  have := hJ.mem.mp hp
  exact h0.mem.mpr ⟨this.1, fun h => this.2 (hsub p h)⟩

theorem got_poll {inputs pushs spy tr s0 t0 D0 s t1 ev y e d} (hd : DistinctInputs inputs) (hs : AllSenders pushs)
    (h0 : JInv inputs pushs t0 s0 D0) (h : LoopRounds (junctionBody pushs spy) s0 tr s) (htr : tr = t1 ++ ev :: y)
    (he : act ev = .got e d) :
    ∃ w y', PollRun pushs spy w ∧ w.isOk = true ∧ ev :: y = w.tr ++ y' ∧ w.pull.source = some e ∧
      w.pull ∈ inputs.map Prod.fst ∧ (w.isFin = true → w.pull ∉ s.stdin.flatten) := by
  induction h generalizing t0 D0 t1 y with
  | nil => simp at htr
  | @next a b c t t' hb hrest ih =>
    have hone : LoopRounds (junctionBody pushs spy) a (t ++ []) b := .next hb .nil
    obtain ⟨D1, hJ1, _⟩ := h0.rounds hd hs hone
    have later : ∀ {t1}, t' = t1 ++ ev :: y → ∃ w y', PollRun pushs spy w ∧ w.isOk = true ∧ ev :: y = w.tr ++ y' ∧
        w.pull.source = some e ∧ w.pull ∈ inputs.map Prod.fst ∧ (w.isFin = true → w.pull ∉ c.stdin.flatten) := fun h => ih hJ1 h
    have now : ∀ {x}, t = t1 ++ ev :: x → y = x ++ t' → ∃ w y', PollRun pushs spy w ∧ w.isOk = true ∧ ev :: y = w.tr ++ y' ∧
        w.pull.source = some e ∧ w.pull ∈ inputs.map Prod.fst ∧ (w.isFin = true → w.pull ∉ c.stdin.flatten) := by
      intro x hx hy
      obtain ⟨k, ws1, ws2, tail, htt, hp, hend⟩ := junctionBody_inv hb hs
      have hin := inert_of_tail hs hend
      rcases hend with ⟨_, _, _, h, _⟩ | ⟨hok, hk, ⟨s', hx', hs1, _, hs2, _⟩ | ⟨_, h, _⟩⟩
      · simp at h
      · simp at hx'; subst hx'
        obtain ⟨hokall, hrun⟩ := pass_ok hp hok
        have hin' : ∀ z, tail = z → ev ∉ z := by
          rintro _ rfl hm
          have : act ev ∈ acts tail := List.mem_map.mpr ⟨ev, hm, rfl⟩
          rw [he] at this
          exact hin.proj.2.2.2.1 e d this
        have : ∃ x', pollTrace (ws1 ++ ws2) = t1 ++ ev :: x' ∧ x = x' ++ tail := by
          rw [hx, eq_comm, List.append_eq_append_iff] at htt
          rcases htt with ⟨z, h1, h2⟩ | ⟨z, h1, h2⟩
          · exact absurd (by rw [h2]; simp) (hin' _ rfl)
          · cases z with
            | nil => simp at h2; exact absurd (by rw [← h2]; simp) (hin' _ rfl)
            | cons q z => simp at h2; obtain ⟨rfl, rfl⟩ := h2; exact ⟨z, h1, rfl⟩
        obtain ⟨x', hpt, hx''⟩ := this
        obtain ⟨l, w, r, u, v, hws, e2, e3, e4⟩ := pollTrace_at hpt
        have hw : w ∈ ws1 ++ ws2 := by rw [hws]; simp
        obtain ⟨hu, hsrc⟩ := poll_got_first (hrun w hw) e2 he
        subst hu
        refine ⟨w, pollTrace r ++ (tail ++ t'), hrun w hw, hokall w hw, ?_, hsrc, ?_, ?_⟩
        · rw [e2, hy, hx'', e4]; simp
        · refine (h0.mem.mp ?_).1
          rw [List.mem_append] at hw
          rcases hw with hw | hw
          · have : w.pull ∈ (a.stdin.take k).flatten := by
              rw [← hp.before]; exact List.mem_map.mpr ⟨w, hw, rfl⟩
            rw [List.mem_flatten] at this ⊢
            obtain ⟨g, h1, h2⟩ := this
            exact ⟨g, (List.take_sublist _ _).subset h1, h2⟩
          · have := hp.group.subset (List.mem_map.mpr ⟨w, hw, rfl⟩)
            rw [List.mem_flatten]
            cases hg : a.stdin[k]? with
            | none => rw [hg] at this; simp at this
            | some g => rw [hg] at this; exact ⟨g, List.mem_of_getElem? hg, by simpa using this⟩
        · intro hfin hmem
          have hmb := hJ1.shrink hd hs hrest hmem
          rw [hs1, nextGroups_without (h0.nodup hd) (by
            rcases hk with ⟨h, _⟩ | h
            · exact Or.inl h
            · exact Or.inr h), flatten_nonEmpty, flatten_map_without, mem_without] at hmb
          apply hmb.2
          rw [List.mem_append] at hw
          rcases hw with hw | hw
          · rw [Poll.isFin, hp.skipped w hw] at hfin; simp at hfin
          · rw [List.mem_map]; exact ⟨w, List.mem_filter.mpr ⟨hw, hfin⟩, rfl⟩
      · simp at h
    rw [List.append_eq_append_iff] at htr
    rcases htr with ⟨z, h1, h2⟩ | ⟨z, h1, h2⟩
    · exact later h2
    · cases z with
      | nil => simp at h2; exact later (t1 := []) (by simpa using h2.symm)
      | cons q z => simp at h2; obtain ⟨rfl, rfl⟩ := h2; exact now h1 rfl

/-- An input whose message found all outputs gone, all of variation F, is dropped. -/
theorem allGone_dropped {inputs pushs spy tr s e} (hd : DistinctInputs inputs) (hs : AllSenders pushs)
    (h : LoopRounds (junctionBody pushs spy) (junctionInit inputs) tr s) (hg : AllGone pushs e tr) :
    ∀ p, p.source = some e → p ∉ s.stdin.flatten := by
  obtain ⟨hall, t1, t, t2, d, rest, htr, ha, ho, hcl⟩ := hg
  match t, ha with
  | ev :: t, ha =>
    simp at ha
    obtain ⟨w, y', hw, hok, hsplit, hsrc, hwi, hfin⟩ := got_poll hd hs JInv.init h (t1 := t1) (ev := ev) (y := t ++ t2)
      (by rw [htr]; simp) ha.1
    have hrec : received w.tr = [d] := by
      have hne : w.tr ≠ [] := by
        intro h0
        rcases poll_shape hw with ⟨s', _, ha', _⟩ | ⟨s', d', rest, _, ha', hq, _⟩ | ⟨s', rest, _, ha', hq, _⟩ | ⟨_, h1⟩
        · rw [h0] at ha'; simp at ha'
        · rw [h0] at ha'; simp at ha'
        · rw [h0] at ha'; simp at ha'
        · rw [hok] at h1; simp at h1
      match hwt : w.tr, hne with
      | x :: xs, _ =>
        rw [hwt] at hsplit
        simp at hsplit
        have hmem : d ∈ received w.tr := by
          unfold received
          rw [List.mem_filterMap]
          exact ⟨.got e d, by rw [hwt]; simp [← hsplit.1, ha.1], rfl⟩
        have := (C05_fan_out hw).1
        rw [← hwt]
        match hr : received w.tr with
        | [] => rw [hr] at hmem; simp at hmem
        | [d'] => rw [hr] at hmem; simp at hmem; simp [hmem]
        | _ :: _ :: _ => rw [hr] at this; simp at this
    have hoffw := poll_ok hw hok
    rw [hrec] at hoffw
    simp at hoffw
    have hsame : offers w.tr = offers (ev :: t) := by
      have hlen : (offers w.tr).length = (offers (ev :: t)).length := by
        have := congrArg List.length (hoffw.trans ho.symm)
        simpa using this
      have : (ev :: t) ++ t2 = w.tr ++ y' := by simpa using hsplit
      rw [List.append_eq_append_iff] at this
      rcases this with ⟨z, h1, _⟩ | ⟨z, h1, _⟩
      · exact ((offers_prefix (t := ev :: t) ⟨z, h1.symm⟩).eq_of_length hlen.symm).symm
      · exact (offers_prefix (t := w.tr) ⟨z, h1.symm⟩).eq_of_length hlen
    have hres : ∃ x, w.res = .ok x := by
      unfold Poll.isOk at hok; split at hok
      · exact ⟨_, by assumption⟩
      · simp at hok
    obtain ⟨x, hx⟩ := hres
    obtain ⟨_, _, h6⟩ := C06_pipe_variations hw d hrec _ rfl
    obtain ⟨l1, _, l2⟩ := h6 x hx
    have hxf : x.finished = true := by
      rw [l2]
      intro y hy
      refine ⟨?_, ?_⟩
      · apply hall
        rw [← l1, List.mem_map]; exact ⟨y, hy, rfl⟩
      · have hlen : ((offers w.tr).map Offer.w).length ≤ pushs.length := by
          have := congrArg List.length hoffw
          simp [toEach] at this
          have h2 := List.length_filterMap_le Push.target pushs
          simp; omega
        have : y.2 ∈ (outcomes pushs ((offers w.tr).map Offer.w)).map Prod.snd := List.mem_map.mpr ⟨y, hy, rfl⟩
        rw [outcomes_map_snd hs hlen, List.mem_map] at this
        obtain ⟨o, ho', hoy⟩ := this
        rw [hsame] at ho'
        obtain ⟨why, hwhy⟩ := hcl o ho'
        exact ⟨why, by rw [← hoy, hwhy]⟩
    have hf := hfin (by simp [Poll.isFin, hx, hxf])
    intro p hp hmem
    obtain ⟨D, hJ, _⟩ := JInv.init.rounds hd hs h
    have hpin := (hJ.mem.mp hmem).1
    -- the poll's input is the connected one
    have hwin : w.pull = p := hd.inj hwi hpin (by rw [hsrc, hp])
    exact hf (hwin ▸ hmem)

end Verif
