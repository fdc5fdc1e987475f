import Verif.Props.Junction
import Verif.Lemmas.JunctionClose
/-!
# Properties C12 (refutation), C13, C14, C15: what a junction copies and how it ends
-/
namespace Verif

private theorem two_orders {α : Type} {L : List α} {p q : α} (hn : L.Nodup) (h1 : [q, p].Sublist L) (h2 : [p, q].Sublist L) : False := by
  induction L with
  | nil => simp at h1
  | cons x xs ih =>
    rw [List.nodup_cons] at hn
    cases h1 with
    | cons _ h1 =>
      cases h2 with
      | cons _ h2 => exact ih hn.2 h1 h2
      | cons_cons _ h2 => exact hn.1 (h1.subset (by simp))
    | cons_cons _ h1 =>
      cases h2 with
      | cons _ h2 => exact hn.1 (h2.subset (by simp))
      | cons_cons _ h2 => exact hn.1 (h2.subset (by simp))

/-- **C12, refuted.** Inputs `q` and `p` have the same priority `n`, `q` was connected first, and some
input has a smaller number. Then a message is taken from `p` only if `q` was found empty in the same
pass (or has ended): `p` gets nothing through as long as `q` always has a message ready. -/
theorem C12_refuted_earlier_starves_later {inputs pushs spy tr1 tr2 s A B d} {p q r : Pull} {n m ep eq}
    (hd : DistinctInputs inputs) (hs : AllSenders pushs)
    (hqp : [(q, n), (p, n)].Sublist inputs) (hr : (r, m) ∈ inputs) (hmn : m < n)
    (hep : p.source = some ep) (heq : q.source = some eq)
    (h1 : LoopRounds (junctionBody pushs spy) (junctionInit inputs) tr1 s)
    (h2 : (junctionBody pushs spy s).Partial tr2) (hgot : acts tr2 = A ++ Act.got ep d :: B) :
    Act.empty eq ∈ A ∨ Act.ended eq ∈ acts tr1 ∨ AllGone pushs eq tr1 := by
  obtain ⟨D, hJ, _⟩ := JInv.init.rounds hd hs h1
  rw [List.nil_append] at hJ
  obtain ⟨t3, x, hrun⟩ := h2.extend
  obtain ⟨k, ws1, ws2, w, g, hp, hw, hsrc, hk, hg, hA⟩ := got_in_pass hs hrun hgot
  have hpin : p ∈ inputs.map Prod.fst := by
    rw [List.mem_map]; exact ⟨(p, n), hqp.subset (by simp), rfl⟩
  have hqin : q ∈ inputs.map Prod.fst := by
    rw [List.mem_map]; exact ⟨(q, n), hqp.subset (by simp), rfl⟩
  have hws : w.pull ∈ s.stdin.flatten := by rw [List.mem_flatten]; exact ⟨g, List.mem_of_getElem? hk, hg⟩
  have hwp : w.pull = p := hd.inj (hJ.mem.mp hws).1 hpin (by rw [hsrc, hep])
  rw [hwp] at hg hws
  by_cases hqD : q ∈ D
  · obtain ⟨_, e', h3, h4⟩ := hJ.gone q hqD
    rw [heq] at h3; simp at h3; subst h3
    exact Or.inr h4
  · have hqs : q ∈ s.stdin.flatten := hJ.mem.mpr ⟨hqin, hqD⟩
    have hpD : p ∉ D := (hJ.mem.mp hws).2
    rw [List.mem_flatten] at hqs
    obtain ⟨gq, hgq, hqg⟩ := hqs
    obtain ⟨j, hj⟩ := List.getElem?_of_mem hgq
    have hne : p ≠ q := by
      rintro rfl
      have := hd.nodup.sublist (hqp.map Prod.fst)
      simp at this
    have horder : [q, p].Sublist s.stdin.flatten := by
      rw [hJ.groups, flatten_nonEmpty, flatten_map_without, initializeStdin_flatten]
      have h1 : [(q, n), (p, n)].Sublist (sortByPriority inputs) := by
        have := hqp.filter (fun x => decide (x.2 = n))
        rw [← sortByPriority_stable inputs n] at this
        simp at this
        exact this.trans List.filter_sublist
      have h2 := (h1.map Prod.fst).filter (fun p => decide (p ∉ D))
      simp [hqD, hpD] at h2
      simpa [without] using h2
    have hnod := hJ.nodup hd
    have hjk : j < k := by
      apply Classical.byContradiction
      intro hcon
      rcases Nat.lt_or_ge k j with hlt | hge
      · have hpw : s.stdin.flatten.Pairwise (fun x y => ¬ (x = p ∧ y = q)) := by
          rw [List.pairwise_iff_forall_sublist]
          rintro a b hab ⟨rfl, rfl⟩
          exact two_orders hnod horder hab
        exact pairwise_flatten_idx hpw hk hj hlt hg hqg ⟨rfl, rfl⟩
      · have : j = k := by omega
        subst this
        rw [hj] at hk; simp at hk; subst hk
        have hmem : gq ∈ nonEmpty ((initializeStdin inputs).map (without D)) := by rw [← hJ.groups]; exact hgq
        unfold nonEmpty at hmem
        rw [List.mem_filter, List.mem_map] at hmem
        obtain ⟨⟨g0, hg0, rfl⟩, _⟩ := hmem
        rw [mem_without] at hqg hg
        cases hso : sortByPriority inputs with
        | nil => rw [initializeStdin_nil inputs hso] at hg0; simp at hg0
        | cons y ys =>
          rw [initializeStdin_eq inputs y ys hso, List.mem_cons] at hg0
          rcases hg0 with rfl | hg0
          · -- the first group holds the smallest priority only
            have h3 := hqg.1
            rw [List.mem_map] at h3
            obtain ⟨z, hz, hzq⟩ := h3
            have hzt := List.all_eq_true.mp List.all_takeWhile z hz
            simp at hzt
            have hzin : z ∈ inputs := (sortByPriority_perm inputs).mem_iff.mp
              (by rw [hso]; exact (List.takeWhile_sublist _).subset hz)
            have hzn : z.2 = n := by
              obtain ⟨prio, hprio⟩ := exists_prio hd
              have a := hprio z hzin
              have b := hprio (q, n) (hqp.subset (by simp))
              rw [hzq] at a; simp at b; omega
            have hrin : (r, m) ∈ y :: ys := by rw [← hso]; exact (sortByPriority_perm inputs).mem_iff.mpr hr
            have hsort := sortByPriority_sorted inputs
            rw [hso] at hsort
            rw [List.mem_cons] at hrin
            rcases hrin with h | h
            · rw [← h] at hzt; simp at hzt; omega
            · have := (List.pairwise_cons.mp hsort).1 _ h
              simp at this; omega
          · rw [List.mem_map] at hg0
            obtain ⟨z, _, rfl⟩ := hg0
            simp at hqg hg
            exact hne (by rw [hg.1, hqg.1])
    obtain ⟨e', h3, h4⟩ := skipped_seen hp hA (flatten_take_of_lt hj hqg hjk)
    rw [heq] at h3; simp at h3; subst h3
    exact Or.inl h4

/-- **C12, refuted**, by runs of any length: inputs 1 (priority 0), 2 and 3 (both priority 1). The junction
can take any number of messages from input 2 without once looking at input 3. -/
theorem C12_refuted_starvation (N : Nat) : ∃ tr s,
    LoopRounds (junctionBody [.sender ⟨4, some .out, 5, .terminate⟩ 9] none)
      (junctionInit [(.receiver ⟨1, 4⟩ 1, 0), (.receiver ⟨2, 4⟩ 2, 1), (.receiver ⟨3, 4⟩ 3, 1)]) tr s ∧
    (receivedFrom (.chan 2) tr).length = N ∧
    ∀ a ∈ acts tr, a ≠ Act.empty (.chan 3) ∧ a ≠ Act.ended (.chan 3) ∧ ∀ d, a ≠ Act.got (.chan 3) d := by
  let J : Nat → JState := fun n => ⟨[[.receiver ⟨1, 4⟩ 1], [.receiver ⟨2, 4⟩ 2], [.receiver ⟨3, 4⟩ 3]], ⟨0⟩, n⟩
  have step : ∀ n, (junctionBody [.sender ⟨4, some .out, 5, .terminate⟩ 9] none (J n)).Runs
      [⟨.tryRecv .data 1, .empty⟩, ⟨.tryRecv .data 2, .got [97]⟩, ⟨.send .data 9 [97], true⟩] (.inl (J (n + 1))) := by
    intro n
    exact ⟨.empty, _, rfl, .got [97], _, rfl, true, _, rfl, rfl, rfl⟩
  have all : ∀ n, ∃ tr, LoopRounds (junctionBody [.sender ⟨4, some .out, 5, .terminate⟩ 9] none) (J n) tr (J (n + N)) ∧
      (receivedFrom (.chan 2) tr).length = N ∧
      ∀ a ∈ acts tr, a ≠ Act.empty (.chan 3) ∧ a ≠ Act.ended (.chan 3) ∧ ∀ d, a ≠ Act.got (.chan 3) d := by
    induction N with
    | zero => intro n; exact ⟨[], .nil, rfl, by simp⟩
    | succ N ih =>
      intro n
      obtain ⟨tr, h1, h2, h3⟩ := ih (n + 1)
      refine ⟨_, .next (step n) (by rw [show n + (N + 1) = n + 1 + N by omega]; exact h1), ?_, ?_⟩
      · rw [receivedFrom_append, List.length_append, h2]
        simp [receivedFrom, act]; omega
      · intro a ha
        rw [acts_append, List.mem_append] at ha
        rcases ha with ha | ha
        · simp [act] at ha
          rcases ha with rfl | rfl | rfl <;> simp
        · exact h3 a ha
  obtain ⟨tr, h⟩ := all 0
  exact ⟨tr, _, h⟩

/-- The hypotheses of the refutation are met by those inputs. -/
example : [((.receiver ⟨2, 4⟩ 2, 1) : Pull × Int), (.receiver ⟨3, 4⟩ 3, 1)].Sublist
      [(.receiver ⟨1, 4⟩ 1, 0), (.receiver ⟨2, 4⟩ 2, 1), (.receiver ⟨3, 4⟩ 3, 1)] ∧
    DistinctInputs [(.receiver ⟨1, 4⟩ 1, 0), (.receiver ⟨2, 4⟩ 2, 1), (.receiver ⟨3, 4⟩ 3, 1)] ∧
    AllSenders [.sender ⟨4, some .out, 5, .terminate⟩ 9] := by
  refine ⟨by simp, by simp [DistinctInputs, Pull.source], ?_⟩
  intro p hp; simp at hp; exact ⟨_, _, hp⟩

theorem flatMap_prefix {α β : Type} {a b : List α} (h : a <+: b) (f : α → List β) : a.flatMap f <+: b.flatMap f := by
  obtain ⟨c, rfl⟩ := h
  rw [List.flatMap_append]; exact List.prefix_append _ _

theorem pollTrace_copied {pushs spy} {ws : List Poll} (h : ∀ w ∈ ws, PollRun pushs spy w) (hok : ∀ w ∈ ws, w.isOk = true) :
    (offers (pollTrace ws)).map (fun o => (o.to, o.d)) = (received (pollTrace ws)).flatMap (toEach pushs) := by
  induction ws with
  | nil => rfl
  | cons w ws ih =>
    have ih := ih (fun v hv => h v (by simp [hv])) (fun v hv => hok v (by simp [hv]))
    simp only [pollTrace_cons, offers_append, received_append, List.map_append, List.flatMap_append, ih,
      poll_ok (h w (by simp)) (hok w (by simp))]

theorem got_source {inputs pushs spy tr s e d} (hd : DistinctInputs inputs) (hs : AllSenders pushs)
    (h : LoopRounds (junctionBody pushs spy) (junctionInit inputs) tr s) (hm : Act.got e d ∈ acts tr) :
    ∃ x ∈ inputs, x.1.source = some e := by
  have aux : ∀ {s0 t0 D0}, JInv inputs pushs t0 s0 D0 → LoopRounds (junctionBody pushs spy) s0 tr s →
      Act.got e d ∈ acts tr → ∃ x ∈ inputs, x.1.source = some e := by
    clear h hm
    intro s0 t0 D0 hJ h hm
    induction h generalizing t0 D0 with
    | nil => simp at hm
    | @next a b c t t' hb hrest ih =>
      have hone : LoopRounds (junctionBody pushs spy) a (t ++ []) b := .next hb .nil
      obtain ⟨D1, hJ1, _⟩ := hJ.rounds hd hs hone
      rw [acts_append, List.mem_append] at hm
      rcases hm with hm | hm
      · obtain ⟨A, B, hAB⟩ := List.append_of_mem hm
        obtain ⟨k, ws1, ws2, w, g, _, _, hsrc, hk, hg, _⟩ := got_in_pass (t3 := []) hs (by simpa using hb) hAB
        have : w.pull ∈ a.stdin.flatten := by rw [List.mem_flatten]; exact ⟨g, List.mem_of_getElem? hk, hg⟩
        have := (hJ.mem.mp this).1
        rw [List.mem_map] at this
        obtain ⟨x, hx, hxw⟩ := this
        exact ⟨x, hx, by rw [hxw]; exact hsrc⟩
      · exact ih hJ1 hm
  exact aux JInv.init h hm

theorem rounds_copied {pushs spy s0 tr s} (hs : AllSenders pushs) (h : LoopRounds (junctionBody pushs spy) s0 tr s) :
    (offers tr).map (fun o => (o.to, o.d)) = (received tr).flatMap (toEach pushs) := by
  induction h with
  | nil => rfl
  | @next a b c t t' hb _ ih =>
    obtain ⟨k, ws1, ws2, tail, rfl, hp, hend⟩ := junctionBody_inv hb hs
    have hin := inert_of_tail hs hend
    rcases hend with ⟨_, _, _, h, _⟩ | ⟨hok, _⟩
    · simp at h
    · obtain ⟨hokall, hrun⟩ := pass_ok hp hok
      have hpt := pollTrace_copied hrun hokall
      obtain ⟨t1, t2, _⟩ := hin.proj
      simp only [offers_append, received_append, List.map_append, List.flatMap_append, t1, t2, ih, hpt]
      simp

/-- **C13.** At every moment of every run of a junction (failing ones too): the writes made are an
initial segment of "every message received, in the order of receipt, to every output, in the order
of the outputs", and at most the last message received is not yet written everywhere. Every message
received comes from one of the inputs. -/
theorem C13_common_order {inputs pushs spy tr} (hd : DistinctInputs inputs) (hs : AllSenders pushs)
    (h : LoopPartial (junctionBody pushs spy) (junctionInit inputs) tr) :
    (offers tr).map (fun o => (o.to, o.d)) <+: (received tr).flatMap (toEach pushs) ∧
    (received tr).dropLast.flatMap (toEach pushs) <+: (offers tr).map (fun o => (o.to, o.d)) ∧
    ∀ e d, Act.got e d ∈ acts tr → ∃ x ∈ inputs, x.1.source = some e := by
  obtain ⟨s, t1, t2, h1, h2, rfl⟩ := h
  have c1 := rounds_copied hs h1
  obtain ⟨t3, x, hrun⟩ := h2.extend
  obtain ⟨k, ws1, ws2, tail, htr, hp, hend⟩ := junctionBody_inv hrun hs
  have hin := inert_of_tail hs hend
  have hpre : t2 <+: pollTrace (ws1 ++ ws2) ++ tail := ⟨t3, htr⟩
  have hrunall : ∀ w ∈ ws1 ++ ws2, PollRun pushs spy w := by
    intro w hw
    rw [List.mem_append] at hw
    rcases hw with hw | hw
    · exact hp.runs1 w hw
    · exact hp.runs2 w hw
  -- only the last poll can fail
  have hlast : ∀ w l, l ++ [w] <+: ws1 ++ ws2 → ∀ v ∈ l, v.isOk = true := by
    intro w l hl v hv
    rcases hend with ⟨_, ws', w', _, hw', _, hok, _⟩ | ⟨hok, _⟩
    · have : l <+: ws1 ++ ws' := by
        rw [hw', ← List.append_assoc] at hl
        obtain ⟨z, hz⟩ := hl
        have hz' : (l ++ [w] ++ z).dropLast = ws1 ++ ws' := by rw [hz]; simp
        refine ⟨([w] ++ z).dropLast, ?_⟩
        rw [List.append_assoc, List.dropLast_append_of_ne_nil (by simp)] at hz'
        exact hz'
      have := this.subset hv
      rw [List.mem_append] at this
      rcases this with h | h
      · simp [Poll.isOk, hp.skipped v h]
      · exact hok v h
    · exact (pass_ok hp hok).1 v (hl.subset (by simp [hv]))
  have key : (offers t2).map (fun o => (o.to, o.d)) <+: (received t2).flatMap (toEach pushs) ∧
      (received t2).dropLast.flatMap (toEach pushs) <+: (offers t2).map (fun o => (o.to, o.d)) := by
    have part : ∀ {t}, t <+: pollTrace (ws1 ++ ws2) →
        (offers t).map (fun o => (o.to, o.d)) <+: (received t).flatMap (toEach pushs) ∧
        (received t).dropLast.flatMap (toEach pushs) <+: (offers t).map (fun o => (o.to, o.d)) := by
      intro t ht
      -- the polls up to the last one that has begun
      have : ∃ l u, t = pollTrace l ++ u ∧ (∀ v ∈ l, PollRun pushs spy v ∧ v.isOk = true) ∧
          (u = [] ∨ ∃ w, PollRun pushs spy w ∧ u <+: w.tr) := by
        obtain ⟨l, u, hl, rfl, hu⟩ := pollTrace_prefix ht
        rcases hu with rfl | ⟨w, hw, hu⟩
        · rcases List.eq_nil_or_concat l with rfl | ⟨l', w, rfl⟩
          · exact ⟨[], [], rfl, by simp, Or.inl rfl⟩
          · refine ⟨l', w.tr, by simp, ?_, Or.inr ⟨w, hrunall w (hl.subset (by simp)), List.prefix_rfl⟩⟩
            intro v hv
            exact ⟨hrunall v (hl.subset (by simp [hv])), hlast w l' (by simpa using hl) v hv⟩
        · refine ⟨l, u, rfl, ?_, Or.inr ⟨w, hrunall w (hw.subset (by simp)), hu⟩⟩
          intro v hv
          exact ⟨hrunall v (hl.subset hv), hlast w l hw v hv⟩
      obtain ⟨l, u, rfl, hl, hu⟩ := this
      have cl := pollTrace_copied (fun v hv => (hl v hv).1) (fun v hv => (hl v hv).2)
      have cu : (offers u).map (fun o => (o.to, o.d)) <+: (received u).flatMap (toEach pushs) ∧ (received u).length ≤ 1 := by
        rcases hu with rfl | ⟨w, hw, hu⟩
        · simp
        · exact poll_prefix hw hu
      constructor
      · simp only [offers_append, received_append, List.map_append, List.flatMap_append, cl]
        exact (List.prefix_append_right_inj _).mpr cu.1
      · simp only [offers_append, received_append, List.map_append, cl]
        match hr : received u with
        | [] =>
          rw [List.append_nil]
          exact (flatMap_prefix (List.dropLast_prefix _) _).trans (List.prefix_append _ _)
        | [d] => rw [List.dropLast_concat]; exact List.prefix_append _ _
        | _ :: _ :: _ => rw [hr] at cu; simp at cu
    rcases prefix_append_cases hpre with hpre | ⟨v, rfl, hv⟩
    · exact part hpre
    · obtain ⟨p1, p2, _⟩ := hin.proj
      obtain ⟨z, rfl⟩ := hv
      simp at p1 p2
      have := part (t := pollTrace (ws1 ++ ws2)) List.prefix_rfl
      simpa [p1, p2] using this
  refine ⟨?_, ?_, ?_⟩
  · simp only [offers_append, received_append, List.map_append, List.flatMap_append, c1]
    exact (List.prefix_append_right_inj _).mpr key.1
  · simp only [offers_append, received_append, List.map_append, c1]
    cases hr : received t2 with
    | nil =>
      rw [List.append_nil]
      exact (flatMap_prefix (List.dropLast_prefix _) _).trans (List.prefix_append _ _)
    | cons d ds =>
      rw [List.dropLast_append_of_ne_nil (by simp), List.flatMap_append, ← hr]
      exact (List.prefix_append_right_inj _).mpr key.2
  · intro e d hm
    rw [acts_append, List.mem_append] at hm
    rcases hm with hm | hm
    · exact got_source hd hs h1 hm
    · obtain ⟨A, B, hAB⟩ := List.append_of_mem hm
      obtain ⟨p, n, h3, h4, _⟩ := C10_lower_number_first hd hs h1 h2 hAB
      exact ⟨_, h3, h4⟩

/-- **C13**, a complete failure-free run: everything received was written to every output, in the
order of receipt. -/
theorem C13_complete {inputs pushs spy tr n} (hs : AllSenders pushs)
    (h : JunctionRuns inputs pushs spy tr (.ok n)) :
    (offers tr).map (fun o => (o.to, o.d)) = (received tr).flatMap (toEach pushs) := by
  obtain ⟨s, t1, t2, rfl, h1, h2⟩ := h.rounds
  have c1 := rounds_copied hs h1
  obtain ⟨k, ws1, ws2, tail, rfl, hp, hend⟩ := junctionBody_inv h2 hs
  have hin := inert_of_tail hs hend
  rcases hend with ⟨_, _, _, h, _⟩ | ⟨hok, _⟩
  · simp at h
  · obtain ⟨hokall, hrun⟩ := pass_ok hp hok
    have hpt := pollTrace_copied hrun hokall
    obtain ⟨t1, t2, _⟩ := hin.proj
    simp only [offers_append, received_append, List.map_append, List.flatMap_append, t1, t2, c1, hpt]
    simp

/-- **C13**, per output: what was written to one output is, at every moment, what was received, up to
at most one message. -/
theorem C13_each_output {inputs pushs spy tr} (hd : DistinctInputs inputs) (hs : AllSenders pushs)
    (hn : (pushs.filterMap Push.target).Nodup) (t : End) (ht : t ∈ pushs.filterMap Push.target)
    (h : LoopPartial (junctionBody pushs spy) (junctionInit inputs) tr) :
    offeredTo t tr = received tr ∨ offeredTo t tr = (received tr).dropLast := by
  obtain ⟨h1, h2, _⟩ := C13_common_order hd hs h
  have pick : ∀ ms : List Bytes, (ms.flatMap (toEach pushs)).filterMap (fun o => if o.1 = t then some o.2 else none) = ms := by
    intro ms
    induction ms with
    | nil => rfl
    | cons d ms ih =>
      rw [List.flatMap_cons, List.filterMap_append, ih]
      suffices h : (toEach pushs d).filterMap (fun o => if o.1 = t then some o.2 else none) = [d] by rw [h]; rfl
      unfold toEach
      rw [List.filterMap_map]
      generalize pushs.filterMap Push.target = l at hn ht
      clear ih h h1 h2
      induction l with
      | nil => simp at ht
      | cons x xs ih =>
        rw [List.nodup_cons] at hn
        simp only [List.filterMap_cons, Function.comp]
        by_cases hx : x = t
        · subst hx
          simp
          intro y hy; rintro rfl; exact hn.1 hy
        · simp [hx]
          simp [Ne.symm hx] at ht
          exact ih hn.2 ht
  have hoff : offeredTo t tr = ((offers tr).map (fun o => (o.to, o.d))).filterMap (fun o => if o.1 = t then some o.2 else none) := by
    rw [List.filterMap_map]; rfl
  have a := h1.filterMap (fun o => if o.1 = t then some o.2 else none)
  have b := h2.filterMap (fun o => if o.1 = t then some o.2 else none)
  rw [pick, ← hoff] at a b
  have la := a.length_le
  have lb := b.length_le
  rw [List.length_dropLast] at lb
  rcases Nat.lt_or_ge (offeredTo t tr).length (received tr).length with hl | hl
  · right
    exact (b.eq_of_length (by rw [List.length_dropLast]; omega)).symm
  · left
    exact a.eq_of_length (by omega)

/-- **C14.** After any number of complete passes: an input has been dropped (and, a channel, closed)
iff it has delivered its end, or one of its messages found every output gone and of variation F (in particular, when there
are no outputs, after any message). As long as the junction goes on there is an input left. -/
theorem C14_dropped_iff_ended {inputs pushs spy tr s} (hd : DistinctInputs inputs) (hs : AllSenders pushs)
    (h : LoopRounds (junctionBody pushs spy) (junctionInit inputs) tr s) :
    (∀ p n e, (p, n) ∈ inputs → p.source = some e →
      (p ∉ s.stdin.flatten ↔ Act.ended e ∈ acts tr ∨ AllGone pushs e tr)) ∧
    (∀ j c n, (Pull.receiver j c, n) ∈ inputs →
      (Act.close .data c ∈ acts tr ↔ Pull.receiver j c ∉ s.stdin.flatten)) ∧
    (inputs ≠ [] → s.stdin.flatten ≠ []) ∧
    s.readCount = (received tr).length + endings tr := by
  obtain ⟨D, hJ, hC⟩ := rounds_closed hd hs JInv.init closedAre_nil h
  rw [List.nil_append] at hJ hC
  have hmem : ∀ {p n}, (p, n) ∈ inputs → (p ∉ s.stdin.flatten ↔ p ∈ D) := by
    intro p n hp
    have hpi : p ∈ inputs.map Prod.fst := List.mem_map.mpr ⟨_, hp, rfl⟩
    rw [hJ.mem]
    constructor
    · intro h
      apply Classical.byContradiction
      intro hD; exact h ⟨hpi, hD⟩
    · rintro h ⟨_, h2⟩; exact h2 h
  refine ⟨?_, ?_, ?_, hJ.count⟩
  · intro p n e hp he
    constructor
    · intro hn
      obtain ⟨_, e', h1, h2⟩ := hJ.gone p ((hmem hp).mp hn)
      rw [he] at h1; simp at h1; subst h1
      exact h2
    · rintro (h1 | h1)
      · obtain ⟨q, hq, hqe⟩ := hJ.here e h1
        have : q = p := hd.inj (hJ.gone q hq).1 (List.mem_map.mpr ⟨_, hp, rfl⟩) (by rw [hqe, he])
        subst this
        exact (hmem hp).mpr hq
      · exact allGone_dropped hd hs h h1 p he
  · intro j c n hp
    rw [hmem hp, hC]
    constructor
    · rintro ⟨q, hq, hqc⟩
      cases q with
      | receiver j' c' =>
        simp [dropActs] at hqc
        subst hqc
        have : Pull.receiver j' c = Pull.receiver j c :=
          hd.inj (hJ.gone _ hq).1 (List.mem_map.mpr ⟨_, hp, rfl⟩) (by simp [Pull.source])
        rw [← this]; exact hq
      | none => simp [dropActs] at hqc
      | stream => simp [dropActs] at hqc
    · intro hD
      exact ⟨_, hD, by simp [dropActs]⟩
  · intro hne
    have aux : ∀ {s0 tr s}, LoopRounds (junctionBody pushs spy) s0 tr s → s = s0 ∨ (s.stdin ≠ []) := by
      intro s0 tr s h
      induction h with
      | nil => exact Or.inl rfl
      | next hb _ ih =>
        rcases ih with rfl | h
        · obtain ⟨k, ws1, ws2, tail, _, _, hend⟩ := junctionBody_inv hb hs
          rcases hend with ⟨_, _, _, h, _⟩ | ⟨_, _, ⟨s', hx, _, h2, _⟩ | ⟨_, h, _⟩⟩
          · simp at h
          · simp at hx; subst hx; exact Or.inr h2
          · simp at h
        · exact Or.inr h
    intro hfl
    rcases aux h with rfl | h'
    · obtain ⟨x, hx⟩ := List.exists_mem_of_ne_nil _ hne
      have : x.1 ∈ (junctionInit inputs).stdin.flatten := mem_init.mpr (List.mem_map.mpr ⟨x, hx, rfl⟩)
      rw [hfl] at this; simp at this
    · obtain ⟨g, hg⟩ := List.exists_mem_of_ne_nil _ h'
      have hgne : g ≠ [] := by
        rw [hJ.groups] at hg
        unfold nonEmpty at hg
        have := (List.mem_filter.mp hg).2
        simpa using this
      obtain ⟨p, hp⟩ := List.exists_mem_of_ne_nil _ hgne
      have : p ∈ s.stdin.flatten := List.mem_flatten.mpr ⟨g, hg, hp⟩
      rw [hfl] at this; simp at this

/-- Closing one output. -/
def closeOf : Push → Option Act
  | .sender _ c => some (.close .data c)
  | _ => none

/-- **C14**, the end: a junction that ends without error has seen every input end (or given it up, as
above), and its last actions are closing the inputs dropped last and then all outputs. Its count
is the number of messages and ends of input received. -/
theorem C14_ends {inputs pushs spy tr n} (hd : DistinctInputs inputs) (hs : AllSenders pushs)
    (h : JunctionRuns inputs pushs spy tr (.ok n)) :
    (∀ x ∈ inputs, ∃ e, x.1.source = some e ∧ (Act.ended e ∈ acts tr ∨ AllGone pushs e tr)) ∧
    n = (received tr).length + endings tr ∧
    (∃ t1 t2, tr = t1 ++ t2 ∧ acts t2 = pushs.filterMap closeOf ∧
      ∀ c, Act.close .data c ∈ acts t1 → ∃ x ∈ inputs, x.1.source = some (.chan c)) := by
  obtain ⟨s, t1, t2, rfl, h1, h2⟩ := h.rounds
  obtain ⟨D, hJ, hC⟩ := rounds_closed hd hs JInv.init closedAre_nil h1
  rw [List.nil_append] at hJ hC
  obtain ⟨k, ws1, ws2, tail, rfl, hp, hend⟩ := junctionBody_inv h2 hs
  have hin := inert_of_tail hs hend
  rcases hend with ⟨_, _, _, h, _⟩ | ⟨hok, hk, ⟨s', hx, _⟩ | ⟨hnil, hx, ha⟩⟩
  · simp at h
  · simp at hx
  · have hk' : (s.stdin[k]? = some (ws2.map Poll.pull)) ∨ (k = s.stdin.length ∧ ws2 = []) := by
      rcases hk with ⟨h, _⟩ | h
      · exact Or.inl h
      · exact Or.inr h
    obtain ⟨D', hJ', hD'⟩ := hJ.step hd hs hp hok hk' hin ⟨0⟩
    have hall : ∀ x ∈ inputs, x.1 ∈ D' := by
      intro x hx
      apply Classical.byContradiction
      intro hno
      have := hJ'.mem.mpr ⟨List.mem_map.mpr ⟨x, hx, rfl⟩, hno⟩
      simp only [hnil] at this
      simp at this
    simp at hx
    refine ⟨?_, ?_, ?_⟩
    · intro x hx'
      exact (hJ'.gone _ (hall x hx')).2
    · rw [hx]; exact hJ'.count
    · -- split the tail
      have : ∃ u1 u2, tail = u1 ++ u2 ∧ acts u1 = finActs ws2 ∧ acts u2 = pushs.flatMap (fun p => closeActs p {}) := by
        unfold acts at ha
        rw [List.map_eq_append_iff] at ha
        obtain ⟨u1, u2, h1, h2, h3⟩ := ha
        exact ⟨u1, u2, h1, h2, h3⟩
      obtain ⟨u1, u2, rfl, hu1, hu2⟩ := this
      refine ⟨t1 ++ (pollTrace (ws1 ++ ws2) ++ u1), u2, by simp, ?_, ?_⟩
      · rw [hu2]
        clear hu2 hJ' hx h2 hJ hC hp hin h1 h ha
        induction pushs with
        | nil => rfl
        | cons p ps ih =>
          obtain ⟨j, c, rfl⟩ := hs p (by simp)
          simp only [List.flatMap_cons, List.filterMap_cons, closeOf]
          rw [ih (fun q hq => hs q (by simp [hq]))]
          rfl
      · intro c hc
        rw [acts_append, acts_append, List.mem_append, List.mem_append] at hc
        have fromD : ∀ {p}, p ∈ D' → Act.close .data c ∈ dropActs p → ∃ x ∈ inputs, x.1.source = some (.chan c) := by
          intro p hp hpc
          have := (hJ'.gone p hp).1
          rw [List.mem_map] at this
          obtain ⟨x, hx, rfl⟩ := this
          refine ⟨x, hx, ?_⟩
          cases hx1 : x.1 with
          | receiver j' c' => rw [hx1] at hpc; simp [dropActs] at hpc; simp [Pull.source, hpc]
          | none => rw [hx1] at hpc; simp [dropActs] at hpc
          | stream => rw [hx1] at hpc; simp [dropActs] at hpc
        rcases hc with hc | hc | hc
        · obtain ⟨p, h3, h4⟩ := (hC _ _).mp hc
          exact fromD (by rw [hD']; simp [h3]) h4
        · exact absurd hc (pollTrace_no_close (pass_ok hp hok).2 _ _)
        · rw [hu1, mem_finActs] at hc
          obtain ⟨p, h3, h4⟩ := hc
          exact fromD (by rw [hD', List.mem_append]; exact Or.inr h3) h4

/-- Two inputs, one message each, then the ends; the second end is seen in the same pass. -/
example : JunctionRuns [(.receiver ⟨1, 3⟩ 1, 0), (.receiver ⟨2, 3⟩ 2, 0)] [.sender ⟨3, some .out, 4, .terminate⟩ 9] none
    ([⟨.tryRecv .data 1, .got [97]⟩, ⟨.send .data 9 [97], true⟩, ⟨.tryRecv .data 2, .got [98]⟩, ⟨.send .data 9 [98], true⟩] ++
     [⟨.tryRecv .data 1, .closed⟩, ⟨.tryRecv .data 2, .closed⟩, ⟨.close .data 2, ()⟩, ⟨.close .data 1, ()⟩, ⟨.close .data 9, ()⟩])
    (.ok 4) := by
  refine .next (s' := ⟨[[.receiver ⟨1, 3⟩ 1, .receiver ⟨2, 3⟩ 2]], ⟨0⟩, 2⟩) ?_ (.stop ?_)
  · exact ⟨.got [97], _, rfl, true, _, rfl, .got [98], _, rfl, true, _, rfl, rfl, rfl⟩
  · exact ⟨.closed, _, rfl, .closed, _, rfl, (), _, rfl, (), _, rfl, (), _, rfl, rfl, rfl⟩

/-- **C15, refuted.** A junction that fails closes all its inputs but none of its outputs, so whatever
reads from its outputs is not told. -/
theorem C15_refuted_outputs_left_open {inputs pushs spy tr err} (hd : DistinctInputs inputs) (hs : AllSenders pushs)
    (h : JunctionRuns inputs pushs spy tr (.error err)) :
    (∀ j c, Push.sender j c ∈ pushs → (∀ x ∈ inputs, x.1.source ≠ some (.chan c)) → Act.close .data c ∉ acts tr) ∧
    (∀ j c n, (Pull.receiver j c, n) ∈ inputs → Act.close .data c ∈ acts tr) := by
  obtain ⟨s, t1, t2, rfl, h1, h2⟩ := h.rounds
  obtain ⟨D, hJ, hC⟩ := rounds_closed hd hs JInv.init closedAre_nil h1
  rw [List.nil_append] at hJ hC
  obtain ⟨k, ws1, ws2, tail, rfl, hp, hend⟩ := junctionBody_inv h2 hs
  have hrunall : ∀ w ∈ ws1 ++ ws2, PollRun pushs spy w := by
    intro w hw
    rw [List.mem_append] at hw
    rcases hw with hw | hw
    · exact hp.runs1 w hw
    · exact hp.runs2 w hw
  rcases hend with ⟨e, ws', w, hx, hw', hwe, hok, ha⟩ | ⟨hok, hk, ⟨s', hx, _⟩ | ⟨hnil, hx, ha⟩⟩
  · constructor
    · intro j c _ hno hm
      rw [acts_append, acts_append, List.mem_append, List.mem_append] at hm
      have fromIn : ∀ {p}, p ∈ inputs.map Prod.fst → Act.close .data c ∉ dropActs p := by
        intro p hp hpc
        rw [List.mem_map] at hp
        obtain ⟨x, hx, rfl⟩ := hp
        have := hno x hx
        cases hx1 : x.1 with
        | receiver j' c' => rw [hx1] at hpc this; simp [dropActs] at hpc; simp [Pull.source, hpc] at this
        | none => rw [hx1] at hpc; simp [dropActs] at hpc
        | stream => rw [hx1] at hpc; simp [dropActs] at hpc
      rcases hm with hm | hm | hm
      · obtain ⟨p, h3, h4⟩ := (hC _ _).mp hm
        exact fromIn (hJ.gone p h3).1 h4
      · exact pollTrace_no_close hrunall _ _ hm
      · rw [ha, List.mem_flatMap] at hm
        obtain ⟨p, h3, h4⟩ := hm
        exact fromIn (hJ.mem.mp h3).1 h4
    · intro j c n hin
      rw [acts_append, acts_append, List.mem_append, List.mem_append]
      by_cases hD : Pull.receiver j c ∈ D
      · left
        rw [hC]
        exact ⟨_, hD, by simp [dropActs]⟩
      · right; right
        rw [ha, List.mem_flatMap]
        exact ⟨_, hJ.mem.mpr ⟨List.mem_map.mpr ⟨_, hin, rfl⟩, hD⟩, by simp [dropActs]⟩
  · simp at hx
  · simp at hx

/-- Such a run: the message finds the first output (variation T) closed; the second is not even written
to, and not closed. -/
example : JunctionRuns [(.receiver ⟨1, 3⟩ 1, 0)] [.sender ⟨3, some .out, 4, .terminate⟩ 8, .sender ⟨3, some .out, 5, .terminate⟩ 9] none
    [⟨.tryRecv .data 1, .got [97]⟩, ⟨.send .data 8 [97], false⟩, ⟨.close .data 1, ()⟩]
    (.error (.outputClosed ⟨3, some .out, 4, .terminate⟩ .channelClosed [97])) :=
  .stop ⟨.got [97], _, rfl, false, _, rfl, (), _, rfl, rfl, rfl⟩

/-- Which input an action looks at. -/
def asked : Act → Option End
  | .got e _ => some e
  | .ended e => some e
  | .empty e => some e
  | _ => none

/-- **C10**, no input is looked at twice in one pass. -/
theorem C10_once_per_pass {inputs pushs spy tr1 tr2 s} (hd : DistinctInputs inputs) (hs : AllSenders pushs)
    (h1 : LoopRounds (junctionBody pushs spy) (junctionInit inputs) tr1 s)
    (h2 : (junctionBody pushs spy s).Partial tr2) : ((acts tr2).filterMap asked).Nodup := by
  obtain ⟨D, hJ, _⟩ := JInv.init.rounds hd hs h1
  obtain ⟨t3, x, hrun⟩ := h2.extend
  obtain ⟨k, ws1, ws2, tail, htr, hp, hend⟩ := junctionBody_inv hrun hs
  have hin := inert_of_tail hs hend
  have hrunall : ∀ w ∈ ws1 ++ ws2, PollRun pushs spy w := by
    intro w hw
    rw [List.mem_append] at hw
    rcases hw with hw | hw
    · exact hp.runs1 w hw
    · exact hp.runs2 w hw
  have quiet : ∀ {rest : List Act}, (∀ a ∈ rest, a.isQuiet = false) → rest.filterMap asked = [] := by
    intro rest hq
    rw [List.filterMap_eq_nil_iff]
    intro a ha
    have := hq a ha
    cases a <;> simp [Act.isQuiet] at this <;> rfl
  have one : ∀ {w}, PollRun pushs spy w → ((acts w.tr).filterMap asked).Sublist w.pull.source.toList := by
    intro w hw
    rcases poll_shape hw with ⟨s', hs', ha, _⟩ | ⟨s', d', rest, hs', ha, hq, _⟩ | ⟨s', rest, hs', ha, hq, _⟩ | ⟨h0, _⟩
    · rw [ha, hs']; simp [asked]
    · rw [ha, hs', List.filterMap_cons]; simp [asked, quiet hq]
    · rw [ha, hs', List.filterMap_cons]; simp [asked, quiet hq]
    · rw [h0]; simp
  have all : ∀ {ws : List Poll}, (∀ w ∈ ws, PollRun pushs spy w) →
      ((acts (pollTrace ws)).filterMap asked).Sublist ((ws.map Poll.pull).filterMap Pull.source) := by
    intro ws
    induction ws with
    | nil => simp
    | cons w ws ih =>
      intro hall
      have a := one (hall w (by simp))
      have b := ih (fun v hv => hall v (by simp [hv]))
      simp only [pollTrace_cons, acts_append, List.filterMap_append, List.map_cons, List.filterMap_cons]
      cases hsrc : w.pull.source with
      | none => rw [hsrc] at a; rw [List.sublist_nil.mp a]; exact b
      | some e =>
        rw [hsrc] at a
        exact a.append b
  have htail : (acts tail).filterMap asked = [] := by
    rw [List.filterMap_eq_nil_iff]
    intro a ha
    rcases hin a ha with ⟨k, c, rfl⟩ | ⟨n, rfl⟩ <;> rfl
  have hpulls : ((ws1 ++ ws2).map Poll.pull).Sublist s.stdin.flatten := by
    rw [List.map_append, hp.before]
    have hsplit : s.stdin.flatten = (s.stdin.take k).flatten ++ (s.stdin.drop k).flatten := by
      rw [← List.flatten_append, List.take_append_drop]
    rw [hsplit]
    refine List.Sublist.append (List.Sublist.refl _) (hp.group.sublist.trans ?_)
    cases hg : s.stdin[k]? with
    | none => simp
    | some g =>
      have : s.stdin.drop k = g :: s.stdin.drop (k + 1) := by
        obtain ⟨hlt, he⟩ := List.getElem?_eq_some_iff.mp hg
        rw [List.drop_eq_getElem_cons hlt, he]
      rw [this]; simp
  have hnod : (s.stdin.flatten.filterMap Pull.source).Nodup := by
    have hn := hJ.nodup hd
    have hmem : ∀ p ∈ s.stdin.flatten, p ∈ inputs.map Prod.fst := fun p hp => (hJ.mem.mp hp).1
    generalize s.stdin.flatten = l at hn hmem
    induction l with
    | nil => simp
    | cons p l ih =>
      rw [List.nodup_cons] at hn
      have ih := ih hn.2 (fun q hq => hmem q (by simp [hq]))
      rw [List.filterMap_cons]
      cases hsrc : p.source with
      | none => exact ih
      | some e =>
        simp only [List.nodup_cons]
        refine ⟨?_, ih⟩
        intro hm
        rw [List.mem_filterMap] at hm
        obtain ⟨q, hq, hqe⟩ := hm
        have : p = q := hd.inj (hmem p (by simp)) (hmem q (by simp [hq])) (by rw [hsrc, hqe])
        subst this; exact hn.1 hq
  have hfull : ((acts (tr2 ++ t3)).filterMap asked).Nodup := by
    rw [htr, acts_append, List.filterMap_append, htail, List.append_nil]
    exact hnod.sublist ((all hrunall).trans (hpulls.filterMap _))
  rw [acts_append, List.filterMap_append] at hfull
  exact hfull.sublist (List.sublist_append_left _ _)

/-- **C10**, nothing is passed over without a reason: in a complete pass every input still open is looked
at, unless an input with a smaller or equal number delivered something in that pass. -/
theorem C10_served {inputs pushs spy tr1 tr2 s x} (hd : DistinctInputs inputs) (hs : AllSenders pushs)
    (h1 : LoopRounds (junctionBody pushs spy) (junctionInit inputs) tr1 s)
    (h2 : (junctionBody pushs spy s).Runs tr2 x) (hx : ∀ err, x ≠ .inr (.error err))
    (p : Pull) (n : Int) (e : End) (hpn : (p, n) ∈ inputs) (hpe : p.source = some e)
    (hopen : Act.ended e ∉ acts tr1 ∧ ¬ AllGone pushs e tr1) :
    (∃ a ∈ acts tr2, asked a = some e) ∨
    ∃ q m e', (q, m) ∈ inputs ∧ m ≤ n ∧ q.source = some e' ∧ (Act.ended e' ∈ acts tr2 ∨ ∃ d, Act.got e' d ∈ acts tr2) := by
  have hps : p ∈ s.stdin.flatten := by
    have := ((C14_dropped_iff_ended hd hs h1).1 p n e hpn hpe)
    apply Classical.byContradiction
    intro hno
    rcases this.mp hno with h | h
    · exact hopen.1 h
    · exact hopen.2 h
  obtain ⟨D, hJ, _⟩ := JInv.init.rounds hd hs h1
  obtain ⟨prio, hprio⟩ := exists_prio hd
  obtain ⟨k, ws1, ws2, tail, rfl, hp, hend⟩ := junctionBody_inv h2 hs
  rcases hend with ⟨err, _, _, h, _⟩ | ⟨hok, hk, _⟩
  · exact absurd h (hx err)
  · obtain ⟨hokall, hrun⟩ := pass_ok hp hok
    have looked : p ∈ (ws1 ++ ws2).map Poll.pull → ∃ a ∈ acts (pollTrace (ws1 ++ ws2) ++ tail), asked a = some e := by
      intro hm
      rw [List.mem_map] at hm
      obtain ⟨w, hw, rfl⟩ := hm
      obtain ⟨a, b, hsplit⟩ := split_pollTrace hw
      rcases poll_shape (hrun w hw) with ⟨s', hs', ha, _⟩ | ⟨s', d', rest, hs', ha, _, _⟩ | ⟨s', rest, hs', ha, _, _⟩ | ⟨_, h0⟩
      · rw [hpe] at hs'; simp at hs'; subst hs'
        exact ⟨.empty e, by simp [hsplit, ha], rfl⟩
      · rw [hpe] at hs'; simp at hs'; subst hs'
        exact ⟨.got e d', by simp [hsplit, ha], rfl⟩
      · rw [hpe] at hs'; simp at hs'; subst hs'
        exact ⟨.ended e, by simp [hsplit, ha], rfl⟩
      · rw [hokall w hw] at h0; simp at h0
    rw [List.mem_flatten] at hps
    obtain ⟨g, hg, hpg⟩ := hps
    obtain ⟨j, hj⟩ := List.getElem?_of_mem hg
    by_cases hjk : j < k
    · left
      apply looked
      rw [List.map_append, List.mem_append, hp.before]
      exact Or.inl (flatten_take_of_lt hj hpg hjk)
    · rcases hk with ⟨hk, w, hw, hr⟩ | ⟨hk, _⟩
      · by_cases hjk' : j = k
        · left
          apply looked
          rw [List.map_append, List.mem_append]
          right
          subst hjk'
          rw [hj] at hk; simp at hk
          rw [← hk]; exact hpg
        · right
          have hwm : w.pull ∈ ws2.map Poll.pull := List.mem_map.mpr ⟨w, hw, rfl⟩
          have hpw' : s.stdin.flatten.Pairwise (fun p q => prio p ≤ prio q) := by
            rw [hJ.groups, flatten_nonEmpty, flatten_map_without]
            exact (sorted_prio hprio).sublist List.filter_sublist
          have hle := pairwise_flatten_idx hpw' hk hj (by omega) hwm hpg
          have hwin : w.pull ∈ inputs.map Prod.fst :=
            (hJ.mem.mp (List.mem_flatten.mpr ⟨_, List.mem_of_getElem? hk, hwm⟩)).1
          rw [List.mem_map] at hwin
          obtain ⟨⟨q, m⟩, hqm, hqw⟩ := hwin
          simp at hqw
          have hww : w ∈ ws1 ++ ws2 := by simp [hw]
          obtain ⟨a, b, hsplit⟩ := split_pollTrace hww
          have hm : m ≤ n := by
            have a := hprio _ hqm; have b := hprio _ hpn; simp at a b
            rw [hqw] at a; omega
          rcases poll_shape (hrun w hww) with ⟨s', hs', ha, hres⟩ | ⟨s', d', rest, hs', ha, _, _⟩ | ⟨s', rest, hs', ha, _, _⟩ | ⟨_, h0⟩
          · simp [Poll.isRead, hres] at hr
          · exact ⟨q, m, s', hqm, hm, by rw [hqw]; exact hs', Or.inr ⟨d', by simp [hsplit, ha]⟩⟩
          · exact ⟨q, m, s', hqm, hm, by rw [hqw]; exact hs', Or.inl (by simp [hsplit, ha])⟩
          · rw [hokall w hww] at h0; simp at h0
      · exfalso
        have := (List.getElem?_eq_some_iff.mp hj).1
        omega

end Verif
