import Verif.Lemmas.JunctionInv
/-!
# Properties C10 to C15: junctions

A pass is one round of the junction's loop. `LoopRounds body s tr s'` says that some complete passes
with trace `tr` lead from `s` to `s'`; `(body s').Partial t` that `t` is (a part of) the next pass.
Inputs are pairs of an input and its priority, in the order in which they were connected.
-/
namespace Verif

/-- The inputs still open are exactly those connected and not ended (see `C14`). -/
private theorem prefix_mem_split {α : Type} {A B L1 L2 : List α} {x : α} (h : A ++ x :: B <+: L1 ++ L2) (hx : x ∉ L1) :
    L1 <+: A := by
  obtain ⟨C, hC⟩ := h
  rw [List.append_assoc, List.append_eq_append_iff] at hC
  rcases hC with ⟨a', h1, h2⟩ | ⟨c', h1, _⟩
  · cases a' with
    | nil => simp at h1; rw [h1]; exact List.prefix_rfl
    | cons y ys =>
      simp at h2
      exfalso; apply hx
      rw [h1, h2.1]; simp
  · rw [h1]; exact List.prefix_append _ _

theorem sorted_prio {inputs : List (Pull × Int)} {prio : Pull → Int} (hp : ∀ x ∈ inputs, prio x.1 = x.2) :
    ((initializeStdin inputs).flatten).Pairwise (fun p q => prio p ≤ prio q) := by
  rw [initializeStdin_flatten, List.pairwise_map]
  have h1 := sortByPriority_sorted inputs
  have hm : ∀ x ∈ sortByPriority inputs, prio x.1 = x.2 := fun x hx => hp x ((sortByPriority_perm inputs).mem_iff.mp hx)
  refine List.Pairwise.imp_of_mem ?_ h1
  intro a b ha hb hab
  rw [hm a ha, hm b hb]; exact hab

private theorem group_const {inputs : List (Pull × Int)} {prio : Pull → Int} (hp : ∀ x ∈ inputs, prio x.1 = x.2) :
    ∀ g ∈ initializeStdin inputs, ∀ p ∈ g, ∀ q ∈ g, prio p = prio q := by
  cases hs : sortByPriority inputs with
  | nil => simp [initializeStdin_nil inputs hs]
  | cons x xs =>
    have hm : ∀ y ∈ x :: xs, prio y.1 = y.2 := fun y hy =>
      hp y ((sortByPriority_perm inputs).mem_iff.mp (by rw [hs]; exact hy))
    rw [initializeStdin_eq inputs x xs hs]
    intro g hg
    rw [List.mem_cons] at hg
    rcases hg with rfl | hg
    · have key : ∀ p ∈ ((x :: xs).takeWhile (fun y => decide (y.2 = x.2))).map Prod.fst, prio p = x.2 := by
        intro p hpm
        rw [List.mem_map] at hpm
        obtain ⟨y, hy, rfl⟩ := hpm
        have := List.all_eq_true.mp List.all_takeWhile y hy
        simp at this
        rw [hm y ((List.takeWhile_sublist _).subset hy), this]
      intro p h1 q h2
      rw [key p h1, key q h2]
    · rw [List.mem_map] at hg
      obtain ⟨y, _, rfl⟩ := hg
      simp

/-- A function giving each input its priority. -/
theorem exists_prio {inputs : List (Pull × Int)} (h : DistinctInputs inputs) :
    ∃ prio : Pull → Int, ∀ x ∈ inputs, prio x.1 = x.2 := by
  have hn := h.nodup
  refine ⟨fun p => ((inputs.find? (fun x => decide (x.1 = p))).map Prod.snd).getD 0, ?_⟩
  intro x hx
  clear h
  induction inputs with
  | nil => simp at hx
  | cons y ys ih =>
    simp at hn hx
    rcases hx with rfl | hx
    · simp
    · have : y.1 ≠ x.1 := by
        intro h
        exact hn.1 x.2 (by rw [h]; exact hx)
      simp only [List.find?_cons, this, decide_false]
      exact ih hn.2 hx

theorem flatten_take_of_lt {α : Type} {G : List (List α)} {j k : Nat} {g : List α} {q : α}
    (hj : G[j]? = some g) (hq : q ∈ g) (hjk : j < k) : q ∈ (G.take k).flatten := by
  rw [List.mem_flatten]
  refine ⟨g, ?_, hq⟩
  have : (G.take k)[j]? = some g := by rw [List.getElem?_take_of_lt hjk]; exact hj
  exact List.mem_of_getElem? this

theorem pairwise_flatten_idx {α : Type} {R : α → α → Prop} {G : List (List α)} (h : G.flatten.Pairwise R)
    {i j : Nat} {gi gj : List α} (hi : G[i]? = some gi) (hj : G[j]? = some gj) (hij : i < j) {p q : α}
    (hp : p ∈ gi) (hq : q ∈ gj) : R p q := by
  induction G generalizing i j with
  | nil => simp at hi
  | cons g G ih =>
    rw [List.flatten_cons, List.pairwise_append] at h
    cases j with
    | zero => omega
    | succ j =>
      simp at hj
      cases i with
      | zero =>
        simp at hi; subst hi
        exact h.2.2 p hp q (by rw [List.mem_flatten]; exact ⟨gj, List.mem_of_getElem? hj, hq⟩)
      | succ i =>
        simp at hi
        exact ih h.2.1 hi hj (by omega)

/-- The polls behind a message in a pass. -/
theorem got_in_pass {pushs spy s t3 x tr2 A B e d} (hs : AllSenders pushs)
    (h : (junctionBody pushs spy s).Runs (tr2 ++ t3) x)
    (hgot : acts tr2 = A ++ Act.got e d :: B) :
    ∃ k ws1 ws2 w g, Pass pushs spy s.stdin k ws1 ws2 ∧ w ∈ ws2 ∧ w.pull.source = some e ∧ s.stdin[k]? = some g ∧ w.pull ∈ g ∧
      acts (pollTrace ws1) <+: A := by
  obtain ⟨k, ws1, ws2, tail, htr, hp, hend⟩ := junctionBody_inv h hs
  have hin := inert_of_tail hs hend
  have hacts : acts tr2 <+: acts (pollTrace ws1) ++ (acts (pollTrace ws2) ++ acts tail) := by
    have : acts (tr2 ++ t3) = acts (pollTrace (ws1 ++ ws2) ++ tail) := by rw [htr]
    simp at this
    exact ⟨acts t3, by simpa using this⟩
  have hno1 : Act.got e d ∉ acts (pollTrace ws1) := by
    intro hm
    obtain ⟨w, hw, hm⟩ := mem_acts_pollTrace hm
    rcases poll_shape (hp.runs1 w hw) with ⟨s', _, ha, _⟩ | ⟨s', d', rest, hs1, ha, hq, hr⟩ | ⟨s', rest, hs1, ha, hq, hres⟩ | ⟨h0, _⟩
    · rw [ha] at hm; simp at hm
    · have := hr (by simp [Poll.isOk, hp.skipped w hw])
      simp [Poll.isRead, hp.skipped w hw] at this
    · rw [ha] at hm
      simp at hm
      have := hq _ hm
      simp [Act.isQuiet] at this
    · rw [h0] at hm; simp at hm
  have hmem : Act.got e d ∈ acts (pollTrace ws2) := by
    have : Act.got e d ∈ acts tr2 := by rw [hgot]; simp
    have := hacts.subset this
    rw [List.mem_append, List.mem_append] at this
    rcases this with h | h | h
    · exact absurd h hno1
    · exact h
    · exact absurd h (hin.proj.2.2.2.1 e d)
  obtain ⟨w, hw, hm⟩ := mem_acts_pollTrace hmem
  have hsrc := worker_source (hp.runs2 w hw) e d hm
  have hg : ∃ g, s.stdin[k]? = some g ∧ w.pull ∈ g := by
    have := hp.group.subset (show w.pull ∈ ws2.map Poll.pull by rw [List.mem_map]; exact ⟨w, hw, rfl⟩)
    cases hk : s.stdin[k]? with
    | none => rw [hk] at this; simp at this
    | some g => rw [hk] at this; exact ⟨g, rfl, by simpa using this⟩
  obtain ⟨g, hk, hgm⟩ := hg
  refine ⟨k, ws1, ws2, w, g, hp, hw, hsrc, hk, hgm, ?_⟩
  rw [hgot] at hacts
  exact prefix_mem_split hacts hno1

theorem skipped_seen {pushs spy G k ws1 ws2 q} {A : List Act} (hp : Pass pushs spy G k ws1 ws2)
    (hA : acts (pollTrace ws1) <+: A) (hq : q ∈ (G.take k).flatten) : ∃ e, q.source = some e ∧ Act.empty e ∈ A := by
  rw [← hp.before, List.mem_map] at hq
  obtain ⟨v, hv, rfl⟩ := hq
  rcases poll_shape (hp.runs1 v hv) with ⟨s', hs', ha, _⟩ | ⟨s', d', rest, hs1, ha, hq', hr⟩ | ⟨s', rest, hs1, ha, hq', hres⟩ | ⟨_, h0⟩
  · refine ⟨s', hs', hA.subset ?_⟩
    obtain ⟨a, b, hsplit⟩ := split_pollTrace hv
    rw [hsplit]; simp [ha]
  · have := hr (by simp [Poll.isOk, hp.skipped v hv])
    simp [Poll.isRead, hp.skipped v hv] at this
  · have := hres (by simp [Poll.isOk, hp.skipped v hv])
    rw [hp.skipped v hv] at this; simp at this
  · simp [Poll.isOk, hp.skipped v hv] at h0

/-- **C10.** When a junction takes a message from an input `p` of priority `n`, then every input `q`
with a smaller priority number had by then been found empty in the same pass, or has ended before (or,
when all outputs are gone and of variation F, has been given up). -/
theorem C10_lower_number_first {inputs pushs spy tr1 tr2 s A B e d} (hd : DistinctInputs inputs) (hs : AllSenders pushs)
    (h1 : LoopRounds (junctionBody pushs spy) (junctionInit inputs) tr1 s)
    (h2 : (junctionBody pushs spy s).Partial tr2) (hgot : acts tr2 = A ++ Act.got e d :: B) :
    ∃ p n, (p, n) ∈ inputs ∧ p.source = some e ∧ ∀ q m, (q, m) ∈ inputs → m < n →
      ∃ e', q.source = some e' ∧ (Act.empty e' ∈ A ∨ Act.ended e' ∈ acts tr1 ∨ AllGone pushs e' tr1) := by
  obtain ⟨D, hJ, _⟩ := JInv.init.rounds hd hs h1
  rw [List.nil_append] at hJ
  obtain ⟨prio, hprio⟩ := exists_prio hd
  obtain ⟨t3, x, hrun⟩ := h2.extend
  obtain ⟨k, ws1, ws2, w, g, hp, hw, hsrc, hk, hg, hA⟩ := got_in_pass hs hrun hgot
  have hwin : w.pull ∈ inputs.map Prod.fst := by
    refine (hJ.mem.mp ?_).1
    rw [List.mem_flatten]; exact ⟨g, List.mem_of_getElem? hk, hg⟩
  rw [List.mem_map] at hwin
  obtain ⟨⟨p, n⟩, hpn, hpw⟩ := hwin
  simp at hpw
  refine ⟨p, n, hpn, by rw [hpw]; exact hsrc, ?_⟩
  intro q m hqm hlt
  have hqin : q ∈ inputs.map Prod.fst := by rw [List.mem_map]; exact ⟨_, hqm, rfl⟩
  by_cases hqD : q ∈ D
  · obtain ⟨_, e', h3, h4⟩ := hJ.gone q hqD
    exact ⟨e', h3, Or.inr h4⟩
  · have hqs : q ∈ s.stdin.flatten := hJ.mem.mpr ⟨hqin, hqD⟩
    rw [List.mem_flatten] at hqs
    obtain ⟨gq, hgq, hqg⟩ := hqs
    obtain ⟨j, hj⟩ := List.getElem?_of_mem hgq
    have hpq : prio q < prio w.pull := by
      rw [← hpw]
      have := hprio _ hqm; have := hprio _ hpn; simp at *; omega
    have hjk : j < k := by
      apply Classical.byContradiction
      intro hcon
      rcases Nat.lt_or_ge k j with hlt' | hge
      · have hpw' : s.stdin.flatten.Pairwise (fun p q => prio p ≤ prio q) := by
          rw [hJ.groups, flatten_nonEmpty, flatten_map_without]
          exact (sorted_prio hprio).sublist List.filter_sublist
        have := pairwise_flatten_idx hpw' hk hj hlt' hg hqg
        omega
      · have : j = k := by omega
        subst this
        rw [hj] at hk; simp at hk; subst hk
        have hmem : gq ∈ nonEmpty ((initializeStdin inputs).map (without D)) := by rw [← hJ.groups]; exact hgq
        unfold nonEmpty at hmem
        rw [List.mem_filter, List.mem_map] at hmem
        obtain ⟨⟨g0, hg0, rfl⟩, _⟩ := hmem
        have := group_const hprio g0 hg0 q (mem_without.mp hqg).1 w.pull (mem_without.mp hg).1
        omega
    obtain ⟨e', h3, h4⟩ := skipped_seen hp hA (flatten_take_of_lt hj hqg hjk)
    exact ⟨e', h3, Or.inl h4⟩

/-- **C11, refuted.** The documented reading, a larger number is served first, is the wrong way
round: of two inputs, the one with the larger number gets a message through only in a pass in which
the one with the smaller number was found empty, or after it ended. -/
theorem C11_refuted_higher_number_last {p q : Pull} {n m pushs spy tr1 tr2 s A B ep eq d} (hs : AllSenders pushs)
    (hlt : m < n) (hp : p.source = some ep) (hq : q.source = some eq) (hne : ep ≠ eq)
    (hkeep : ∃ o ∈ pushs, o.breakable ≠ .finish)
    (h1 : LoopRounds (junctionBody pushs spy) (junctionInit [(p, n), (q, m)]) tr1 s)
    (h2 : (junctionBody pushs spy s).Partial tr2) (hgot : acts tr2 = A ++ Act.got ep d :: B) :
    Act.empty eq ∈ A ∨ Act.ended eq ∈ acts tr1 := by
  have hd : DistinctInputs [(p, n), (q, m)] := by simp [DistinctInputs, hp, hq, hne]
  obtain ⟨p', n', hm, hsrc, hall⟩ := C10_lower_number_first hd hs h1 h2 hgot
  simp at hm
  rcases hm with ⟨rfl, rfl⟩ | ⟨rfl, rfl⟩
  · obtain ⟨e', h3, h4⟩ := hall q m (by simp) hlt
    rw [hq] at h3; simp at h3; subst h3
    rcases h4 with h4 | h4 | h4
    · exact Or.inl h4
    · exact Or.inr h4
    · obtain ⟨o, ho, hb⟩ := hkeep
      exact absurd (h4.1 o ho) hb
  · rw [hq] at hsrc; simp at hsrc; exact absurd hsrc.symm hne

/-- The README's example: priorities 5 ("high") and 1 ("low"), both with a message waiting. The message
of priority 1 is taken in the first pass, the one of priority 5 is not even looked at. -/
example : (junctionBody [.sender ⟨3, some .out, 4, .terminate⟩ 9] none
      (junctionInit [(.receiver ⟨1, 3⟩ 5, 5), (.receiver ⟨2, 3⟩ 1, 1)])).Runs
    [⟨.tryRecv .data 1, .got [108]⟩, ⟨.send .data 9 [108], true⟩]
    (.inl ⟨[[.receiver ⟨2, 3⟩ 1], [.receiver ⟨1, 3⟩ 5]], ⟨0⟩, 1⟩) :=
  ⟨.got [108], _, rfl, true, _, rfl, rfl, rfl⟩

/-- **C12, partial**: inputs of the smallest priority present are all looked at in every complete
pass, as long as they are open. (The claim for equal priorities in general is false, see below.) -/
theorem C12_smallest_priority_together_partial {inputs pushs spy tr1 tr2 s x} (hd : DistinctInputs inputs) (hs : AllSenders pushs)
    (h1 : LoopRounds (junctionBody pushs spy) (junctionInit inputs) tr1 s)
    (h2 : (junctionBody pushs spy s).Runs tr2 x) (hx : ∀ err, x ≠ .inr (.error err))
    (p : Pull) (n : Int) (hpn : (p, n) ∈ inputs) (hmin : ∀ y ∈ inputs, n ≤ y.2) :
    ∃ e, p.source = some e ∧
      (Act.ended e ∈ acts tr1 ∨ AllGone pushs e tr1 ∨
       Act.empty e ∈ acts tr2 ∨ Act.ended e ∈ acts tr2 ∨ ∃ d, Act.got e d ∈ acts tr2) := by
  obtain ⟨D, hJ, _⟩ := JInv.init.rounds hd hs h1
  rw [List.nil_append] at hJ
  have hpin : p ∈ inputs.map Prod.fst := by rw [List.mem_map]; exact ⟨_, hpn, rfl⟩
  by_cases hpD : p ∈ D
  · obtain ⟨_, e', h3, h4⟩ := hJ.gone p hpD
    refine ⟨e', h3, ?_⟩
    rcases h4 with h4 | h4
    · exact Or.inl h4
    · exact Or.inr (Or.inl h4)
  · -- p is in the first group
    obtain ⟨k, ws1, ws2, tail, rfl, hp, hend⟩ := junctionBody_inv h2 hs
    have hfirst : ∃ g G, s.stdin = g :: G ∧ p ∈ g := by
      cases hso : sortByPriority inputs with
      | nil =>
        have := (sortByPriority_perm inputs).mem_iff.mpr hpn
        rw [hso] at this; simp at this
      | cons y ys =>
        have hyin : y ∈ inputs := (sortByPriority_perm inputs).mem_iff.mp (by rw [hso]; simp)
        have hpno : (p, n) ∈ y :: ys := by rw [← hso]; exact (sortByPriority_perm inputs).mem_iff.mpr hpn
        have hsort := sortByPriority_sorted inputs
        rw [hso] at hsort
        have hyn : y.2 = n := by
          have h1 := hmin y hyin
          rw [List.mem_cons] at hpno
          rcases hpno with h | h
          · rw [← h]
          · have := (List.pairwise_cons.mp hsort).1 _ h; simp at this; omega
        have hg := hJ.groups
        rw [initializeStdin_eq inputs y ys hso, List.map_cons] at hg
        have hmem : p ∈ without D (((y :: ys).takeWhile (fun z => decide (z.2 = y.2))).map Prod.fst) := by
          rw [mem_without]
          refine ⟨?_, hpD⟩
          have aux : ∀ (l : List (Pull × Int)), l.Pairwise (fun a b => a.2 ≤ b.2) → (∀ z ∈ l, y.2 ≤ z.2) → (p, n) ∈ l →
              (p, n) ∈ l.takeWhile (fun z => decide (z.2 = y.2)) := by
            intro l
            induction l with
            | nil => simp
            | cons z zs ih =>
              intro hpw hge hmem
              rw [List.pairwise_cons] at hpw
              rw [List.mem_cons] at hmem
              have hz : z.2 = y.2 := by
                rcases hmem with rfl | hmem
                · exact hyn.symm
                · have a := hpw.1 _ hmem; have b := hge z (by simp); simp at a; omega
              rw [List.takeWhile_cons]
              simp only [hz, decide_true, if_true, List.mem_cons]
              rcases hmem with h | hmem
              · exact Or.inl h
              · exact Or.inr (ih hpw.2 (fun a ha => hge a (by simp [ha])) hmem)
          rw [List.mem_map]
          refine ⟨(p, n), aux _ hsort ?_ hpno, rfl⟩
          intro z hz
          rw [hyn]
          exact hmin z ((sortByPriority_perm inputs).mem_iff.mp (by rw [hso]; exact hz))
        unfold nonEmpty at hg
        rw [List.filter_cons] at hg
        have : (!(without D (((y :: ys).takeWhile (fun z => decide (z.2 = y.2))).map Prod.fst)).isEmpty) = true := by
          cases hww : without D (((y :: ys).takeWhile (fun z => decide (z.2 = y.2))).map Prod.fst) with
          | nil => rw [hww] at hmem; simp at hmem
          | cons => rfl
        rw [if_pos this] at hg
        exact ⟨_, _, hg, hmem⟩
    obtain ⟨g, G, hst, hpg⟩ := hfirst
    have hpoll : ∃ w ∈ ws1 ++ ws2, w.pull = p ∧ w.isOk = true := by
      rcases hend with ⟨err, _, _, h, _⟩ | ⟨hok, hk, _⟩
      · exact absurd h (hx err)
      · obtain ⟨hokall, _⟩ := pass_ok hp hok
        suffices hsuff : p ∈ ws1.map Poll.pull ++ ws2.map Poll.pull by
          rw [← List.map_append, List.mem_map] at hsuff
          obtain ⟨w, hw, hpw⟩ := hsuff
          exact ⟨w, hw, hpw, hokall w hw⟩
        rw [List.mem_append]
        rcases Nat.eq_zero_or_pos k with hk0 | hk0
        · subst hk0
          right
          rcases hk with ⟨hk, _⟩ | ⟨hk, _⟩
          · rw [hst] at hk; simp at hk; rw [← hk]; exact hpg
          · rw [hst] at hk; simp at hk
        · left
          rw [hp.before]
          exact flatten_take_of_lt (j := 0) (by rw [hst]; rfl) hpg hk0
    obtain ⟨w, hw, rfl, hwok⟩ := hpoll
    have hrun : PollRun pushs spy w := by
      rw [List.mem_append] at hw
      rcases hw with hw | hw
      · exact hp.runs1 w hw
      · exact hp.runs2 w hw
    obtain ⟨a, b, hsplit⟩ := split_pollTrace hw
    rcases poll_shape hrun with ⟨s', hs', ha, _⟩ | ⟨s', d', rest, hs', ha, _, _⟩ | ⟨s', rest, hs', ha, _, _⟩ | ⟨_, h0⟩
    · exact ⟨s', hs', Or.inr (Or.inr (Or.inl (by simp [hsplit, ha])))⟩
    · exact ⟨s', hs', Or.inr (Or.inr (Or.inr (Or.inr ⟨d', by simp [hsplit, ha]⟩)))⟩
    · exact ⟨s', hs', Or.inr (Or.inr (Or.inr (Or.inl (by simp [hsplit, ha]))))⟩
    · rw [hwok] at h0; simp at h0

end Verif
