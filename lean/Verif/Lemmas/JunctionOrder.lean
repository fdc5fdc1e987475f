import Verif.Lemmas.JunctionOnce
import Verif.Props.JunctionFails
/-!
# What a junction has done before it takes a message of a larger number

In the round in which it does so it has only looked at inputs, and found them empty.
-/
namespace Verif

/-- Inputs of other than the smallest number are by themselves. -/
theorem group_alone {inputs : List (Pull × Int)} {prio : Pull → Int} (hp : ∀ x ∈ inputs, prio x.1 = x.2) {q : Pull} {m : Int} (hq : (q, m) ∈ inputs)
    {g : List Pull} (hg : g ∈ initializeStdin inputs) {p : Pull} (hpg : p ∈ g) (hlt : m < prio p) : g = [p] := by
  cases hs : sortByPriority inputs with
  | nil => rw [initializeStdin_nil inputs hs] at hg; cases hg
  | cons x xs =>
    have hmem : ∀ y, y ∈ x :: xs ↔ y ∈ inputs := fun y => by rw [← hs]; exact (sortByPriority_perm inputs).mem_iff
    rw [initializeStdin_eq inputs x xs hs, List.mem_cons] at hg
    rcases hg with rfl | hg
    · exfalso
      obtain ⟨y, hy, rfl⟩ := List.mem_map.mp hpg
      have h1 : y.2 = x.2 := by simpa using List.all_eq_true.mp List.all_takeWhile y hy
      have h2 := hp y ((hmem y).mp ((List.takeWhile_sublist _).subset hy))
      have hsort := sortByPriority_sorted inputs
      rw [hs, List.pairwise_cons] at hsort
      have h3 : x.2 ≤ m := by
        rcases List.mem_cons.mp ((hmem (q, m)).mpr hq) with h | h
        · rw [← h]; exact Int.le_refl _
        · exact hsort.1 _ h
      omega
    · obtain ⟨y, _, rfl⟩ := List.mem_map.mp hg
      simp at hpg
      rw [hpg]

/-- In the round in which a message of a larger number is taken, nothing was done before except finding inputs empty. -/
theorem only_looked {inputs pushs spy tr1 tr2 s A B e d} (hd : DistinctInputs inputs) (hs : AllSenders pushs)
    (h1 : LoopRounds (junctionBody pushs spy) (junctionInit inputs) tr1 s)
    (h2 : (junctionBody pushs spy s).Partial tr2) (hgot : acts tr2 = A ++ Act.got e d :: B) {p q : Pull} {n m : Int}
    (hp : (p, n) ∈ inputs) (hpe : p.source = some e) (hq : (q, m) ∈ inputs) (hlt : m < n) : ∀ a ∈ A, ∃ e', a = .empty e' := by
  obtain ⟨D, hJ, _⟩ := JInv.init.rounds hd hs h1
  rw [List.nil_append] at hJ
  obtain ⟨prio, hprio⟩ := exists_prio hd
  obtain ⟨t3, x, hrun⟩ := h2.extend
  obtain ⟨k, ws1, ws2, tail, htr, hP, hend⟩ := junctionBody_inv hrun hs
  have hin := inert_of_tail hs hend
  have hacts : acts tr2 <+: acts (pollTrace ws1) ++ (acts (pollTrace ws2) ++ acts tail) := by
    have : acts (tr2 ++ t3) = acts (pollTrace (ws1 ++ ws2) ++ tail) := by rw [htr]
    simp at this
    exact ⟨acts t3, by simpa using this⟩
  have emp : ∀ a ∈ acts (pollTrace ws1), ∃ e', a = .empty e' := by
    intro a ha
    obtain ⟨w, hw, ha⟩ := mem_acts_pollTrace ha
    rcases poll_shape (hP.runs1 w hw) with ⟨s', _, h, _⟩ | ⟨s', d', rest, _, h, _, hr⟩ | ⟨s', rest, _, h, _, hr⟩ | ⟨h0, _⟩
    · rw [h] at ha; simp at ha; exact ⟨s', ha⟩
    · have := hr (by simp [Poll.isOk, hP.skipped w hw])
      simp [Poll.isRead, hP.skipped w hw] at this
    · have := hr (by simp [Poll.isOk, hP.skipped w hw])
      rw [hP.skipped w hw] at this; simp at this
    · rw [h0] at ha; simp at ha
  obtain ⟨C, hC⟩ := hacts
  rw [hgot, List.append_assoc, List.append_eq_append_iff] at hC
  rcases hC with ⟨a', e1, _⟩ | ⟨c', e1, e2⟩
  · intro a ha
    exact emp a (by rw [e1]; simp [ha])
  · have hmem : Act.got e d ∈ acts (pollTrace ws2) := by
      have : Act.got e d ∈ acts (pollTrace ws2) ++ acts tail := by rw [e2]; simp
      rcases List.mem_append.mp this with h | h
      · exact h
      · exact absurd h (hin.proj.2.2.2.1 e d)
    obtain ⟨w, hw, hm⟩ := mem_acts_pollTrace hmem
    have hsrc := worker_source (hP.runs2 w hw) e d hm
    have hgr := hP.group
    have hwg := hgr.subset (show w.pull ∈ ws2.map Poll.pull from List.mem_map.mpr ⟨w, hw, rfl⟩)
    cases hk : s.stdin[k]? with
    | none => rw [hk] at hwg; simp at hwg
    | some g =>
      rw [hk] at hwg hgr
      simp only [Option.getD_some] at hwg hgr
      have hwp : w.pull = p := by
        refine hd.inj ?_ (List.mem_map.mpr ⟨_, hp, rfl⟩) (by rw [hsrc, hpe])
        exact (hJ.mem.mp (List.mem_flatten.mpr ⟨g, List.mem_of_getElem? hk, hwg⟩)).1
      have hg1 : g = [w.pull] := by
        have hmem : g ∈ nonEmpty ((initializeStdin inputs).map (without D)) := by rw [← hJ.groups]; exact List.mem_of_getElem? hk
        unfold nonEmpty at hmem
        rw [List.mem_filter, List.mem_map] at hmem
        obtain ⟨⟨g0, hg0, rfl⟩, _⟩ := hmem
        have hw0 := (mem_without.mp hwg)
        have := group_alone hprio hq hg0 hw0.1 (by rw [hwp, hprio _ hp]; exact hlt)
        rw [this] at hwg ⊢
        unfold without at hwg ⊢
        simp only [List.filter_cons, List.filter_nil] at hwg ⊢
        split at hwg
        · rename_i h; rw [if_pos h]
        · cases hwg
      rw [hg1] at hgr
      have hws : ws2 = [w] := by
        have hl := hgr.length_le
        simp at hl
        match ws2, hw, hl with
        | [v], hw, _ => simp at hw; rw [hw]
        | _ :: _ :: _, _, hl => simp at hl
      subst hws
      have e2' : acts w.tr ++ acts tail = c' ++ Act.got e d :: (B ++ C) := by simpa using e2
      rcases poll_shape (hP.runs2 w hw) with ⟨s', _, h, _⟩ | ⟨s', d', rest, _, h, hqt, _⟩ | ⟨s', rest, _, h, hqt, _⟩ | ⟨h0, _⟩
      · rw [h] at hm; simp at hm
      · cases c' with
        | nil => rw [e1]; simpa using emp
        | cons y c' =>
          exfalso
          rw [h] at e2'
          simp only [List.cons_append, List.cons.injEq] at e2'
          have : Act.got e d ∈ rest ++ acts tail := by rw [e2'.2]; simp
          rcases List.mem_append.mp this with h | h
          · have := hqt _ h
            simp [Act.isQuiet] at this
          · exact hin.proj.2.2.2.1 e d h
      · rw [h] at hm
        simp at hm
        have := hqt _ hm
        simp [Act.isQuiet] at this
      · rw [h0] at hm; simp at hm

/-- An event and what came before it since: only looking at inputs that were empty. -/
theorem junction_before {inputs pushs spy} {t1 t2 : List Ev} {ev : Ev} {e : End} {d : Bytes} (hd : DistinctInputs inputs) (hs : AllSenders pushs)
    (h : LoopPartial (junctionBody pushs spy) (junctionInit inputs) (t1 ++ ev :: t2)) (he : act ev = .got e d) {p q : Pull} {n m : Int}
    (hp : (p, n) ∈ inputs) (hpe : p.source = some e) (hq : (q, m) ∈ inputs) (hlt : m < n) :
    ∃ e', q.source = some e' ∧ ((∃ u ev' v, t1 = u ++ ev' :: v ∧ act ev' = .empty e' ∧ ∀ x ∈ v, ∃ e'', act x = .empty e'') ∨
      Act.ended e' ∈ acts t1 ∨ AllGone pushs e' t1) := by
  obtain ⟨s', r1, r2, g1, g2, g3⟩ := h
  obtain ⟨s1, u1, u2, u3, k1, k2, rfl⟩ := g1.at g2 g3
  have hgot : acts (u2 ++ ev :: u3) = acts u2 ++ Act.got e d :: acts u3 := by simp [acts, he]
  have hlook := only_looked hd hs k1 k2 hgot hp hpe hq hlt
  obtain ⟨p', n', h1, h2, h3⟩ := C10_lower_number_first hd hs k1 k2 hgot
  have hpp : p' = p := hd.inj (List.mem_map.mpr ⟨_, h1, rfl⟩) (List.mem_map.mpr ⟨_, hp, rfl⟩) (by rw [h2, hpe])
  subst hpp
  have hnn : n' = n := by
    obtain ⟨prio, hprio⟩ := exists_prio hd
    have a := hprio _ h1
    have b := hprio _ hp
    simp only at a b
    rw [← a, ← b]
  subst hnn
  obtain ⟨e', h4, h5⟩ := h3 q m hq hlt
  refine ⟨e', h4, ?_⟩
  rcases h5 with h5 | h5 | h5
  · left
    obtain ⟨ev', h6, h7⟩ := List.mem_map.mp h5
    obtain ⟨a, b, rfl⟩ := List.append_of_mem h6
    refine ⟨u1 ++ a, ev', b, by simp, h7, fun x hx => ?_⟩
    exact hlook (act x) (List.mem_map.mpr ⟨x, by simp [hx], rfl⟩)
  · exact Or.inr (Or.inl (by simp [h5]))
  · exact Or.inr (Or.inr (by simpa using h5.mono [] u2))

/-- What is empty and closed stays so. -/
theorem execAll_spent {cap : Caps} {st st' : Store} {es : List Ev} {k : Kind} {c : Nat} (h : execAll cap st es = some st') (hq : (st k c).q = [])
    (hc : (st k c).closed = true) : (st' k c).q = [] := by
  have h1 := (fifo h k c)
  rw [hq, shut_sent h hc] at h1
  have h2 := List.append_eq_nil_iff.mp (by simpa using h1.symm)
  exact h2.2

section
variable {c : Config} {hs : List Hop} {w : Waiter}

/-- The inputs of a junction with their numbers. -/
theorem Assembled.junctionInputs (A : Assembled c hs w) {j : CompRef} (hj : j.1 = .junction) {inputs pushs spy} (hn : w.node (.part j .main) = some (.junction inputs pushs spy))
    {ch : Nat} {h : Hop} (hi : hs[ch]? = some h) (ht : h.to = j) : ∃ p, (p, h.input.priority) ∈ inputs ∧ p.source = some (.chan ch) := by
  obtain ⟨k, hk, he⟩ := A.comps j ⟨h, List.mem_of_getElem? hi, Or.inr ht⟩
  rw [expected_junction _ _ _ _ hj] at he
  have := plain_junction he
  subst this
  simp only [Waiter.node, hk, Comp.node, Option.some.injEq, Node.junction.injEq] at hn
  obtain ⟨rfl, _, _⟩ := hn
  refine ⟨(h.pullEnd w.idOf ch).pull, List.mem_map.mpr ⟨(h.pullEnd w.idOf ch, h.input.priority), ?_, rfl⟩, rfl⟩
  unfold pullEnds
  refine List.mem_map.mpr ⟨(h, ch), ?_, rfl⟩
  rw [List.mem_filter]
  exact ⟨by rw [List.mem_zipIdx_iff_getElem?]; exact hi, by simpa using ht⟩

end

end Verif
