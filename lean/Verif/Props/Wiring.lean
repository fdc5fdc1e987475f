import Verif.Lemmas.Waiter
import Verif.Props.Inserted
/-!
# C42, C44: building the runtime from hops
-/
namespace Verif

/-- C42, all of it: with connection sets that are hops, `get_waiter` does not abort. Either each hop can be made after those before it, and then
exactly the components mentioned are there, each with exactly the ends of its hops' channels (`Wired`). Or it reports an error that states truthfully what is wrong with the first hop
that cannot be made. -/
theorem wiring (c : Config) (R : Map Hop) (hc : c.connection = hopSets R) :
    (AllMakeable c (R.map (·.2)) ∧ ∃ w, getWaiter c = .ok w ∧ Wired c (R.map (·.2)) w) ∨
    (∃ pre h post e, R.map (·.2) = pre ++ h :: post ∧ AllMakeable c pre ∧ ¬ Makeable c pre h ∧ getWaiter c = .err e ∧ Reason c pre h e) := by
  unfold getWaiter
  rw [hc, show hopSets R = conns R from rfl, allConnections_conns]
  simp only
  rcases wire_hops (R.map (·.2)) (wireInv_new c) (by rintro r ⟨h, hh, _⟩; simp at hh) with ⟨hall, w, L, e, h⟩ | ⟨a, x, b, e, heq, hall, hno, he, hwhy⟩
  · left
    refine ⟨fun pre h post heq => by simpa using hall pre h post heq, _, by rw [e], ?_⟩
    rw [List.nil_append] at h
    obtain ⟨q1, q2, q3⟩ := configure_comps c.regulator w
    have hg : ∀ r, (List.foldl configureOne w c.regulator).getId r = w.getId r := by intro r; simp only [Waiter.getId, q2]
    have hi : (List.foldl configureOne w c.regulator).idOf = w.idOf := by funext r; simp only [Waiter.idOf, hg]
    refine ⟨?_, ?_, ?_, ?_⟩
    · intro r hr; rw [q1, hi]; exact h.comps r hr
    · intro r hr; rw [q1]; exact h.only r hr
    · intro r; simp only [hg]; exact h.ids r
    · intro r i; rw [hg, q3]; exact h.names r i
  · right
    refine ⟨a, x, b, e, heq, fun pre h post heq' => by simpa using hall pre h post heq', by simpa using hno, ?_, by simpa using hwhy⟩
    rw [he]

/-- C42: it works exactly when each hop can be made after those before it. -/
theorem C42_wired (c : Config) (R : Map Hop) (hc : c.connection = hopSets R) :
    (∃ w, getWaiter c = .ok w) ↔ AllMakeable c (R.map (·.2)) := by
  rcases wiring c R hc with ⟨h, w, e, _⟩ | ⟨pre, h, post, e, heq, _, hno, he, _⟩
  · exact ⟨fun _ => h, fun _ => ⟨w, e⟩⟩
  · constructor
    · rintro ⟨w, hw⟩; rw [he] at hw; cases hw
    · intro hall; exact absurd (hall pre h post heq) hno

/-- C42: what is there afterwards. -/
theorem C42_components (c : Config) (R : Map Hop) (hc : c.connection = hopSets R) {w : Waiter} (hw : getWaiter c = .ok w) : Wired c (R.map (·.2)) w := by
  rcases wiring c R hc with ⟨_, w', e, h⟩ | ⟨pre, h, post, e, heq, _, hno, he, _⟩
  · rw [e] at hw; cases hw; exact h
  · rw [he] at hw; cases hw

/-- C42: otherwise the error is about the first hop that cannot be made, and truthful; it never aborts. -/
theorem C42_refused (c : Config) (R : Map Hop) (hc : c.connection = hopSets R) :
    getWaiter c ≠ .panic ∧ ∀ e, getWaiter c = .err e →
      ∃ pre h post, R.map (·.2) = pre ++ h :: post ∧ AllMakeable c pre ∧ ¬ Makeable c pre h ∧ Reason c pre h e := by
  rcases wiring c R hc with ⟨_, w', e, h⟩ | ⟨pre, h, post, e, heq, hall, hno, he, hwhy⟩
  · rw [e]; exact ⟨by simp, fun _ hh => by cases hh⟩
  · rw [he]
    refine ⟨by simp, fun e' hh => ?_⟩
    cases hh
    exact ⟨pre, h, post, heq, hall, hno, hwhy⟩

theorem filter_short {α} {p : α → Bool} {l : List α} (h : l.Pairwise fun a b => ¬ (p a = true ∧ p b = true)) : (l.filter p).length ≤ 1 := by
  have h1 := h.filter p
  have h2 : ∀ a ∈ l.filter p, p a = true := fun a ha => (List.mem_filter.mp ha).2
  generalize l.filter p = f at h1 h2
  match f, h1, h2 with
  | [], _, _ => simp
  | [_], _, _ => simp
  | a :: b :: r, h1, h2 =>
    rw [List.pairwise_cons] at h1
    exact absurd ⟨h2 a (by simp), h2 b (by simp)⟩ (h1.1 b (by simp))

theorem head_toList {α} {l : List α} (h : l.length ≤ 1) : l.head?.toList = l := by
  match l, h with
  | [], _ => rfl
  | [_], _ => rfl
  | _ :: _ :: _, h => simp at h

theorem AllMakeable.pairwise {c : Config} {hs : List Hop} (h : AllMakeable c hs) {q : Hop → Bool}
    (hq : ∀ pre x, Makeable c pre x → q x = true → ∀ g ∈ pre, q g = false) : hs.zipIdx.Pairwise fun a b => ¬ (q a.1 = true ∧ q b.1 = true) := by
  have : (hs.zipIdx.map Prod.fst).Pairwise fun a b => ¬ (q a = true ∧ q b = true) := by
    rw [List.zipIdx_map_fst, List.pairwise_iff_getElem]
    rintro i j hi hj hij ⟨h1, h2⟩
    have hd : hs = hs.take j ++ hs[j] :: hs.drop (j + 1) := by rw [List.getElem_cons_drop, List.take_append_drop]
    have := hq _ _ (h _ _ _ hd) h2 hs[i] (List.mem_iff_getElem.mpr ⟨i, by simp; omega, by simp⟩)
    rw [h1] at this; cases this
  exact List.pairwise_map.mp this

theorem AllMakeable.oneFrom {c : Config} {hs : List Hop} (h : AllMakeable c hs) {r : CompRef} (hj : r.1 ≠ .junction) (hl : r.1 ≠ .launch) (id : CompRef → Nat) :
    (pushEnds id hs.zipIdx fun h => h.from = r).head?.toList = pushEnds id hs.zipIdx fun h => h.from = r := by
  refine head_toList ?_
  simp only [pushEnds, List.length_map]
  refine filter_short (p := fun x : Hop × Nat => decide (x.1.from = r)) (h.pairwise (q := fun h => decide (h.from = r)) ?_)
  intro pre x hm hx g hg
  simp only [decide_eq_true_eq] at hx
  have hs := hm.2.2.1
  have ht : x.src.ty = r.1 := by rw [← hx]; rfl
  simp only [decide_eq_false_iff_not]
  rw [← hx]
  unfold CanSend at hs
  rw [ht] at hs
  cases hr : r.1 with
  | junction => exact absurd hr hj
  | launch => exact absurd hr hl
  | drain => rw [hr] at hs; exact hs.elim
  | faucet => rw [hr] at hs; exact hs.2 g hg
  | regulator => rw [hr] at hs; exact hs.2 g hg
  | buffer => rw [hr] at hs; exact hs g hg

theorem AllMakeable.onePort {c : Config} {hs : List Hop} (h : AllMakeable c hs) {s : OutRef} (hl : s.ty = .launch) (id : CompRef → Nat) :
    (pushEnds id hs.zipIdx fun h => h.src = s).head?.toList = pushEnds id hs.zipIdx fun h => h.src = s := by
  refine head_toList ?_
  simp only [pushEnds, List.length_map]
  refine filter_short (p := fun x : Hop × Nat => decide (x.1.src = s)) (h.pairwise (q := fun h => decide (h.src = s)) ?_)
  intro pre x hm hx g hg
  simp only [decide_eq_true_eq] at hx
  have hs := hm.2.2.1
  simp only [decide_eq_false_iff_not]
  rw [← hx]
  unfold CanSend at hs
  rw [show x.src.ty = .launch by rw [hx]; exact hl] at hs
  exact hs g hg

theorem AllMakeable.oneTo {c : Config} {hs : List Hop} (h : AllMakeable c hs) {r : CompRef} (hj : r.1 ≠ .junction) (id : CompRef → Nat) :
    ((pullEnds id hs.zipIdx fun h => h.to = r).head?.map Prod.fst).toList.map (fun p => (p, 0)) = pullEnds id hs.zipIdx fun h => h.to = r := by
  have hpre : ∀ pre x post, hs = pre ++ x :: post → x.to = r → x.input.priority = 0 ∧ ∀ g ∈ pre, g.to ≠ r := by
    intro pre x post heq hx
    have hs := (h _ _ _ heq).2.2.2
    have ht : x.dst.ty = r.1 := by rw [← hx]; rfl
    have key : ∀ g : Hop, g.dst ≠ x.dst → g.to ≠ r := by
      intro g hg e
      rw [← hx] at e
      simp only [Hop.to, Prod.mk.injEq] at e
      apply hg
      cases hd : g.dst; cases hd' : x.dst
      rw [hd, hd'] at e
      simp only [InRef.mk.injEq]; exact e
    unfold CanReceive at hs
    rw [ht] at hs
    cases hr : r.1 with
    | junction => exact absurd hr hj
    | faucet => rw [hr] at hs; exact hs.elim
    | _ => rw [hr] at hs; exact ⟨hs.1, fun g hg => key g (hs.2 g hg)⟩
  have hlen : (pullEnds id hs.zipIdx fun h => h.to = r).length ≤ 1 := by
    simp only [pullEnds, List.length_map]
    refine filter_short (p := fun x : Hop × Nat => decide (x.1.to = r)) ?_
    have : (hs.zipIdx.map Prod.fst).Pairwise fun a b => ¬ (decide (a.to = r) = true ∧ decide (b.to = r) = true) := by
      rw [List.zipIdx_map_fst, List.pairwise_iff_getElem]
      rintro i j hi hj hij ⟨h1, h2⟩
      have hd : hs = hs.take j ++ hs[j] :: hs.drop (j + 1) := by rw [List.getElem_cons_drop, List.take_append_drop]
      exact (hpre _ _ _ hd (by simpa using h2)).2 hs[i] (List.mem_iff_getElem.mpr ⟨i, by simp; omega, by simp⟩) (by simpa using h1)
    exact List.pairwise_map.mp this
  have hz : ∀ x ∈ pullEnds id hs.zipIdx fun h => h.to = r, x.2 = 0 := by
    intro x hx
    simp only [pullEnds, List.mem_map, List.mem_filter, decide_eq_true_eq] at hx
    obtain ⟨y, ⟨hy, hr⟩, rfl⟩ := hx
    have hmem : y.1 ∈ hs := by
      have := List.mem_map.mpr ⟨y, hy, (rfl : Prod.fst y = _)⟩
      rwa [List.zipIdx_map_fst] at this
    obtain ⟨pre, post, heq⟩ := List.append_of_mem hmem
    exact (hpre _ _ _ heq hr).1
  match hl : (pullEnds id hs.zipIdx fun h => h.to = r), hlen, hz with
  | [], _, _ => rfl
  | [x], _, hz =>
    have := hz x (by simp)
    simp only [List.head?_cons, Option.map_some, Option.toList_some, List.map_cons, List.map_nil]
    rw [← this]
  | _ :: _ :: _, h, _ => simp at h

/-- C42, the channels: the writing ends a component holds are exactly those of the channels of the hops from it, and the reading ends those of the hops to it; the `i`-th hop has
channel `i`, with the identities of both components, and the hop's port, pipe variation and priority. -/
theorem C42_channels (c : Config) (R : Map Hop) (hc : c.connection = hopSets R) {w : Waiter} (hw : getWaiter c = .ok w) {r : CompRef} {k : Comp}
    (hk : w.comps.get r = some k) :
    k.outputs.Perm (pushEnds w.idOf (R.map (·.2)).zipIdx fun h => h.from = r) ∧ k.inputs = pullEnds w.idOf (R.map (·.2)).zipIdx fun h => h.to = r := by
  have hall := (C42_wired c R hc).mp ⟨w, hw⟩
  have hwd := C42_components c R hc hw
  have hm : Mentioned (R.map (·.2)) r := by
    apply Classical.byContradiction
    intro hn
    rw [hwd.only r hn] at hk; cases hk
  rw [hwd.comps r hm] at hk
  cases hk
  generalize (R.map (·.2)) = hs at *
  have hto : r.1 ≠ .junction → ((pullEnds w.idOf hs.zipIdx fun h => h.to = r).head?.map Prod.fst).toList.map (fun p => (p, 0)) =
      pullEnds w.idOf hs.zipIdx fun h => h.to = r := fun hj => hall.oneTo hj _
  cases hr : r.1 with
  | junction =>
    rw [expected_junction _ _ _ _ hr]
    exact ⟨List.Perm.refl _, rfl⟩
  | faucet =>
    rw [expected_faucet _ _ _ _ hr]
    refine ⟨by rw [Comp.outputs, hall.oneFrom (by simp [hr]) (by simp [hr])], ?_⟩
    rw [Comp.inputs, pullEnds_none]
    intro x hx
    simp only [decide_eq_false_iff_not]
    intro e
    have hmem : x.1 ∈ hs := by
      have := List.mem_map.mpr ⟨x, hx, (rfl : Prod.fst x = _)⟩
      rwa [List.zipIdx_map_fst] at this
    obtain ⟨pre, post, heq⟩ := List.append_of_mem hmem
    have := (hall _ _ _ heq).2.2.2
    unfold CanReceive at this
    rw [show x.1.dst.ty = .faucet by rw [← hr, ← e]; rfl] at this
    exact this
  | drain =>
    rw [expected_drain _ _ _ _ hr]
    refine ⟨?_, hto (by simp [hr])⟩
    rw [Comp.outputs, pushEnds_none]
    intro x hx
    simp only [decide_eq_false_iff_not]
    intro e
    have hmem : x.1 ∈ hs := by
      have := List.mem_map.mpr ⟨x, hx, (rfl : Prod.fst x = _)⟩
      rwa [List.zipIdx_map_fst] at this
    obtain ⟨pre, post, heq⟩ := List.append_of_mem hmem
    have := (hall _ _ _ heq).2.2.1
    unfold CanSend at this
    rw [show x.1.src.ty = .drain by rw [← hr, ← e]; rfl] at this
    exact this
  | regulator =>
    rw [expected_regulator _ _ _ _ hr]
    exact ⟨by rw [Comp.outputs, hall.oneFrom (by simp [hr]) (by simp [hr])], hto (by simp [hr])⟩
  | buffer =>
    rw [expected_buffer _ _ _ _ hr]
    exact ⟨by rw [Comp.outputs, hall.oneFrom (by simp [hr]) (by simp [hr])], hto (by simp [hr])⟩
  | launch =>
    rw [expected_launch _ _ _ _ hr]
    refine ⟨?_, hto (by simp [hr])⟩
    simp only [Comp.outputs]
    rw [hall.onePort rfl, hall.onePort rfl, hall.onePort rfl]
    simp only [pushEnds]
    rw [← List.map_append, ← List.map_append]
    refine List.Perm.map _ ?_
    have three : ∀ l : List (Hop × Nat), (l.filter (fun x => decide (x.1.src = ⟨.launch, r.2, .out⟩)) ++ l.filter (fun x => decide (x.1.src = ⟨.launch, r.2, .err⟩)) ++
        l.filter (fun x => decide (x.1.src = ⟨.launch, r.2, .exit⟩))).Perm (l.filter fun x => decide (x.1.from = r)) := by
      intro l
      induction l with
      | nil => exact List.Perm.refl _
      | cons x l ih =>
        have hfr : ∀ p, x.1.src = ⟨.launch, r.2, p⟩ → x.1.from = r := by
          intro p e
          rw [show r = (.launch, r.2) by rw [← hr]]
          simp [Hop.from, e]
        by_cases hx : x.1.from = r
        · have hs : x.1.src = ⟨.launch, r.2, x.1.src.port⟩ := by
            have h1 : x.1.src.ty = .launch := by rw [← hr, ← hx]; rfl
            have h2 : x.1.src.name = r.2 := by rw [← hx]; rfl
            rw [← h1, ← h2]
          simp only [List.filter_cons, hx, decide_true, if_true]
          cases hp : x.1.src.port with
          | out =>
            rw [hp] at hs
            simp only [hs, decide_true, if_true, OutRef.mk.injEq, true_and, reduceCtorEq, decide_false, Bool.false_eq_true, if_false]
            simpa using ih
          | err =>
            rw [hp] at hs
            simp only [hs, decide_true, if_true, OutRef.mk.injEq, true_and, reduceCtorEq, decide_false, Bool.false_eq_true, if_false]
            simp only [List.append_assoc, List.cons_append]
            refine List.perm_middle.trans (List.Perm.cons _ ?_)
            simpa using ih
          | exit =>
            rw [hp] at hs
            simp only [hs, decide_true, if_true, OutRef.mk.injEq, true_and, reduceCtorEq, decide_false, Bool.false_eq_true, if_false]
            refine List.perm_middle.trans (List.Perm.cons _ ?_)
            simpa using ih
        · have h1 : ∀ p, x.1.src ≠ ⟨.launch, r.2, p⟩ := fun p e => hx (hfr p e)
          simp only [List.filter_cons, hx, h1, decide_false, Bool.false_eq_true, if_false]
          exact ih
    exact three _

/-! ## C44: identities, for all configurations -/

structure Waiter.Identified (w : Waiter) : Prop where
  names : ∀ r i, w.getId r = some i ↔ w.names.get i = some r
  below : ∀ r i, w.getId r = some i → i < w.id

theorem identified_incrId {w : Waiter} (h : w.Identified) {r : CompRef} (hr : w.getId r = none) :
    (w.incrId r).2.Identified ∧ (w.incrId r).2.getId r = some w.id ∧ ∀ x, x ≠ r → (w.incrId r).2.getId x = w.getId x := by
  have hids : ∀ x, (w.incrId r).2.getId x = if x = r then some w.id else w.getId x := fun x => Table.get_orInsert _ _ _ _ hr
  have hnames : ∀ i, (w.incrId r).2.names.get i = if i = w.id then some r else w.names.get i := fun i => Table.get_put _ _ _ _
  refine ⟨⟨?_, ?_⟩, by simp [hids], fun x hx => by simp [hids, hx]⟩
  · intro x i
    rw [hids, hnames]
    by_cases hx : x = r
    · subst hx
      rw [if_pos rfl]
      by_cases hi : i = w.id
      · simp [hi]
      · rw [if_neg hi, ← h.names, hr]
        constructor
        · intro e; cases e; exact absurd rfl hi
        · intro e; cases e
    · rw [if_neg hx]
      by_cases hi : i = w.id
      · rw [if_pos hi]
        constructor
        · intro e; exact absurd (h.below x i e) (by omega)
        · intro e; cases e; exact absurd rfl hx
      · rw [if_neg hi]; exact h.names x i
  · intro x i hx
    rw [hids] at hx
    show i < w.id + 1
    by_cases hx' : x = r
    · rw [if_pos hx'] at hx; cases hx; omega
    · rw [if_neg hx'] at hx; have := h.below x i hx; omega

/-- What a step keeps of the tables of identities: those there, and it adds at most one component. -/
theorem wireStep_ids {c : Config} {s s' : WireState} {x : Connection} (h : wireStep c s x = .ok s') (hi : s.waiter.Identified) :
    s'.waiter.Identified ∧ (∃ i, s'.waiter.getId (x.ty, x.name) = some i) ∧
    (∀ r i, s.waiter.getId r = some i → s'.waiter.getId r = some i) ∧
    ∀ r, (∃ i, s'.waiter.getId r = some i) → (∃ i, s.waiter.getId r = some i) ∨ r = (x.ty, x.name) := by
  generalize hr : (x.ty, x.name) = r at *
  have hfind : ∀ {dst w L}, findOrConstruct c s r = .ok (dst, w, L) → w.Identified ∧ (∃ i, w.getId r = some i) ∧
      (∀ y i, s.waiter.getId y = some i → w.getId y = some i) ∧ ∀ y, (∃ i, w.getId y = some i) → (∃ i, s.waiter.getId y = some i) ∨ y = r := by
    intro dst w L hf
    unfold findOrConstruct at hf
    cases hg : s.waiter.getId r with
    | some i =>
      rw [hg] at hf
      cases hf
      exact ⟨hi, ⟨_, hg⟩, fun _ _ h => h, fun _ h => Or.inl h⟩
    | none =>
      rw [hg] at hf
      obtain ⟨q1, q2, q3⟩ := identified_incrId hi hg
      have key : ∀ k : Comp, Waiter.Identified { (s.waiter.incrId r).2 with comps := (s.waiter.incrId r).2.comps.put r k } ∧
          (∃ i, Waiter.getId { (s.waiter.incrId r).2 with comps := (s.waiter.incrId r).2.comps.put r k } r = some i) ∧
          (∀ y i, s.waiter.getId y = some i → Waiter.getId { (s.waiter.incrId r).2 with comps := (s.waiter.incrId r).2.comps.put r k } y = some i) ∧
          ∀ y, (∃ i, Waiter.getId { (s.waiter.incrId r).2 with comps := (s.waiter.incrId r).2.comps.put r k } y = some i) →
            (∃ i, s.waiter.getId y = some i) ∨ y = r := by
        intro k
        refine ⟨⟨q1.1, q1.2⟩, ⟨_, q2⟩, ?_, ?_⟩
        · intro y i hy
          refine (q3 y ?_).trans hy
          rintro rfl; rw [hg] at hy; cases hy
        · rintro y ⟨i, hy⟩
          by_cases e : y = r
          · exact Or.inr e
          · exact Or.inl ⟨i, (q3 y e).symm.trans hy⟩
      simp only [construct] at hf
      split at hf
      case h_6 =>
        split at hf
        · cases hf
        · split at hf
          · cases hf
          · cases hf; exact key _
      all_goals (cases hf; exact key _)
  unfold wireStep at h
  rw [hr] at h
  cases hf : findOrConstruct c s r with
  | err e => rw [hf] at h; cases h
  | panic => rw [hf] at h; cases h
  | ok a =>
    obtain ⟨dst, w, L⟩ := a
    rw [hf] at h
    obtain ⟨p1, p2, p3, p4⟩ := hfind hf
    simp only at h
    have hjoin : ∀ {w' : Waiter}, joinLast w s.last dst x.inputPort = .ok w' → w'.ids = w.ids ∧ w'.names = w.names ∧ w'.id = w.id := by
      intro w' hj
      unfold joinLast at hj
      split at hj
      · cases hj; exact ⟨rfl, rfl, rfl⟩
      · split at hj
        · cases hj
        · rename_i _ src port _ _ inp _
          cases hjj : w.join src port dst inp with
          | error e => rw [hjj] at hj; cases hj
          | ok w2 =>
            rw [hjj] at hj; cases hj
            unfold Waiter.join at hjj
            split at hjj
            · cases hjj
            · rename_i pull w3 hsp
              have h3 : w3.ids = w.ids ∧ w3.names = w.names ∧ w3.id = w.id := by
                unfold Waiter.getSrcPull at hsp
                split at hsp
                · cases hsp
                · split at hsp
                  · cases hsp
                  · cases hsp; exact ⟨rfl, rfl, rfl⟩
              unfold Waiter.giveInput at hjj
              split at hjj
              · cases hjj
              · split at hjj
                · cases hjj
                · cases hjj; exact h3
    cases hj : joinLast w s.last dst x.inputPort with
    | err e => rw [hj] at h; cases h
    | panic => rw [hj] at h; cases h
    | ok w' =>
      rw [hj] at h
      cases h
      obtain ⟨a1, a2, a3⟩ := hjoin hj
      have hgid : ∀ y, w'.getId y = w.getId y := fun y => by simp only [Waiter.getId, a1]
      refine ⟨⟨?_, ?_⟩, ?_, ?_, ?_⟩
      · intro y i; rw [hgid, a2]; exact p1.names y i
      · intro y i; rw [hgid, a3]; exact p1.below y i
      · simpa only [hgid] using p2
      · intro y i hy; rw [hgid]; exact p3 y i hy
      · intro y hy; simp only [hgid] at hy; exact p4 y hy

theorem wireAll_ids {c : Config} (l : List Connection) : ∀ {s s' : WireState}, wireAll c s l = .ok s' → s.waiter.Identified →
    s'.waiter.Identified ∧ (∀ r i, s.waiter.getId r = some i → s'.waiter.getId r = some i) ∧
    ∀ r, (∃ i, s'.waiter.getId r = some i) ↔ (∃ i, s.waiter.getId r = some i) ∨ ∃ x ∈ l, (x.ty, x.name) = r := by
  induction l with
  | nil =>
    intro s s' h hi
    cases h
    exact ⟨hi, fun _ _ h => h, fun r => by simp⟩
  | cons x l ih =>
    intro s s' h hi
    simp only [wireAll] at h
    cases hs : wireStep c s x with
    | err e => rw [hs] at h; cases h
    | panic => rw [hs] at h; cases h
    | ok s1 =>
      rw [hs] at h
      obtain ⟨a1, ⟨i0, a2⟩, a3, a4⟩ := wireStep_ids hs hi
      obtain ⟨b1, b2, b3⟩ := ih h a1
      refine ⟨b1, fun r i hr => b2 r i (a3 r i hr), fun r => ?_⟩
      rw [b3 r]
      constructor
      · rintro (hr | ⟨y, hy, e⟩)
        · rcases a4 r hr with hr | rfl
          · exact Or.inl hr
          · exact Or.inr ⟨x, by simp, rfl⟩
        · exact Or.inr ⟨y, by simp [hy], e⟩
      · rintro (⟨i, hr⟩ | ⟨y, hy, e⟩)
        · exact Or.inl ⟨i, a3 r i hr⟩
        · rcases List.mem_cons.mp hy with rfl | hy
          · exact Or.inl ⟨i0, e ▸ a2⟩
          · exact Or.inr ⟨y, hy, e⟩

/-- C44: whatever the connections, exactly the components mentioned have an identity; looking up an identity gives back the component it belongs to. -/
theorem C44_lookup (c : Config) {w : Waiter} (hw : getWaiter c = .ok w) :
    (∃ l, allConnections c.connection = some l ∧ ∀ r, (∃ i, w.getId r = some i) ↔ ∃ x ∈ l, (x.ty, x.name) = r) ∧
    ∀ r i, w.getId r = some i ↔ w.names.get i = some r := by
  unfold getWaiter at hw
  cases hl : allConnections c.connection with
  | none => rw [hl] at hw; cases hw
  | some l =>
    rw [hl] at hw
    simp only at hw
    cases hs : wireAll c ⟨Waiter.new, c.launch, none⟩ l with
    | err e => rw [hs] at hw; cases hw
    | panic => rw [hs] at hw; cases hw
    | ok s =>
      rw [hs] at hw
      cases hw
      have hnew : Waiter.new.Identified := ⟨by intro r i; simp [Waiter.getId, Waiter.new, Table.get], by intro r i h; simp [Waiter.getId, Waiter.new, Table.get] at h⟩
      obtain ⟨a1, a2, a3⟩ := wireAll_ids l hs hnew
      obtain ⟨q1, q2, q3⟩ := configure_comps c.regulator s.waiter
      have hg : ∀ r, (List.foldl configureOne s.waiter c.regulator).getId r = s.waiter.getId r := by intro r; simp only [Waiter.getId, q2]
      refine ⟨⟨l, rfl, fun r => ?_⟩, fun r i => ?_⟩
      · simp only [hg]
        rw [a3 r]
        constructor
        · rintro (⟨i, h⟩ | h)
          · simp [Waiter.getId, Waiter.new, Table.get] at h
          · exact h
        · exact Or.inr
      · rw [hg, q3]; exact a1.names r i

/-- C44: no identity belongs to two components, and no component has two. -/
theorem C44_distinct (c : Config) {w : Waiter} (hw : getWaiter c = .ok w) {r r' : CompRef} {i i' : Nat} (h : w.getId r = some i) (h' : w.getId r' = some i') :
    r = r' ↔ i = i' := by
  have hn := (C44_lookup c hw).2
  constructor
  · rintro rfl; rw [h] at h'; cases h'; rfl
  · rintro rfl
    have h1 := (hn r i).mp h
    have h2 := (hn r' i).mp h'
    rw [h1] at h2; cases h2; rfl

/-! ## Instances -/

/-- A faucet into a program, and the program's standard error into a drain; the second pipe is marked `C`. -/
def straight : Map Hop :=
  [("a_1".toList, ⟨⟨.faucet, "tap".toList, .out⟩, none, ⟨.launch, "x".toList⟩, ⟨.terminate, 0⟩, none⟩),
   ("a_2".toList, ⟨⟨.launch, "x".toList, .err⟩, none, ⟨.drain, "tub".toList⟩, ⟨.consume, 0⟩, none⟩)]

def straightConfig (command : Option Str) : Config where
  faucet := [("tap".toList, "-".toList)]
  drain := []
  regulator := []
  launch := [("x".toList, ⟨command, none, [], ["-n".toList]⟩)]
  connection := hopSets straight

def Built.ok? {α} : Built α → Option α
  | .ok a => some a
  | _ => none

def Built.err? {α} : Built α → Option WireError
  | .err e => some e
  | _ => none

example : ((getWaiter (straightConfig (some "cat".toList))).ok?.map fun w => (w.comps, w.chans)) = some
    ([((.faucet, "tap".toList), .faucet "-".toList (some ⟨0, .out, 1, .terminate, 0, 8⟩)),
      ((.launch, "x".toList), .launch 1 none none "cat".toList (some ["-n".toList]) (some ⟨0, 1, 0⟩) none (some ⟨1, .err, 2, .consume, 1, 1⟩) none),
      ((.drain, "tub".toList), .drain [] (some ⟨1, 2, 1⟩))], 2) := by decide +kernel

example : (getWaiter (straightConfig none)).err? = some (.noCommand "x".toList) := by decide +kernel

example : ((getWaiter (straightConfig (some "cat".toList))).ok?.bind fun w => w.getId (.drain, "tub".toList)) = some 2 := by decide +kernel

end Verif
