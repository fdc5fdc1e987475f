import Verif.Lemmas.Short
import Verif.Props.Pipeline
/-!
# Properties C54 and C63: networks without circles cannot deadlock
-/
namespace Verif
section
variable {ι : Type} [DecidableEq ι] {N : Network ι} {cap : Caps} {τ : List (ι × Ev)} {st : Store}

theorem canStep (hx : Execution cap N.sys τ) (hst : execAll cap Store.init (τ.map Prod.snd) = some st) {i : ι} {n : Node} {e : Ev}
    {st' : Store} (hn : N.node i = some n) (hp : n.task.Partial (proj i τ ++ [e])) (he : exec cap st e = some st') :
    N.CanStep cap τ i := by
  refine ⟨e, ?_, ?_⟩
  · rw [List.map_append, execAll_append, hst]
    simp [execAll, he]
  · intro j t ht
    rw [proj_append]
    by_cases hij : j = i
    · subst hij
      simp [Network.sys, hn] at ht
      subst ht
      simpa [proj] using hp
    · have : proj j [(i, e)] = [] := by simp [proj, Ne.symm hij]
      rw [this, List.append_nil]
      exact hx.tasks j t ht

theorem closing_closed (hst : execAll cap Store.init (τ.map Prod.snd) = some st) {i : ι} {c : Nat}
    (h : (Kind.data, c) ∈ closings (proj i τ)) : (st .data c).closed = true := by
  rw [closed_iff hst]
  right
  obtain ⟨e, he, hc⟩ := closedIn_closings.mpr h
  exact ⟨e, List.mem_map.mpr ⟨_, mem_proj.mp he, rfl⟩, hc⟩

/-- An input that has not ended and is open is still in use. -/
theorem inUse_open (hst : execAll cap Store.init (τ.map Prod.snd) = some st) {i : ι} {c : Nat} (he : Act.ended (.chan c) ∉ acts (proj i τ))
    (ho : (st .data c).closed = false) : Network.InUse (proj i τ) (.chan c) := by
  refine ⟨he, fun c' e h => ?_⟩
  cases e
  rw [closing_closed hst h] at ho; cases ho

/-- The reason behind C63: what a component asks of the surroundings can be had, unless a component of lower rank has not ended. -/
theorem progress_core (hw : N.Wired) (hx : Execution cap N.sys τ) (hu : N.Undisturbed τ)
    (hst : execAll cap Store.init (τ.map Prod.snd) = some st) {rank : ι → Nat} {R : Nat} (hr : ∀ a c b, N.Edge a c b → rank a < rank b)
    (hR : ∀ i n, N.node i = some n → rank i ≤ R)
    (hcap : ∀ a c b, N.Edge a c b → cap .data c ≠ some 0)
    (hreq : ∀ i n q, N.node i = some n → n.task.Awaits (proj i τ) q → (∀ a c b, N.Edge a c b → q.on ≠ some (.data, c)) → Impossible cap st q →
      ∃ c, q = .recv .data c ∧ ∃ a m, N.node a = some m ∧ rank a < rank i ∧ ¬ m.task.Done (proj a τ))
    (hin : ∀ i n c, N.node i = some n → .chan c ∈ n.sources → (∀ a, ¬ N.Edge a c i) → Act.ended (.chan c) ∉ acts (proj i τ) →
      (st .data c).q ≠ [] ∨ (st .data c).closed = true ∨ ∃ a m, N.node a = some m ∧ rank a < rank i ∧ ¬ m.task.Done (proj a τ))
    (hj : ∀ i inputs pushs spy, N.node i = some (.junction inputs pushs spy) → ∀ f ∈ acts (proj i τ), f.ruins pushs = false)
    {i : ι} {n : Node} (hi : N.node i = some n) (hnd : ¬ n.task.Done (proj i τ)) :
    ∃ j m, N.node j = some m ∧ ¬ m.task.Done (proj j τ) ∧ ¬ N.Idle st τ j ∧ N.CanStep cap τ j := by
  refine Classical.byContradiction fun hno => ?_
  have part : ∀ {j m}, N.node j = some m → m.task.Partial (proj j τ) := fun {j m} hm => hx.tasks j m.task (by simp [Network.sys, hm])
  have done : ∀ {j m}, N.node j = some m → m.task.Done (proj j τ) → ∀ c,
      (.chan c ∈ m.targets → (st .data c).closed = true) ∧ (∀ a, N.Edge a c j → (st .data c).closed = true) := by
    intro j m hm hd c
    have D := node_done (hw.ok j m hm) hd (by rintro inputs pushs spy rfl; exact hj j inputs pushs spy hm) c
    refine ⟨fun ht => closing_closed hst (D.1 ht), fun a he => ?_⟩
    have F := N.facts hw hx hu he
    obtain ⟨k, m', hk, hm', ht, hs⟩ := he
    rw [hm] at hm'; simp at hm'; subst hm'
    exact closing_closed hst (D.2 hs)
  have stuck : ∀ {j m}, N.node j = some m → ¬ m.task.Done (proj j τ) →
      N.Idle st τ j ∨ ∃ q, m.task.Awaits (proj j τ) q ∧ Impossible cap st q := by
    intro j m hm hd
    by_cases hid : N.Idle st τ j
    · exact Or.inl hid
    · right
      rcases (part hm).now (node_speaks (hw.ok j m hm)) with h | ⟨q, hq⟩ | ⟨k, c, h⟩
      · exact absurd h hd
      · refine ⟨q, hq, fun r => ?_⟩
        cases he : exec cap st ⟨q, r⟩ with
        | none => rfl
        | some st' => exact absurd ⟨j, m, hm, hd, hid, canStep hx hst hm (hq.step r) he⟩ hno
      · exact absurd ⟨j, m, hm, hd, hid, canStep hx hst hm h (by simp [exec]; rfl)⟩ hno
  have wait : ∀ {j m}, N.node j = some m → ¬ m.task.Done (proj j τ) → ¬ N.Idle st τ j →
      (∃ c, m.sources = [.chan c] ∧ (st .data c).q = [] ∧ (st .data c).closed = false ∧
        ((∃ a, N.Edge a c j) ∨ ∃ a k, N.node a = some k ∧ rank a < rank j ∧ ¬ k.task.Done (proj a τ))) ∨
      (∃ c b, N.Edge j c b ∧ (st .data c).closed = false ∧ ¬ hasRoom (cap .data c) (st .data c).q.length) := by
    intro j m hm hd hid
    rcases stuck hm hd with h | ⟨q, hq, himp⟩
    · exact absurd h hid
    · by_cases hedge : ∃ a c b, N.Edge a c b ∧ q.on = some (.data, c)
      · obtain ⟨a, c, b, he, hon⟩ := hedge
        have he' := he
        obtain ⟨k, m', hk, hm', ht, hs⟩ := he'
        rcases node_awaits (hw.ok j m hm) hq himp hon with ⟨h1, h2, h3, _⟩ | ⟨h1, h2, h3, _⟩
        · left
          have : b = j := hw.reader b j m' m c hm' hm hs (by rw [h1]; simp)
          subst this
          exact ⟨c, h1, h2, h3, Or.inl ⟨a, he⟩⟩
        · right
          have : a = j := hw.writer a j k m c hk hm ht h1
          subst this
          exact ⟨c, b, he, h2, h3⟩
      · obtain ⟨c, rfl, hlow⟩ := hreq j m q hm hq (fun a c b he hon => hedge ⟨a, c, b, he, hon⟩) himp
        rcases node_awaits (hw.ok j m hm) hq himp rfl with ⟨h1, h2, h3, _⟩ | ⟨_, _, _, d, hd⟩
        · exact Or.inl ⟨c, h1, h2, h3, Or.inr hlow⟩
        · cases hd
  have full : ∀ k j c b, N.Edge j c b → R - rank j = k → (st .data c).closed = false →
      ¬ hasRoom (cap .data c) (st .data c).q.length → False := by
    intro k
    induction k using Nat.strongRecOn with
    | _ k ih =>
      intro j c b he hk h1 h2
      have hne : (st .data c).q ≠ [] := by
        intro h0
        apply h2
        have := hcap j c b he
        unfold hasRoom
        rw [h0]
        cases hc : cap .data c with
        | none => trivial
        | some x => rw [hc] at this; simp at this; simp; omega
      have he' := he
      obtain ⟨_, m, _, hm, _, hs⟩ := he'
      have hd : ¬ m.task.Done (proj b τ) := by
        intro hd
        have := (done hm hd c).2 j he
        rw [h1] at this; simp at this
      have hid : ¬ N.Idle st τ b := by
        rintro ⟨inputs, pushs, spy, hn, _, hall⟩
        rw [hm] at hn; simp at hn; subst hn
        by_cases hend : Act.ended (.chan c) ∈ acts (proj b τ)
        · have F := N.facts hw hx hu he
          have := closing_closed hst (edge_complete hst F.on F.writer F.reader F.sent F.got hend).2.2
          rw [h1] at this; simp at this
        · exact hne (hall c hs (inUse_open hst hend h1)).1
      rcases wait hm hd hid with ⟨c', h3, h4, _⟩ | ⟨c', b', he2, h3, h4⟩
      · rw [h3] at hs; simp at hs; subst hs; exact hne h4
      · have r1 := hr _ _ _ he
        have r2 := hr _ _ _ he2
        obtain ⟨_, m2, _, hm2, _, _⟩ := id he2
        have r3 := hR b' m2 hm2
        exact ih (R - rank b) (by omega) b c' b' he2 rfl h3 h4
  have low : ∀ k j m, rank j = k → N.node j = some m → m.task.Done (proj j τ) := by
    intro k
    induction k using Nat.strongRecOn with
    | _ k ih =>
      intro j m hk hm
      refine Classical.byContradiction fun hd => ?_
      have above : ∀ a c, N.Edge a c j → (st .data c).closed = true := by
        intro a c he
        have := hr _ _ _ he
        obtain ⟨p, _, hp, _, ht, _⟩ := he
        exact (done hp (ih (rank a) (by omega) a p rfl hp) c).1 ht
      by_cases hid : N.Idle st τ j
      · obtain ⟨inputs, pushs, spy, hn, ⟨s, hs, hse⟩, hall⟩ := hid
        rw [hm] at hn; simp at hn; subst hn
        have hok := hw.ok j _ hm
        obtain ⟨x, hxi, hxs⟩ := List.mem_filterMap.mp hs
        obtain ⟨jj, c, hp⟩ := hok.2.1 x hxi
        rw [hp] at hxs; simp [Pull.source] at hxs; subst hxs
        obtain ⟨h1, h2⟩ := hall c hs hse
        by_cases hint : ∃ a, N.Edge a c j
        · obtain ⟨a, he⟩ := hint
          rw [above a c he] at h2; simp at h2
        · rcases hin j _ c hm hs (fun a he => hint ⟨a, he⟩) hse.1 with h | h | ⟨a, p, hp, hlt, hnd'⟩
          · exact h h1
          · rw [h] at h2; simp at h2
          · exact hnd' (ih (rank a) (by omega) a p rfl hp)
      · rcases wait hm hd hid with ⟨c, _, _, h2, ⟨a, he⟩ | ⟨a, p, hp, hlt, hnd'⟩⟩ | ⟨c, b, he, h1, h2⟩
        · rw [above a c he] at h2; simp at h2
        · exact hnd' (ih (rank a) (by omega) a p rfl hp)
        · exact full _ j c b he rfl h1 h2
  exact hnd (low _ i n rfl hi)

/-- **C63.** In a network without circles, in which no capacity is zero and which is not waiting for its
surroundings: as long as not all components have ended, one that has not ended can make a step, and is not a
junction merely looking at empty inputs. Junctions are assumed to have met nothing they cannot get over; relays and regulators
may have failed in any way. -/
theorem C63_progress (hw : N.Wired) (hx : Execution cap N.sys τ) (hu : N.Undisturbed τ)
    (hst : execAll cap Store.init (τ.map Prod.snd) = some st) (ha : N.Acyclic)
    (hcap : ∀ a c b, N.Edge a c b → cap .data c ≠ some 0) (hun : N.Unhindered cap st τ)
    (hj : ∀ i inputs pushs spy, N.node i = some (.junction inputs pushs spy) → ∀ f ∈ acts (proj i τ), f.ruins pushs = false)
    {i : ι} {n : Node} (hi : N.node i = some n) (hnd : ¬ n.task.Done (proj i τ)) :
    ∃ j m, N.node j = some m ∧ ¬ m.task.Done (proj j τ) ∧ ¬ N.Idle st τ j ∧ N.CanStep cap τ j := by
  obtain ⟨rank, R, hr, hR⟩ := ha
  refine progress_core hw hx hu hst hr hR hcap ?_ ?_ hj hi hnd
  · intro i n q hn hq hno himp
    exact absurd himp (hun.requests i n q hn hq hno)
  · intro i n c hn hc hno he
    rcases hun.inputs i n c hn hc hno he with h | h
    · exact Or.inl h
    · exact Or.inr (Or.inl h)

/-! ## Networks on their own -/

theorem node_plain {n : Node} {tr} (hok : n.Ok) (hp : n.Plain) (h : n.task.Partial tr) {e : Ev} (he : e ∈ tr) {k : Kind} {c : Nat}
    (hq : e.q.on = some (k, c)) : k = .data := by
  cases n with
  | relay pull mon spy push =>
    obtain ⟨rfl, rfl⟩ := hp
    have := relayTask_only h e he _ hq
    simp only [relayChans, List.mem_append] at this
    rcases this with (((h | h) | h) | h) | h
    · exact push_owned_data h
    · simp at h
    · simp at h
    · simp at h
    · exact pull_owned_data h
  | regulator pull push spy ctl =>
    obtain ⟨rfl, rfl⟩ := hp
    have h : (regulatorTask pull push none none).Partial tr := h
    have := Task.only (P := Within (regulatorChans pull push none none)) (fun s => regulatorBody_only) (by
      intro kc hkc x hx
      simp [Req.on] at hx
      subst hx
      simp only [regulatorTask, regulatorChans, List.mem_append] at hkc ⊢
      rcases hkc with h | h <;> simp [h]) h e he _ hq
    simp only [regulatorChans, List.mem_append] at this
    rcases this with ((h | h) | h) | h
    · exact push_owned_data h
    · simp at h
    · simp at h
    · exact pull_owned_data h
  | junction inputs pushs spy =>
    have hp : spy = none := hp
    subst hp
    obtain ⟨_, hi, hd, hs, _⟩ := hok
    have := junction_within (L := (inputs.map Prod.fst).flatMap Pull.owned ++ pushs.flatMap Push.owned) hd hs
      (JInv.init (pushs := pushs)) (junctionTask_partial h) ?_ ?_ (by simp) e he _ hq
    · simp only [List.mem_append] at this
      rcases this with h | h
      · obtain ⟨p, hp, hpo⟩ := List.mem_flatMap.mp h
        exact pull_owned_data hpo
      · obtain ⟨p, hp, hpo⟩ := List.mem_flatMap.mp h
        exact push_owned_data hpo
    · intro p hp kc hk
      have := (JInv.init (pushs := pushs)).mem.mp hp
      exact List.mem_append_left _ (List.mem_flatMap.mpr ⟨p, this.1, hk⟩)
    · intro p hp kc hk
      exact List.mem_append_right _ (List.mem_flatMap.mpr ⟨p, hp, hk⟩)

/-- A network on its own is never waiting for its surroundings. -/
theorem Network.SelfContained.unhindered (hs : N.SelfContained) (hw : N.Wired) : N.Unhindered cap st τ := by
  constructor
  · intro i n q hn hq hno himp
    have key : ∀ k c (r : q.Resp), q.on = some (k, c) → ∃ a b, N.Edge a c b ∧ k = .data := by
      intro k c r hon
      have hp := hq.step r
      have hk := node_plain (hw.ok i n hn) (hs.plain i n hn) hp (e := ⟨q, r⟩) (by simp) hon
      subst hk
      rcases node_within (hw.ok i n hn) hp (e := ⟨q, r⟩) (by simp) hon with h | h
      · obtain ⟨a, ha⟩ := hs.sources i n c hn h; exact ⟨a, i, ha, rfl⟩
      · obtain ⟨b, hb⟩ := hs.targets i n c hn h; exact ⟨i, b, hb, rfl⟩
    rcases impossible_cases himp with ⟨k, c, rfl, _⟩ | ⟨k, c, v, rfl, _⟩
    · obtain ⟨a, b, he, rfl⟩ := key k c none rfl
      exact hno a c b he rfl
    · obtain ⟨a, b, he, rfl⟩ := key k c true rfl
      exact hno a c b he rfl
  · intro i n c hn hc hno
    obtain ⟨a, ha⟩ := hs.sources i n c hn hc
    exact absurd ha (hno a)

/-- **C54**, no deadlock: in a pipeline, or any network of relays and regulators without circles, on its own, as long
as not all components have ended, one of them can make a step; whatever has failed, and for every schedule
and all capacities above zero. -/
theorem C54_progress (hw : N.Wired) (hx : Execution cap N.sys τ) (hu : N.Undisturbed τ) (ha : N.Acyclic) (hs : N.SelfContained)
    (hnj : ∀ i inputs pushs spy, N.node i ≠ some (.junction inputs pushs spy))
    (hcap : ∀ a c b, N.Edge a c b → cap .data c ≠ some 0) {i : ι} {n : Node} (hi : N.node i = some n) (hnd : ¬ n.task.Done (proj i τ)) :
    ∃ j m, N.node j = some m ∧ ¬ m.task.Done (proj j τ) ∧ N.CanStep cap τ j := by
  obtain ⟨st, hst⟩ := Option.isSome_iff_exists.mp hx.chans
  obtain ⟨j, m, h1, h2, _, h3⟩ := C63_progress hw hx hu hst ha hcap (hs.unhindered hw)
    (fun i inputs pushs spy h => absurd h (hnj i inputs pushs spy)) hi hnd
  exact ⟨j, m, h1, h2, h3⟩

/-- **C54**: when no component can make another step, all have ended and all channels between them are closed. -/
theorem C54_stops (hw : N.Wired) (hx : Execution cap N.sys τ) (hu : N.Undisturbed τ) (ha : N.Acyclic) (hs : N.SelfContained)
    (hnj : ∀ i inputs pushs spy, N.node i ≠ some (.junction inputs pushs spy))
    (hcap : ∀ a c b, N.Edge a c b → cap .data c ≠ some 0) (hmax : ∀ i n, N.node i = some n → ¬ N.CanStep cap τ i) :
    (∀ i n, N.node i = some n → n.task.Done (proj i τ)) ∧
    ∀ st, execAll cap Store.init (τ.map Prod.snd) = some st → ∀ a c b, N.Edge a c b → (st .data c).closed = true := by
  have hd : ∀ i n, N.node i = some n → n.task.Done (proj i τ) := by
    intro i n hi
    refine Classical.byContradiction fun hnd => ?_
    obtain ⟨j, m, h1, _, h3⟩ := C54_progress hw hx hu ha hs hnj hcap hi hnd
    exact hmax j m h1 h3
  refine ⟨hd, ?_⟩
  intro st hst a c b he
  obtain ⟨n, m, hn, _, ht, _⟩ := he
  exact closing_closed hst ((node_done (hw.ok a n hn) (hd a n hn) (by
    rintro inputs pushs spy rfl; exact absurd hn (hnj a inputs pushs spy)) c).1 ht)

/-- **C54**: when no component of a pipeline can make another step, and nothing has failed from outside, everything that
entered has been written to the outputs of the last one. -/
theorem C54_delivers {n : Nat} {place : Nat → ι} {ch : Nat → Nat} (hw : N.Wired) (hx : Execution cap N.sys τ) (hu : N.Undisturbed τ)
    (ha : N.Acyclic) (hs : N.SelfContained) (hnj : ∀ i inputs pushs spy, N.node i ≠ some (.junction inputs pushs spy))
    (hcap : ∀ a c b, N.Edge a c b → cap .data c ≠ some 0) (hmax : ∀ i n, N.node i = some n → ¬ N.CanStep cap τ i)
    (hl : N.Line n place ch) (hf : ∀ j n f, N.node j = some n → f ∈ acts (proj j τ) → ¬ N.Outside j f) :
    ∀ m, N.node (place n) = some m → ∀ t ∈ m.targets, offeredTo t (proj (place n) τ) = received (proj (place 0) τ) :=
  (C53_complete hw hx hu hl hf (C54_stops hw hx hu ha hs hnj hcap hmax).1).2

/-- **C63**: when no component of a network without circles, on its own, can make another step, apart from junctions
looking at empty inputs, and nothing has failed from outside, all have ended, all channels are closed, and along
every path everything has been delivered. -/
theorem C63_stops (hw : N.Wired) (hx : Execution cap N.sys τ) (hu : N.Undisturbed τ) (ha : N.Acyclic) (hs : N.SelfContained)
    (hcap : ∀ a c b, N.Edge a c b → cap .data c ≠ some 0) (hst : execAll cap Store.init (τ.map Prod.snd) = some st)
    (hf : ∀ j n f, N.node j = some n → f ∈ acts (proj j τ) → ¬ N.Outside j f)
    (hmax : ∀ i n, N.node i = some n → ¬ N.Idle st τ i → ¬ N.CanStep cap τ i) :
    (∀ i n, N.node i = some n → n.task.Done (proj i τ)) ∧ (∀ a c b, N.Edge a c b → (st .data c).closed = true) ∧
    ∀ a b m, N.Path a b → N.node b = some m → ∀ t ∈ m.targets, offeredTo t (proj b τ) = received (proj a τ) := by
  have nf := C55_no_failures hw hx hu hf
  have hd : ∀ i n, N.node i = some n → n.task.Done (proj i τ) := by
    intro i n hi
    refine Classical.byContradiction fun hnd => ?_
    obtain ⟨j, m, h1, _, h2, h3⟩ := C63_progress hw hx hu hst ha hcap (hs.unhindered hw) (fun i inputs pushs spy h f hm => not_ruins (nf i _ f h hm)) hi hnd
    exact hmax j m h1 h2 h3
  refine ⟨hd, ?_, fun a b m hp hm => C55_delivered hw hx hu hf hd hp hm⟩
  intro a c b he
  obtain ⟨n, m, hn, _, ht, _⟩ := he
  exact closing_closed hst ((node_done (hw.ok a n hn) (hd a n hn) (fun _ _ _ _ f hm => not_ruins (nf a n f hn hm)) c).1 ht)

/-! ## Ends -/

theorem sum_le {α : Type} {f g : α → Nat} {l : List α} (h : ∀ x ∈ l, f x ≤ g x) : (l.map f).sum ≤ (l.map g).sum := by
  induction l with
  | nil => simp
  | cons x l ih =>
    have := ih fun y hy => h y (by simp [hy])
    have := h x (by simp)
    simp; omega

theorem sum_lt {α : Type} {f g : α → Nat} {l : List α} (h : ∀ x ∈ l, f x ≤ g x) {y : α} (hy : y ∈ l) (hlt : f y + 1 ≤ g y) :
    (l.map f).sum + 1 ≤ (l.map g).sum := by
  induction l with
  | nil => simp at hy
  | cons x l ih =>
    have h1 := h x (by simp)
    have h2 := sum_le fun z hz => h z (List.mem_cons_of_mem _ hz)
    simp at hy ⊢
    rcases hy with rfl | hy
    · omega
    · have := ih (fun z hz => h z (by simp [hz])) hy
      omega

theorem sum_const {α : Type} {f : α → Nat} {l : List α} {M : Nat} (h : ∀ x ∈ l, f x ≤ M) : (l.map f).sum ≤ l.length * M := by
  induction l with
  | nil => simp
  | cons x l ih =>
    have := ih fun y hy => h y (by simp [hy])
    have := h x (by simp)
    simp only [List.map_cons, List.sum_cons, List.length_cons, Nat.add_mul]; omega

theorem le_sum {α : Type} {f : α → Nat} {l : List α} {x : α} (h : x ∈ l) : f x ≤ (l.map f).sum := by
  induction l with
  | nil => simp at h
  | cons y l ih =>
    simp at h ⊢
    rcases h with rfl | h
    · omega
    · have := ih h; omega

theorem received_sum {srcs : List End} {tr : List Ev} (h : ∀ s d, Act.got s d ∈ acts tr → s ∈ srcs) :
    (received tr).length ≤ (srcs.map fun s => (receivedFrom s tr).length).sum := by
  unfold received receivedFrom
  revert h
  induction acts tr with
  | nil => simp
  | cons x l ih =>
    intro h
    have ih := ih fun s d hd => h s d (by simp [hd])
    cases x with
    | got s d =>
      have hs := h s d (by simp)
      rw [List.filterMap_cons]
      simp only [List.length_cons]
      refine Nat.le_trans (Nat.succ_le_succ ih) (sum_lt ?_ hs ?_)
      · intro s' _
        by_cases hss : s = s' <;> simp [List.filterMap_cons, hss]
      · simp [List.filterMap_cons]
    | _ => simpa [List.filterMap_cons] using ih

/-- How many messages a component of a network without circles can receive. -/
theorem received_bound (hw : N.Wired) {rank : ι → Nat} (hr : ∀ a c b, N.Edge a c b → rank a < rank b) {is : List ι}
    (hfin : ∀ i n, N.node i = some n → i ∈ is) (B k : Nat) :
    ∃ M, ∀ τ, Execution cap N.sys τ → N.Undisturbed τ → N.Fed B τ → ∀ j n, N.node j = some n → rank j < k → (received (proj j τ)).length ≤ M := by
  induction k with
  | zero => exact ⟨0, fun _ _ _ _ _ _ _ h => absurd h (by omega)⟩
  | succ k ih =>
    obtain ⟨M, hM⟩ := ih
    refine ⟨(is.map fun i => ((N.node i).map fun n => n.sources.length).getD 0).sum * (max M B), ?_⟩
    intro τ hx hu hB j n hn hj
    have h1 := received_sum (fun s d h => (N.conduct hw hx hn).got s d h)
    have h2 : ∀ s ∈ n.sources, (receivedFrom s (proj j τ)).length ≤ max M B := by
      intro s hs
      by_cases hint : ∃ a c, s = .chan c ∧ N.Edge a c j
      · obtain ⟨a, c, rfl, he⟩ := hint
        have h3 := (C55_channel hw hx hu he).1.length_le
        have h4 := hr _ _ _ he
        obtain ⟨m, _, hm, _⟩ := he
        have := hM τ hx hu hB a m hm (by omega)
        omega
      · have := hB j n s hn hs (fun a c h1 h2 => hint ⟨a, c, h1, h2⟩)
        omega
    have h3 := sum_const h2
    have h4 : n.sources.length ≤ (is.map fun i => ((N.node i).map fun n => n.sources.length).getD 0).sum := by
      have := le_sum (f := fun i => ((N.node i).map fun n => n.sources.length).getD 0) (hfin j n hn)
      simpa [hn] using this
    exact Nat.le_trans h1 (Nat.le_trans h3 (Nat.mul_le_mul_right _ h4))

theorem filter_sum {is : List ι} (hfin : ∀ i n, N.node i = some n → i ∈ is) (p : Ev → Bool) (τ : List (ι × Ev)) :
    (τ.filter fun x => (N.node x.1).isSome && p x.2).length ≤
      (is.map fun i => if (N.node i).isSome then ((proj i τ).filter p).length else 0).sum := by
  induction τ with
  | nil => simp
  | cons x τ ih =>
    obtain ⟨j, e⟩ := x
    have mono : ∀ i ∈ is, (if (N.node i).isSome then ((proj i τ).filter p).length else 0) ≤
        (if (N.node i).isSome then ((proj i ((j, e) :: τ)).filter p).length else 0) := by
      intro i _
      split
      · by_cases hij : j = i
        · subst hij
          rw [proj_cons_self]
          cases hp : p e <;> simp [hp]
        · rw [proj_cons_ne hij]; exact Nat.le_refl _
      · exact Nat.le_refl _
    cases hc : (N.node j).isSome && p e with
    | false => rw [List.filter_cons_of_neg (by simpa using hc)]; exact Nat.le_trans ih (sum_le mono)
    | true =>
      rw [List.filter_cons_of_pos (by simpa using hc), List.length_cons]
      simp at hc
      obtain ⟨n, hn⟩ := Option.isSome_iff_exists.mp hc.1
      refine Nat.le_trans (Nat.succ_le_succ ih) (sum_lt mono (hfin j n hn) ?_)
      simp [hc.1, proj_cons_self, hc.2]

/-- **C63**, ends: in a finite network without circles, if no component gets more than `B` messages on any of its
inputs from outside, there are, in all executions, no more than a fixed number of events other than junctions
looking at empty inputs and sleeping. -/
theorem C63_finite (hw : N.Wired) (ha : N.Acyclic) {is : List ι} (hfin : ∀ i n, N.node i = some n → i ∈ is) (B : Nat) :
    ∃ K, ∀ τ, Execution cap N.sys τ → N.Undisturbed τ → N.Fed B τ →
      (τ.filter fun x => (N.node x.1).isSome && !(act x.2).idles).length ≤ K := by
  obtain ⟨rank, R, hr, hR⟩ := ha
  obtain ⟨M, hM⟩ := received_bound (cap := cap) hw hr hfin B (R + 1)
  have hk : ∀ i, ∃ K, ∀ n, N.node i = some n → ∀ tr, n.task.Partial tr → busy tr ≤ K * ((received tr).length + 1) := by
    intro i
    cases hn : N.node i with
    | none => exact ⟨0, by simp⟩
    | some n =>
      obtain ⟨K, h⟩ := node_busy (hw.ok i n hn)
      exact ⟨K, fun m hm tr ht => by simp at hm; subst hm; exact (h tr ht).1⟩
  obtain ⟨K, hK⟩ := Classical.axiomOfChoice hk
  refine ⟨(is.map fun i => K i * (M + 1)).sum, ?_⟩
  intro τ hx hu hB
  refine Nat.le_trans (filter_sum hfin (fun e => !(act e).idles) τ) (sum_le ?_)
  intro i _
  split
  · next h =>
    obtain ⟨n, hn⟩ := Option.isSome_iff_exists.mp h
    have h1 := hK i n hn _ (hx.tasks i n.task (by simp [Network.sys, hn]))
    have h2 := hM τ hx hu hB i n hn (by have := hR i n hn; omega)
    have h3 : ((proj i τ).filter fun e => !(act e).idles).length = busy (proj i τ) := by
      unfold busy acts
      rw [List.countP_map, List.countP_eq_length_filter]
      rfl
    rw [h3]
    exact Nat.le_trans h1 (Nat.mul_le_mul_left _ (by omega))
  · exact Nat.zero_le _

/-- **C54**, ends: no schedule of a pipeline (or of any finite network of relays and regulators without circles) is
infinite: if no more than `B` messages enter, the components make no more than a fixed number of steps. -/
theorem C54_finite (hw : N.Wired) (ha : N.Acyclic) {is : List ι} (hfin : ∀ i n, N.node i = some n → i ∈ is)
    (hnj : ∀ i inputs pushs spy, N.node i ≠ some (.junction inputs pushs spy)) (B : Nat) :
    ∃ K, ∀ τ, Execution cap N.sys τ → N.Undisturbed τ → N.Fed B τ → (τ.filter fun x => (N.node x.1).isSome).length ≤ K := by
  obtain ⟨rank, R, hr, hR⟩ := ha
  obtain ⟨M, hM⟩ := received_bound (cap := cap) hw hr hfin B (R + 1)
  have hk : ∀ i, ∃ K, ∀ n, N.node i = some n → ∀ tr, n.task.Partial tr → tr.length ≤ K * ((received tr).length + 1) := by
    intro i
    cases hn : N.node i with
    | none => exact ⟨0, by simp⟩
    | some n =>
      obtain ⟨K, h⟩ := node_busy (hw.ok i n hn)
      exact ⟨K, fun m hm tr ht => by simp at hm; subst hm; exact (h tr ht).2 (fun a b c hj => hnj i a b c (by rw [hn, hj]))⟩
  obtain ⟨K, hK⟩ := Classical.axiomOfChoice hk
  refine ⟨(is.map fun i => K i * (M + 1)).sum, ?_⟩
  intro τ hx hu hB
  have h0 := filter_sum hfin (fun _ => true) τ
  simp only [Bool.and_true] at h0
  refine Nat.le_trans h0 (sum_le ?_)
  intro i _
  split
  · next h =>
    obtain ⟨n, hn⟩ := Option.isSome_iff_exists.mp h
    have h1 := hK i n hn _ (hx.tasks i n.task (by simp [Network.sys, hn]))
    have h2 := hM τ hx hu hB i n hn (by have := hR i n hn; omega)
    rw [List.filter_eq_self.mpr (by simp)]
    exact Nat.le_trans h1 (Nat.mul_le_mul_left _ (by omega))
  · exact Nat.zero_le _

end

/-! ### Pipelines of any length -/
namespace Pipe

theorem acyclic (n : Nat) : (net n).Acyclic := by
  refine ⟨id, n + 1, ?_, fun i m h => (node_some h).1⟩
  rintro a c b ⟨p, q, hp, hq, ht, hs⟩
  obtain ⟨ha, rfl⟩ := node_some hp
  obtain ⟨hb, rfl⟩ := node_some hq
  rw [targets n a ha] at ht
  rw [sources n b hb] at hs
  by_cases h1 : a = n + 1
  · simp [h1] at ht
  · by_cases h2 : b = 0
    · simp [h2] at hs
    · simp [h1] at ht; simp [h2] at hs; simp; omega

theorem selfContained (n : Nat) : (net n).SelfContained := by
  constructor
  · intro i m h
    obtain ⟨hi, rfl⟩ := node_some h
    unfold stage
    by_cases h0 : i = 0
    · simp [h0, Node.Plain]
    · by_cases h1 : i = n + 1 <;> simp [h0, h1, Node.Plain]
  · intro i m c h hs
    obtain ⟨hi, rfl⟩ := node_some h
    rw [sources n i hi] at hs
    by_cases h0 : i = 0
    · simp [h0] at hs
    · simp [h0] at hs
      refine ⟨i - 1, ?_⟩
      have := (line n).edge (i - 1) (by omega)
      simp only [id] at this
      rw [show i - 1 + 1 = i by omega] at this
      rw [show c = i - 1 by omega]
      exact this
  · intro i m c h ht
    obtain ⟨hi, rfl⟩ := node_some h
    rw [targets n i hi] at ht
    by_cases h1 : i = n + 1
    · simp [h1] at ht
    · simp [h1] at ht
      subst ht
      exact ⟨c + 1, (line n).edge c (by omega)⟩

theorem noJunction (n : Nat) : ∀ i inputs pushs spy, (net n).node i ≠ some (.junction inputs pushs spy) := by
  intro i inputs pushs spy h
  obtain ⟨hi, h⟩ := node_some h
  unfold stage at h
  by_cases h0 : i = 0
  · simp [h0] at h
  · by_cases h1 : i = n + 1 <;> simp [h0, h1] at h

/-- For pipelines of every length: no deadlock, and a bound on the number of steps. -/
example (n c : Nat) (τ : List (Nat × Ev)) (hx : Execution (fun _ _ => some (c + 1)) (net n).sys τ) (hu : (net n).Undisturbed τ)
    (h : ∃ i, i ≤ n + 1 ∧ ¬ (stage n i).task.Done (proj i τ)) : ∃ j, (net n).CanStep (fun _ _ => some (c + 1)) τ j := by
  obtain ⟨i, hi, hd⟩ := h
  obtain ⟨j, _, _, _, hj⟩ := C54_progress (wired n) hx hu (acyclic n) (selfContained n) (noJunction n) (by simp) (show (net n).node i = some (stage n i) by simp [net, hi]) hd
  exact ⟨j, hj⟩

example (n B : Nat) (cap : Caps) : ∃ K, ∀ τ, Execution cap (net n).sys τ → (net n).Undisturbed τ → (net n).Fed B τ →
    (τ.filter fun x => ((net n).node x.1).isSome).length ≤ K :=
  C54_finite (wired n) (acyclic n) (is := List.range (n + 2)) (fun i m h => by have := (node_some h).1; simp; omega) (noJunction n) B

/-- The pipeline that has run to its end cannot make another step. -/
example : (∀ i m, (net 1).node i = some m → ¬ (net 1).CanStep (fun _ _ => some 2) trace i) ∧ (net 1).Fed 2 trace := by
  constructor
  · rintro i m hm ⟨e, he⟩
    have := he.tasks i m.task (by simp [Network.sys, hm])
    rw [proj_append, proj_cons_self] at this
    exact (done i m hm).stops this
  · intro i m s hm hs _
    obtain ⟨hi, rfl⟩ := node_some hm
    have : ∀ {s tr}, (receivedFrom s tr).length ≤ (received tr).length := by
      intro s tr
      unfold receivedFrom received
      induction acts tr with
      | nil => simp
      | cons x l ih =>
        cases x with
        | got s' d => by_cases hs : s' = s <;> simp [List.filterMap_cons, hs] <;> omega
        | _ => simpa [List.filterMap_cons] using ih
    refine Nat.le_trans this ?_
    have h0 : (received (proj 0 trace)).length ≤ 2 := by decide +kernel
    have h1 : (received (proj 1 trace)).length ≤ 2 := by decide +kernel
    have h2 : (received (proj 2 trace)).length ≤ 2 := by decide +kernel
    match i, hi with
    | 0, _ => exact h0
    | 1, _ => exact h1
    | 2, _ => exact h2

end Pipe

/-! ### A tree with a junction -/
namespace Tree

def faucet : Node := .regulator (.stream ⟨0, 1⟩ 0) (.sender ⟨1, some .out, 2, .terminate⟩ 0) none none

def node : Nat → Option Node
  | 0 => some faucet
  | 1 => some FanOut.split
  | 2 => some FanOut.left
  | 3 => some FanOut.right
  | _ => none

def net : Network Nat := ⟨node⟩

theorem nodes {i n} (h : net.node i = some n) :
    (i = 0 ∧ faucet = n) ∨ (i = 1 ∧ FanOut.split = n) ∨ (i = 2 ∧ FanOut.left = n) ∨ (i = 3 ∧ FanOut.right = n) := by
  match i, h with
  | 0, h => exact Or.inl ⟨rfl, Option.some.inj h⟩
  | 1, h => exact Or.inr (Or.inl ⟨rfl, Option.some.inj h⟩)
  | 2, h => exact Or.inr (Or.inr (Or.inl ⟨rfl, Option.some.inj h⟩))
  | 3, h => exact Or.inr (Or.inr (Or.inr ⟨rfl, Option.some.inj h⟩))

theorem wired : net.Wired := by
  refine ⟨?_, ?_, ?_⟩
  · intro i n h
    rcases nodes h with ⟨rfl, rfl⟩ | ⟨rfl, rfl⟩ | ⟨rfl, rfl⟩ | ⟨rfl, rfl⟩ <;>
      simp [faucet, FanOut.split, FanOut.left, FanOut.right, Node.Ok, Node.sources, Node.targets, Pull.source, Push.target]
  · intro i j n m c h1 h2
    rcases nodes h1 with ⟨rfl, rfl⟩ | ⟨rfl, rfl⟩ | ⟨rfl, rfl⟩ | ⟨rfl, rfl⟩ <;>
      rcases nodes h2 with ⟨rfl, rfl⟩ | ⟨rfl, rfl⟩ | ⟨rfl, rfl⟩ | ⟨rfl, rfl⟩ <;>
      simp [faucet, FanOut.split, FanOut.left, FanOut.right, Node.targets, Push.target] <;> omega
  · intro i j n m c h1 h2
    rcases nodes h1 with ⟨rfl, rfl⟩ | ⟨rfl, rfl⟩ | ⟨rfl, rfl⟩ | ⟨rfl, rfl⟩ <;>
      rcases nodes h2 with ⟨rfl, rfl⟩ | ⟨rfl, rfl⟩ | ⟨rfl, rfl⟩ | ⟨rfl, rfl⟩ <;>
      simp [faucet, FanOut.split, FanOut.left, FanOut.right, Node.sources, Pull.source] <;> omega

theorem acyclic : net.Acyclic := by
  refine ⟨id, 3, ?_, ?_⟩
  · rintro a c b ⟨n, m, h1, h2, h3, h4⟩
    rcases nodes h1 with ⟨rfl, rfl⟩ | ⟨rfl, rfl⟩ | ⟨rfl, rfl⟩ | ⟨rfl, rfl⟩ <;>
      rcases nodes h2 with ⟨rfl, rfl⟩ | ⟨rfl, rfl⟩ | ⟨rfl, rfl⟩ | ⟨rfl, rfl⟩ <;>
      simp [faucet, FanOut.split, FanOut.left, FanOut.right, Node.sources, Pull.source, Node.targets, Push.target] at h3 h4 ⊢ <;> omega
  · intro i n h
    rcases nodes h with ⟨rfl, _⟩ | ⟨rfl, _⟩ | ⟨rfl, _⟩ | ⟨rfl, _⟩ <;> simp

theorem selfContained : net.SelfContained := by
  have e : net.Edge 0 0 1 ∧ net.Edge 1 1 2 ∧ net.Edge 1 2 3 := by
    refine ⟨⟨_, _, rfl, rfl, ?_, ?_⟩, ⟨_, _, rfl, rfl, ?_, ?_⟩, ⟨_, _, rfl, rfl, ?_, ?_⟩⟩ <;>
      simp [faucet, FanOut.split, FanOut.left, FanOut.right, Node.sources, Pull.source, Node.targets, Push.target]
  obtain ⟨e0, e1, e2⟩ := e
  constructor
  · intro i n h
    rcases nodes h with ⟨rfl, rfl⟩ | ⟨rfl, rfl⟩ | ⟨rfl, rfl⟩ | ⟨rfl, rfl⟩ <;>
      simp [faucet, FanOut.split, FanOut.left, FanOut.right, Node.Plain]
  · intro i n c h hs
    rcases nodes h with ⟨rfl, rfl⟩ | ⟨rfl, rfl⟩ | ⟨rfl, rfl⟩ | ⟨rfl, rfl⟩ <;>
      simp [faucet, FanOut.split, FanOut.left, FanOut.right, Node.sources, Pull.source] at hs <;> subst hs
    · exact ⟨_, e0⟩
    · exact ⟨_, e1⟩
    · exact ⟨_, e2⟩
  · intro i n c h hs
    rcases nodes h with ⟨rfl, rfl⟩ | ⟨rfl, rfl⟩ | ⟨rfl, rfl⟩ | ⟨rfl, rfl⟩ <;>
      simp [faucet, FanOut.split, FanOut.left, FanOut.right, Node.targets, Push.target] at hs
    · subst hs; exact ⟨_, e0⟩
    · rcases hs with rfl | rfl
      · exact ⟨_, e1⟩
      · exact ⟨_, e2⟩

/-- The junction has found its input empty. -/
def start : List (Nat × Ev) := [(1, ⟨.tryRecv .data 0, .empty⟩), (1, ⟨.sleep 0, ()⟩)]

theorem execution : Execution (fun _ _ => some 8) net.sys start := by
  refine ⟨by decide +kernel, ?_⟩
  intro i t h
  unfold Network.sys at h
  cases hn : net.node i with
  | none => rw [hn] at h; simp at h
  | some n =>
    rw [hn] at h; simp at h; subst h
    rcases nodes hn with ⟨rfl, rfl⟩ | ⟨rfl, rfl⟩ | ⟨rfl, rfl⟩ | ⟨rfl, rfl⟩ <;> exact Task.checks_partial (by decide +kernel)

theorem undisturbed : net.Undisturbed start := by
  intro x hx hn
  simp [start] at hx
  rcases hx with rfl | rfl <;> simp [net, node] at hn

/-- The junction is idle, but another component is not and can make a step. -/
example : ∃ st, execAll (fun _ _ => some 8) Store.init (start.map Prod.snd) = some st ∧ net.Idle st start 1 ∧
    ∃ j m, net.node j = some m ∧ ¬ net.Idle st start j ∧ net.CanStep (fun _ _ => some 8) start j := by
  obtain ⟨st, hst⟩ := Option.isSome_iff_exists.mp execution.chans
  have h0 : (st .data 0).q = [] ∧ (st .data 0).closed = false := by
    have : ((execAll (fun _ _ => some 8) Store.init (start.map Prod.snd)).map fun s => ((s .data 0).q, (s .data 0).closed)) = some ([], false) := by
      decide +kernel
    rw [hst] at this
    simpa using this
  refine ⟨st, hst, ⟨_, _, _, rfl, ?_, ?_⟩, ?_⟩
  · exact ⟨.chan 0, by decide, by decide +kernel, by rintro c e; cases e; decide +kernel⟩
  · intro c hc _
    simp [Node.sources, Pull.source] at hc
    subst hc; exact h0
  · obtain ⟨j, m, h1, _, h2, h3⟩ := C63_progress wired execution undisturbed hst acyclic (by simp) (selfContained.unhindered wired) (by
      intro i inputs pushs spy h f hf
      have h1 : ∀ f ∈ acts (proj 1 start), f.fails = false := by decide +kernel
      rcases nodes h with ⟨_, h⟩ | ⟨rfl, h⟩ | ⟨_, h⟩ | ⟨_, h⟩
      · cases h
      · exact not_ruins (h1 f hf)
      · cases h
      · cases h) (i := 0) (n := faucet) rfl (by
        intro hd
        have : proj 0 start = [] := by decide +kernel
        rw [this] at hd
        exact hd.stops (u := []) (e := ⟨.streamRead 0, .eof⟩) (Task.checks_partial (by decide +kernel)))
    exact ⟨j, m, h1, h2, h3⟩

example (B : Nat) : ∃ K, ∀ τ, Execution (fun _ _ => some 8) net.sys τ → net.Undisturbed τ → net.Fed B τ →
    (τ.filter fun x => (net.node x.1).isSome && !(act x.2).idles).length ≤ K :=
  C63_finite wired acyclic (is := [0, 1, 2, 3]) (fun i n h => by
    rcases nodes h with ⟨rfl, _⟩ | ⟨rfl, _⟩ | ⟨rfl, _⟩ | ⟨rfl, _⟩ <;> simp) B

end Tree

end Verif
