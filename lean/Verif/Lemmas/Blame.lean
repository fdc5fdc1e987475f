import Verif.Lemmas.Held
/-!
# What a standstill is due to
-/
namespace Verif
section
variable {c : Config} {hs : List Hop} {w : Waiter} {cs : List Capture} {cap : Caps} {τ : List (Who × Ev)} {st : Store}

theorem nodup_map_inj {α β : Type} {f : α → β} {l : List α} (h : (l.map f).Nodup) {a b : α} (ha : a ∈ l) (hb : b ∈ l) (e : f a = f b) : a = b := by
  induction l with
  | nil => cases ha
  | cons x l ih =>
    rw [List.map_cons, List.nodup_cons, List.mem_map] at h
    rcases List.mem_cons.mp ha with rfl | ha' <;> rcases List.mem_cons.mp hb with rfl | hb'
    · rfl
    · exact absurd ⟨_, hb', e.symm⟩ h.1
    · exact absurd ⟨_, ha', e⟩ h.1
    · exact ih h.2 ha' hb'

theorem attended_none (hu : w.Unmanaged) : Attended [] w := by
  refine ⟨by simp, by simp, ?_, ?_, by simp, by simp⟩
  · intro r i o t hk
    have := hu _ _ hk
    simp [Comp.plain] at this
    simp [← this]
  · intro r i o t hk
    have := hu _ _ hk
    simp [Comp.plain] at this
    simp [← this]

theorem closing_closed_kind (hst : execAll cap Store.init (τ.map Prod.snd) = some st) {i : Who} {k : Kind} {ch : Nat} (h : (k, ch) ∈ closings (proj i τ)) :
    (st k ch).closed = true := by
  rw [closed_iff hst]
  right
  obtain ⟨e, he, hc⟩ := closedIn_closings.mpr h
  exact ⟨e, List.mem_map.mpr ⟨_, mem_proj.mp he, rfl⟩, hc⟩

theorem done_drops {t : Task} {tr : List Ev} (h : t.Done tr) {k : Kind} {ch : Nat} (hd : (k, ch) ∈ t.drops) : (k, ch) ∈ closings tr := by
  obtain ⟨r, t1, _, rfl⟩ := h
  rw [closings_append, List.mem_append]
  right
  unfold closings acts
  simp only [dropEvs, List.map_map, List.mem_filterMap, List.mem_map]
  exact ⟨_, ⟨_, hd, rfl⟩, rfl⟩

theorem Attended.find (T : Attended cs w) {a : Capture} (ha : a ∈ cs) : cs.find? (fun c => c.regulator = a.regulator) = some a := by
  cases hf : cs.find? (fun c => c.regulator = a.regulator) with
  | none => have := List.find?_eq_none.mp hf a ha; simp at this
  | some b =>
    have h1 := List.mem_of_find?_eq_some hf
    have h2 : b.regulator = a.regulator := by simpa using List.find?_some hf
    rw [nodup_map_inj T.regs h1 ha h2]

/-- The task of a manager. -/
abbrev Waiter.managing (w : Waiter) (a : Capture) : Task := managerTask a.low a.high (w.idOf (.regulator, a.regulator)) (a.buffers.map fun b => w.idOf (.buffer, b))

theorem Attended.manages (T : Attended cs w) {a : Capture} (ha : a ∈ cs) : w.sys cs (.manager a.regulator) = some (w.managing a) := by
  simp only [Waiter.sys, T.find ha]

/-- The task of a count. -/
abbrev Waiter.counting (w : Waiter) (x : Str) (m : Bool) : Task := totalTask (if m then some (w.idOf (.buffer, x)) else none) (2 * w.idOf (.buffer, x)) (2 * w.idOf (.buffer, x) + 1)

theorem caps_room (hcap : ∀ k ch, cap k ch ≠ some 0) {k : Kind} {ch : Nat} (h : (st k ch).q = []) : hasRoom (cap k ch) (st k ch).q.length := by
  have := hcap k ch
  unfold hasRoom
  rw [h]
  cases hc : cap k ch with
  | none => trivial
  | some x => rw [hc] at this; simp at this; simp; omega

/-- None of the counts, managers and shut drains can do anything but look again. -/
structure Waiter.StillBut (w : Waiter) (cs : List Capture) (cap : Caps) (st : Store) (τ : List (Who × Ev)) : Prop where
  none : ∀ i t, w.node i = none → (∀ r, i ≠ .part r .exit) → w.sys cs i = some t → ¬ t.Done (proj i τ) → ¬ w.Resting cs st τ i → ¬ w.CanStep cs cap τ i

/-- None of the counts, managers and shut drains can do anything but look again, and no manager waits for room. -/
structure Waiter.StillAside (w : Waiter) (cs : List Capture) (cap : Caps) (st : Store) (τ : List (Who × Ev)) : Prop extends w.StillBut cs cap st τ where
  heard : ∀ r, ¬ w.Unheard cs cap st τ r

/-- A manager that looks after this buffer waits for room. -/
def Waiter.Deaf (w : Waiter) (cs : List Capture) (cap : Caps) (st : Store) (τ : List (Who × Ev)) (x : Str) : Prop :=
  ∃ a ∈ cs, x ∈ a.buffers ∧ w.Unheard cs cap st τ a.regulator

/-- Nobody can do anything but look again, and no manager waits for room. -/
structure Waiter.Still (w : Waiter) (cs : List Capture) (cap : Caps) (st : Store) (τ : List (Who × Ev)) : Prop where
  none : ∀ i t, w.sys cs i = some t → ¬ t.Done (proj i τ) → ¬ w.Resting cs st τ i → ¬ w.CanStep cs cap τ i
  heard : ∀ r, ¬ w.Unheard cs cap st τ r

theorem Waiter.Still.aside (S : w.Still cs cap st τ) : w.StillAside cs cap st τ := ⟨⟨fun i t _ _ => S.none i t⟩, S.heard⟩

theorem Rigged.managedOr (T : Attended cs w) (hr : w.Run cs cap τ) (hst : execAll cap Store.init (τ.map Prod.snd) = some st) (S : w.StillBut cs cap st τ) {a : Capture} (ha : a ∈ cs) :
    (w.managing a).Done (proj (.manager a.regulator) τ) ∨
      ((∀ b ∈ a.buffers, (st .size (w.idOf (.buffer, b))).q = []) ∧ ∃ b ∈ a.buffers, (st .size (w.idOf (.buffer, b))).closed = false) ∨
      w.Unheard cs cap st τ a.regulator := by
  refine Classical.byContradiction fun h => ?_
  rw [not_or, not_or] at h
  rcases manager_goes (cap := cap) (st := st) (hr.exec.tasks _ _ (T.manages ha)) h.1 with ⟨e, st', h1, h2⟩ | h1
  · refine S.none _ _ rfl (by simp) (T.manages ha) h.1 ?_ ⟨e, hr.step hst (T.manages ha) h1 h2 (by simp)⟩
    rintro ((⟨_, _, _, hn, _⟩ | ⟨r, he, h3⟩) | ⟨b, hb, he, h3⟩)
    · simp [Waiter.net, Waiter.node] at hn
    · cases he
    · simp only [Who.manager.injEq] at he
      have := nodup_map_inj T.regs ha hb he
      subst this
      exact h.2.1 h3
  · exact h.2.2 ⟨⟨_, T.manages ha, h1.1⟩, h1.2⟩

theorem Rigged.managed (T : Attended cs w) (hr : w.Run cs cap τ) (hst : execAll cap Store.init (τ.map Prod.snd) = some st) (S : w.StillAside cs cap st τ) {a : Capture} (ha : a ∈ cs) :
    (w.managing a).Done (proj (.manager a.regulator) τ) ∨
      (∀ b ∈ a.buffers, (st .size (w.idOf (.buffer, b))).q = []) ∧ ∃ b ∈ a.buffers, (st .size (w.idOf (.buffer, b))).closed = false :=
  (Rigged.managedOr T hr hst S.toStillBut ha).imp id fun h => h.resolve_right (S.heard _)

theorem Rigged.counts (A : Rigged c hs w) (hC : Complete hs) (T : Attended cs w) {x : Str} (hm : Mentioned hs (.buffer, x)) :
    ∃ m : Bool, (m = true ↔ x ∈ cs.flatMap Capture.buffers) ∧ w.sys cs (.part (.buffer, x) .count) = some (w.counting x m) := by
  obtain ⟨a, b, m, hk⟩ := A.bufferNodes hC rfl hm
  refine ⟨m, T.monitor _ _ _ _ hk, ?_⟩
  simp only [Waiter.sys, hk, Comp.node, Comp.other]

theorem Rigged.countedOr (A : Rigged c hs w) (hC : Complete hs) (T : Attended cs w) (hr : w.Run cs cap τ) (hst : execAll cap Store.init (τ.map Prod.snd) = some st)
    (hcap : ∀ k ch, cap k ch ≠ some 0) (S : w.StillBut cs cap st τ) {x : Str} (hm : Mentioned hs (.buffer, x)) :
    (∀ t, w.sys cs (.part (.buffer, x) .count) = some t → t.Done (proj (.part (.buffer, x) .count) τ)) ∨
      ((∀ m ∈ [2 * w.idOf (.buffer, x), 2 * w.idOf (.buffer, x) + 1], (st .mon m).q = []) ∧ ∃ m ∈ [2 * w.idOf (.buffer, x), 2 * w.idOf (.buffer, x) + 1], (st .mon m).closed = false) ∨
      w.Deaf cs cap st τ x := by
  obtain ⟨flag, hflag, hsys⟩ := A.counts hC T hm
  refine Classical.byContradiction fun h => ?_
  rw [not_or, not_or] at h
  have hnd : ¬ (w.counting x flag).Done (proj (.part (.buffer, x) .count) τ) := by
    intro hd
    refine h.1 fun t ht => ?_
    rw [hsys] at ht; cases ht; exact hd
  obtain ⟨e, st', h1, h2⟩ := total_goes (cap := cap) (st := st) (hr.exec.tasks _ _ hsys) hnd (by
    intro ch hch
    cases flag with
    | false => cases hch
    | true =>
      cases hch
      obtain ⟨a, ha, hxa⟩ := List.mem_flatMap.mp (hflag.mp rfl)
      rcases Rigged.managedOr T hr hst S ha with h' | ⟨h', _⟩ | h'
      · exact Or.inl (closing_closed_kind hst (done_drops h' (List.mem_cons_of_mem _ (by simp only [List.mem_map]; exact ⟨_, ⟨_, hxa, rfl⟩, rfl⟩))))
      · exact Or.inr (caps_room hcap (h' x hxa))
      · exact absurd ⟨a, ha, hxa, h'⟩ h.2.2)
  have hnn : w.node (.part (.buffer, x) .count) = none := by
    simp only [Waiter.node]
    cases hk : w.comps.get (.buffer, x) with
    | none => rfl
    | some k => cases k <;> simp [Comp.node]
  refine S.none _ _ hnn (by simp) hsys hnd ?_ ⟨e, hr.step hst hsys h1 h2 (by simp)⟩
  rintro ((⟨_, _, _, hn, _⟩ | ⟨r, he, h3⟩) | ⟨_, _, he, _⟩)
  · simp only [Waiter.net, Waiter.node] at hn
    cases hk : w.comps.get (.buffer, x) with
    | none => rw [hk] at hn; cases hn
    | some k => rw [hk] at hn; cases k <;> simp [Comp.node] at hn
  · simp only [Who.part.injEq, and_true] at he
    subst he
    exact h.2.1 h3
  · cases he

theorem Rigged.counted (A : Rigged c hs w) (hC : Complete hs) (T : Attended cs w) (hr : w.Run cs cap τ) (hst : execAll cap Store.init (τ.map Prod.snd) = some st)
    (hcap : ∀ k ch, cap k ch ≠ some 0) (S : w.StillAside cs cap st τ) {x : Str} (hm : Mentioned hs (.buffer, x)) :
    (∀ t, w.sys cs (.part (.buffer, x) .count) = some t → t.Done (proj (.part (.buffer, x) .count) τ)) ∨
      (∀ m ∈ [2 * w.idOf (.buffer, x), 2 * w.idOf (.buffer, x) + 1], (st .mon m).q = []) ∧ ∃ m ∈ [2 * w.idOf (.buffer, x), 2 * w.idOf (.buffer, x) + 1], (st .mon m).closed = false :=
  (A.countedOr hC T hr hst hcap S.toStillBut hm).imp id fun h => h.resolve_right fun ⟨_, _, _, h⟩ => S.heard _ h

theorem Rigged.freeOr (A : Rigged c hs w) (hC : Complete hs) (T : Attended cs w) (hr : w.Run cs cap τ) (hst : execAll cap Store.init (τ.map Prod.snd) = some st)
    (hcap : ∀ k ch, cap k ch ≠ some 0) (S : w.StillBut cs cap st τ) {x : Str} (hm : Mentioned hs (.buffer, x)) :
    ∀ m ∈ [2 * w.idOf (.buffer, x), 2 * w.idOf (.buffer, x) + 1], (st .mon m).closed = true ∨ (st .mon m).q = [] ∨ w.Deaf cs cap st τ x := by
  intro m hmm
  rcases A.countedOr hC T hr hst hcap S hm with h | ⟨h, _⟩ | h
  · left
    obtain ⟨flag, _, hsys⟩ := A.counts hC T hm
    refine closing_closed_kind hst (done_drops (h _ hsys) ?_)
    simp only [List.mem_cons, List.not_mem_nil, or_false] at hmm
    rcases hmm with rfl | rfl <;> simp [totalTask]
  · exact Or.inr (Or.inl (h m hmm))
  · exact Or.inr (Or.inr h)

/-- The channel into a drain that lets go of its input is closed. -/
theorem Rigged.shut (A : Rigged c hs w) (hr : w.Run cs cap τ) (hst : execAll cap Store.init (τ.map Prod.snd) = some st) (S : w.StillBut cs cap st τ)
    {ch : Nat} {h : Hop} (hi : hs[ch]? = some h) (hd : h.to.1 = .drain) {i : PullEnd} (hk : w.comps.get h.to = some (.regulator (some i) none false)) (hch : ch = i.chan) :
    (st .data ch).closed = true := by
  subst hch
  have hrd : h.reader = .part h.to .main := by rw [Hop.reader_iff]; exact ⟨rfl, by rw [hd]⟩
  have hsys : w.sys cs (.part h.to .main) = some (dropTask [(.data, i.chan)]) := by simp only [Waiter.sys, hk, Comp.node, Comp.other]; rfl
  by_cases hdn : (dropTask [(.data, i.chan)]).Done (proj (.part h.to .main) τ)
  · exact closing_closed_kind hst (done_drops hdn (by simp [dropTask]))
  · exfalso
    have hnil : proj (.part h.to .main) τ = [] := dropTask_undone (hr.exec.tasks _ _ hsys) hdn
    refine S.none _ _ (by simp only [Waiter.node, hk, Comp.node]) (by simp) hsys hdn ?_ ⟨⟨.close .data i.chan, ()⟩, hr.step hst hsys (t := dropTask [(.data, i.chan)]) ?_ rfl (by simp)⟩
    · rintro ((⟨_, _, _, hn, _⟩ | ⟨r, he, _⟩) | ⟨_, _, he, _⟩)
      · simp [Waiter.net, Waiter.node, hk, Comp.node] at hn
      · simp at he
      · cases he
    · rw [hnil]
      exact dropTask_step

/-- What a node can be waiting for in vain: something to come, room downstream, to be asked to resume, or room for a notice of what a buffer does. -/
theorem Rigged.asksOr (A : Rigged c hs w) (hC : Complete hs) (T : Attended cs w) (hr : w.Run cs cap τ) (hst : execAll cap Store.init (τ.map Prod.snd) = some st)
    (hcap : ∀ k ch, cap k ch ≠ some 0) (S : w.StillBut cs cap st τ) {i : Who} {n : Node} {q : Req} (hn : w.node i = some n) (hq : n.task.Awaits (proj i τ) q) (himp : Impossible cap st q) :
    (∃ ch, q = .recv .data ch ∧ n.sources = [.chan ch] ∧ (st .data ch).q = [] ∧ (st .data ch).closed = false) ∨
    (∃ ch d b, q = .send .data ch d ∧ w.net.Edge i ch b ∧ (st .data ch).closed = false ∧ ¬ hasRoom (cap .data ch) (st .data ch).q.length) ∨
    (∃ x, i = .part (.regulator, x) .main ∧ w.Paused cs st τ x) ∨
    ∃ x, (i = .part (.buffer, x) .input ∨ i = .part (.buffer, x) .output) ∧ w.Deaf cs cap st τ x := by
  have W := A.wired hC
  have hok : n.Ok := W.ok i n hn
  rcases impossible_cases himp with ⟨k, ch, rfl, h1, h2⟩ | ⟨k, ch, v, rfl, h1, h2⟩
  · have hp := hq.step none
    rcases A.kindsAll hC hn hp (e := ⟨.recv k ch, none⟩) (by simp) rfl with rfl | ⟨rfl, x, hm, hx⟩ | ⟨rfl, x, _, rfl, rfl, _⟩
    · left
      refine ⟨ch, rfl, ?_⟩
      rcases node_awaits hok hq himp rfl with ⟨h3, _⟩ | ⟨_, _, _, d, hd⟩
      · exact ⟨h3, h1, h2⟩
      · cases hd
    · exfalso
      obtain ⟨s, t1, t2, _, h3, _⟩ := hq
      have noMon : (n.task.body s).Only NoNews := by
        rcases hx with ⟨_, rfl⟩ | ⟨_, rfl⟩ <;>
        · obtain ⟨a, b, m, hk⟩ := A.bufferNodes hC rfl hm
          simp only [Waiter.node, hk, Comp.node, Option.some.injEq] at hn
          subst hn
          exact relay_noMon
      exact Prog.Only.awaits noMon h3 ch rfl
    · exact Or.inr (Or.inr (Or.inl ⟨x, rfl, ⟨_, sys_node hn, hq⟩, h1, h2⟩))
  · have hp := hq.step true
    rcases A.kindsAll hC hn hp (e := ⟨.send k ch v, true⟩) (by simp) rfl with rfl | ⟨rfl, x, hm, hx⟩ | ⟨rfl, x, _, rfl, rfl, a, b, hk⟩
    · right; left
      rcases node_awaits hok hq himp rfl with ⟨_, _, _, _, h3⟩ | ⟨h3, _⟩
      · cases h3
      · obtain ⟨r, p, k, rfl, hme, _, _, hkn⟩ := A.node_inv hn
        rcases (A.targets hn ch).mp h3 with ⟨h, g1, g2⟩ | ⟨g1, g2, g3⟩
        · by_cases hx : h.isExit
          · have := (A.exitSys (cs := cs) g1 hx).2.1
            rw [g2] at this; rw [this] at hn; cases hn
          · rcases A.readerNode hC (List.mem_of_getElem? g1) with hrn | ⟨hd, x, hxk, hxc⟩
            · refine ⟨ch, v, h.reader, rfl, ?_, h1, h2⟩
              rw [← g2]
              exact (A.edges hC _ ch _).mpr (Or.inl ⟨h, g1, hx, rfl, rfl, hrn⟩)
            · have := A.shut hr hst S g1 hd hxk (hxc _ g1)
              rw [this] at h1; cases h1
        · obtain ⟨ty, x⟩ := r
          simp only at g1
          subst g1
          subst g2
          exact ⟨ch, v, _, rfl, (A.edges hC _ ch _).mpr (Or.inr ⟨x, hme, by rw [← A.chans]; exact g3, rfl, rfl⟩), h1, h2⟩
    · rcases A.freeOr hC T hr hst hcap S hm ch (by rcases hx with ⟨rfl, _⟩ | ⟨rfl, _⟩ <;> simp) with h3 | h3 | h3
      · rw [h3] at h1; cases h1
      · exact absurd (caps_room hcap h3) h2
      · refine Or.inr (Or.inr (Or.inr ⟨x, ?_, h3⟩))
        rcases hx with ⟨_, rfl⟩ | ⟨_, rfl⟩ <;> simp
    · exfalso
      obtain ⟨s, t1, t2, _, h3, _⟩ := hq
      have noSend : (n.task.body s).Only fun q => ∀ c v, q ≠ .send .ctl c v := by
        cases a <;> cases b <;> simp only [Waiter.node, hk, Comp.node, Option.some.injEq, reduceCtorEq] at hn
        subst hn
        exact regulator_noSend
      exact Prog.Only.awaits noSend h3 _ _ rfl

/-- What a node can be waiting for in vain: something to come, room downstream, or to be asked to resume. -/
theorem Rigged.asks (A : Rigged c hs w) (hC : Complete hs) (T : Attended cs w) (hr : w.Run cs cap τ) (hst : execAll cap Store.init (τ.map Prod.snd) = some st)
    (hcap : ∀ k ch, cap k ch ≠ some 0) (S : w.StillAside cs cap st τ) {i : Who} {n : Node} {q : Req} (hn : w.node i = some n) (hq : n.task.Awaits (proj i τ) q) (himp : Impossible cap st q) :
    (∃ ch, q = .recv .data ch ∧ n.sources = [.chan ch] ∧ (st .data ch).q = [] ∧ (st .data ch).closed = false) ∨
    (∃ ch d b, q = .send .data ch d ∧ w.net.Edge i ch b ∧ (st .data ch).closed = false ∧ ¬ hasRoom (cap .data ch) (st .data ch).q.length) ∨
    ∃ x, i = .part (.regulator, x) .main ∧ w.Paused cs st τ x := by
  rcases A.asksOr hC T hr hst hcap S.toStillBut hn hq himp with h | h | h | ⟨_, _, _, _, _, h⟩
  · exact Or.inl h
  · exact Or.inr (Or.inl h)
  · exact Or.inr (Or.inr h)
  · exact absurd h (S.heard _)

/-- The reason behind C66 and C69. -/
theorem Rigged.standstill (A : Rigged c hs w) (hC : Complete hs) (T : Attended cs w) (hcf : CircleFree hs) (hr : w.Run cs cap τ)
    (hst : execAll cap Store.init (τ.map Prod.snd) = some st) (hcap : ∀ k ch, cap k ch ≠ some 0)
    (hj : ∀ i inputs pushs spy, w.node i = some (.junction inputs pushs spy) → ∀ f ∈ acts (proj i τ), f.ruins pushs = false) (ho : ¬ w.Over cs τ) :
    (∃ i t, w.sys cs i = some t ∧ ¬ t.Done (proj i τ) ∧ ¬ w.Resting cs st τ i ∧ w.CanStep cs cap τ i) ∨ (∃ r, w.Unheard cs cap st τ r) ∨ ∃ r, w.Paused cs st τ r := by
  refine Classical.byContradiction fun hnone => ?_
  rw [not_or, not_or] at hnone
  obtain ⟨hno, hun, hpa⟩ := hnone
  obtain ⟨E, U⟩ := A.run hC hr
  have W := A.wired hC
  have S : w.StillAside cs cap st τ := ⟨⟨fun i t _ _ h1 h2 h3 h4 => hno ⟨i, t, h1, h2, h3, h4⟩⟩, fun r h => hun ⟨r, h⟩⟩
  have roomy : ∀ {k ch}, (st k ch).q = [] → hasRoom (cap k ch) (st k ch).q.length := fun h => caps_room hcap h
  -- exit parts
  have exits : ∀ {i h}, hs[i]? = some h → h.isExit → (st .data i).closed = true ∨ (st .data i).q = [] →
      (st .data i).closed = true ∨ ∃ p ∈ relayPieces, ∃ n, w.node (.part h.from p) = some n ∧ ¬ n.task.Done (proj (.part h.from p) τ) := by
    intro i h hi hx hcl
    refine Classical.byContradiction fun hcon => ?_
    rw [not_or] at hcon
    obtain ⟨hcl', hall⟩ := hcon
    have hq := hcl.resolve_left hcl'
    obtain ⟨hwr, hnn, e, hei, hse⟩ := A.exitSys (cs := cs) hi hx
    subst hei
    have gate : ∀ r, h.writer = .part r .exit → ∀ p ∈ relayPieces, ∀ t, w.sys cs (.part r p) = some t → t.Done (proj (.part r p) τ) := by
      intro r hr' p hp t ht
      have hfr : h.from = r := (Hop.writer_iff.mp hr').1
      subst hfr
      refine Classical.byContradiction fun hnd => hall ⟨p, hp, ?_⟩
      cases hn : w.node (.part h.from p) with
      | some n =>
        rw [sys_node hn] at ht; cases ht
        exact ⟨n, rfl, hnd⟩
      | none =>
        exfalso
        rcases A.others hC ht hn with ⟨_, _, _, _, he, _⟩ | ⟨_, _, he, _⟩ | ⟨_, _, he, _⟩ | ⟨_, _, he, _⟩
        · simp only [Who.part.injEq] at he; obtain ⟨_, rfl⟩ := he; simp [relayPieces] at hp
        · simp only [Who.part.injEq] at he; obtain ⟨_, rfl⟩ := he; simp [relayPieces] at hp
        · cases he
        · simp only [Who.part.injEq] at he; obtain ⟨_, rfl⟩ := he; simp [relayPieces] at hp
    by_cases hd : (exitTask e).Done (proj h.writer τ)
    · apply hcl'
      obtain ⟨k, s, m, b, _, htr⟩ := exit_done hd
      cases b with
      | true =>
        refine closing_closed_kind hst (i := h.writer) ?_
        rw [htr, exitScript, closings_append, List.mem_append]
        right; simp [closings, acts, act]
      | false =>
        have hm : (h.writer, (⟨.send .data e.chan m, false⟩ : Ev)) ∈ τ := by
          rw [← mem_proj, htr]; simp [exitScript]
        obtain ⟨τ1, τ2, rfl⟩ := List.append_of_mem hm
        rw [List.map_append, execAll_append] at hst
        cases h1 : execAll cap Store.init (τ1.map Prod.snd) with
        | none => rw [h1] at hst; cases hst
        | some st1 =>
          rw [h1] at hst
          simp only [Option.bind_some, List.map_cons, execAll] at hst
          cases h2 : Verif.exec cap st1 ⟨.send .data e.chan m, false⟩ with
          | none => rw [h2] at hst; cases hst
          | some st2 =>
            rw [h2] at hst; simp only at hst
            simp only [Verif.exec] at h2
            split at h2
            · next h3 => cases h2; exact (closed_iff hst .data e.chan).mpr (Or.inl h3)
            · cases h2
    · obtain ⟨x, st', h1, h2⟩ := exit_goes (cap := cap) (st := st) (hr.exec.tasks _ _ hse) hd (Or.inr (roomy hq))
      refine hno ⟨_, _, hse, hd, ?_, x, hr.step hst hse h1 h2 gate⟩
      rintro ((⟨_, _, _, hn, _⟩ | ⟨r, he, _⟩) | ⟨_, _, he, _⟩)
      · have hnn' : w.net.node h.writer = none := hnn
        rw [hnn'] at hn; cases hn
      · rw [hwr] at he; simp at he
      · rw [hwr] at he; cases he
  -- what comes from outside
  have below : ∀ {i n ch}, w.node i = some n → .chan ch ∈ n.sources → (∀ a, ¬ w.net.Edge a ch i) → (st .data ch).q = [] → (st .data ch).closed = false →
      ∃ a m, w.node a = some m ∧ Leads hs a i ∧ ¬ m.task.Done (proj a τ) := by
    intro i n ch hn hs' hno' hq hcl
    obtain ⟨r, p, k, rfl, hme, _, _, hkn⟩ := A.node_inv hn
    rcases (A.sources hn ch).mp hs' with ⟨h, h1, h2⟩ | ⟨h1, h2, h3⟩
    · by_cases hx : h.isExit
      · rcases exits h1 hx (Or.inr hq) with h3 | ⟨p', hp', m, hm, hnd⟩
        · rw [h3] at hcl; cases hcl
        · refine ⟨_, m, hm, ?_, hnd⟩
          rw [← h2]; exact .exit (List.mem_of_getElem? h1) hx hp'
      · exact absurd ((A.edges hC _ ch _).mpr (Or.inl ⟨h, h1, hx, rfl, h2.symm, n, by rw [h2]; exact hn⟩)) (hno' _)
    · obtain ⟨ty, x⟩ := r
      simp only at h1
      subst h1
      subst h2
      exact absurd ((A.edges hC _ ch _).mpr (Or.inr ⟨x, hme, by rw [← A.chans]; exact h3, rfl, rfl⟩)) (hno' _)
  have mem_everyone : ∀ {i n}, w.node i = some n → i ∈ w.everyone cs := fun {i n} hn => sys_everyone (by rw [sys_node hn]; simp)
  have edge : ∀ a ch b, w.net.Edge a ch b → rankIn (Leads hs) (w.everyone cs) a < rankIn (Leads hs) (w.everyone cs) b := by
    intro a ch b he
    have ha : a ∈ w.everyone cs := by obtain ⟨n, _, hn, _⟩ := he; exact mem_everyone hn
    refine rankIn_lt hcf ha ?_
    rcases (A.edges hC a ch b).mp he with ⟨h, h1, h2, rfl, rfl, _⟩ | ⟨x, h1, _, rfl, rfl⟩
    · exact .hop (List.mem_of_getElem? h1) h2
    · exact .buffer h1
  have top : ∀ i n, w.net.node i = some n → rankIn (Leads hs) (w.everyone cs) i ≤ (w.everyone cs).length := by
    intro i n _; exact rankIn_le
  have caps : ∀ a ch b, w.net.Edge a ch b → cap .data ch ≠ some 0 := by
    intro a ch b _; exact hcap .data ch
  have req : ∀ i n q, w.net.node i = some n → n.task.Awaits (proj i τ) q → (∀ a c b, w.net.Edge a c b → q.on ≠ some (.data, c)) → Impossible cap st q →
      ∃ c, q = .recv .data c ∧ ∃ a m, w.net.node a = some m ∧ rankIn (Leads hs) (w.everyone cs) a < rankIn (Leads hs) (w.everyone cs) i ∧ ¬ m.task.Done (proj a τ) := by
    intro i n q hn hq hno' himp
    have hn : w.node i = some n := hn
    rcases A.asks hC T hr hst hcap S hn hq himp with ⟨ch, rfl, h3, h1, h2⟩ | ⟨ch, d, b, rfl, h3, _⟩ | ⟨x, _, h3⟩
    · refine ⟨ch, rfl, ?_⟩
      obtain ⟨a, m, h4, h5, h6⟩ := below hn (ch := ch) (by rw [h3]; simp) (fun a he => hno' a ch i he rfl) h1 h2
      exact ⟨a, m, h4, rankIn_lt hcf (mem_everyone h4) h5, h6⟩
    · exact absurd rfl (hno' i ch b h3)
    · exact absurd ⟨x, h3⟩ hpa
  have inp : ∀ i n c, w.net.node i = some n → .chan c ∈ n.sources → (∀ a, ¬ w.net.Edge a c i) → Act.ended (.chan c) ∉ acts (proj i τ) →
      (st .data c).q ≠ [] ∨ (st .data c).closed = true ∨
        ∃ a m, w.net.node a = some m ∧ rankIn (Leads hs) (w.everyone cs) a < rankIn (Leads hs) (w.everyone cs) i ∧ ¬ m.task.Done (proj a τ) := by
    intro i n ch hn hs' hno' _
    by_cases h1 : (st .data ch).q = []
    · right
      by_cases h2 : (st .data ch).closed = true
      · exact Or.inl h2
      · right
        obtain ⟨a, m, h4, h5, h6⟩ := below hn hs' hno' h1 (by simpa using h2)
        exact ⟨a, m, h4, rankIn_lt hcf (mem_everyone h4) h5, h6⟩
    · exact Or.inl h1
  have nodes : ∀ i n, w.node i = some n → n.task.Done (proj i τ) := by
    intro i n hn
    refine Classical.byContradiction fun hnd => ?_
    obtain ⟨j, m, h1, h2, h3, h4⟩ := progress_core W E U hst (rank := rankIn (Leads hs) (w.everyone cs)) (R := (w.everyone cs).length) edge top caps req inp hj hn hnd
    refine hno ⟨j, _, sys_node h1, h2, ?_, A.canStep hr h1 h4⟩
    rintro ((h5 | ⟨r, rfl, _⟩) | ⟨_, _, rfl, _⟩)
    · exact h3 h5
    · simp only [Waiter.net, Waiter.node] at h1
      cases hk : w.comps.get r with
      | none => rw [hk] at h1; cases h1
      | some k => rw [hk] at h1; cases k <;> simp [Comp.node] at h1
    · simp [Waiter.net, Waiter.node] at h1
  have tallied : ∀ {x}, Mentioned hs (.buffer, x) → ∀ t, w.sys cs (.part (.buffer, x) .count) = some t → t.Done (proj (.part (.buffer, x) .count) τ) := by
    intro x hm
    rcases A.counted hC T hr hst hcap S hm with h | ⟨_, m', hm', hcl⟩
    · exact h
    · exfalso
      obtain ⟨a, b, mm, hk⟩ := A.bufferNodes hC rfl hm
      have hin : w.node (.part (.buffer, x) .input) = some (.relay a.pull { written := some (2 * w.idOf (.buffer, x)) } none (.sender ⟨0, none, 0, b.breakable⟩ (w.chans + w.idOf (.buffer, x)))) := by
        simp only [Waiter.node, hk, Comp.node]
      have hout : w.node (.part (.buffer, x) .output) = some (.relay (.receiver ⟨0, 0⟩ (w.chans + w.idOf (.buffer, x))) { read := some (2 * w.idOf (.buffer, x) + 1) } none b.push) := by
        simp only [Waiter.node, hk, Comp.node]
      have : (st .mon m').closed = true := by
        simp only [List.mem_cons, List.not_mem_nil, or_false] at hm'
        rcases hm' with rfl | rfl
        · exact closing_closed_kind hst (done_drops (nodes _ _ hin) (by simp [Node.task, relayTask]))
        · exact closing_closed_kind hst (done_drops (nodes _ _ hout) (by simp [Node.task, relayTask]))
      rw [this] at hcl; cases hcl
  -- everything has ended
  apply ho
  intro i t ht
  cases hn : w.node i with
  | some n => rw [sys_node hn] at ht; cases ht; exact nodes i n hn
  | none =>
    rcases A.others hC ht hn with ⟨r, e, ch, g, rfl, hrl, rfl, rfl, hg, hx, hfr⟩ | ⟨r, m, rfl, hrb, hm, htot, a, b, hk⟩ | ⟨r, a, rfl, ha, ha', _⟩ | ⟨r, x, rfl, hrd, rfl, ⟨m, hmk⟩, g, hg, hgr⟩
    · refine Classical.byContradiction fun hnd => ?_
      obtain ⟨hwr, _, e', hei, hse⟩ := A.exitSys (cs := cs) hg hx
      rw [hfr] at hwr
      have hcl : (st .data e.chan).closed = true := by
        rcases A.readerNode hC (List.mem_of_getElem? hg) with ⟨n, hn'⟩ | ⟨hd, x, hxk, hxc⟩
        case inr => exact A.shut hr hst S.toStillBut hg hd hxk (hxc _ hg)
        obtain ⟨F, hsn⟩ := A.exitFacts hC hr hg hx hn'
        have hok : n.Ok := W.ok g.reader n hn'
        have D := node_done hok (nodes _ n hn') (by rintro inputs pushs spy rfl; exact hj _ inputs pushs spy hn') e.chan
        exact closing_closed_kind hst (D.2 hsn)
      obtain ⟨x, st', h1, h2⟩ := exit_goes (cap := cap) (st := st) (hr.exec.tasks _ _ ht) hnd (Or.inl hcl)
      refine hno ⟨_, _, ht, hnd, ?_, x, hr.step hst ht h1 h2 ?_⟩
      · rintro ((⟨_, _, _, hn', _⟩ | ⟨r, he, _⟩) | ⟨_, _, he, _⟩)
        · have hnn' : w.net.node (.part r .exit) = none := hn
          rw [hnn'] at hn'; cases hn'
        · simp at he
        · cases he
      · intro r' hr' p hp t' ht'
        cases hn' : w.node (.part r' p) with
        | some n => rw [sys_node hn'] at ht'; cases ht'; exact nodes _ n hn'
        | none =>
          exfalso
          rcases A.others hC ht' hn' with ⟨_, _, _, _, he, _⟩ | ⟨_, _, he, _⟩ | ⟨_, _, he, _⟩ | ⟨_, _, he, _⟩
          · simp only [Who.part.injEq] at he; obtain ⟨_, rfl⟩ := he; simp [relayPieces] at hp
          · simp only [Who.part.injEq] at he; obtain ⟨_, rfl⟩ := he; simp [relayPieces] at hp
          · cases he
          · simp only [Who.part.injEq] at he; obtain ⟨_, rfl⟩ := he; simp [relayPieces] at hp
    · obtain ⟨ty, x⟩ := r
      simp only at hrb
      subst hrb
      exact tallied hm _ ht
    · subst ha'
      rw [T.manages ha] at ht
      cases ht
      rcases Rigged.managed T hr hst S ha with h | ⟨_, b, hb, hcl⟩
      · exact h
      · exfalso
        have hb' : b ∈ cs.flatMap Capture.buffers := List.mem_flatMap.mpr ⟨_, ha, hb⟩
        obtain ⟨i, o, hk⟩ := T.monitored b hb'
        have hm : Mentioned hs (.buffer, b) := Classical.byContradiction fun h => by rw [A.only _ h] at hk; cases hk
        obtain ⟨flag, hflag, hsys⟩ := A.counts hC T hm
        rw [hflag.mpr hb'] at hsys
        have := closing_closed_kind hst (done_drops (tallied hm _ hsys) (k := .size) (ch := w.idOf (.buffer, b)) (by simp [totalTask]))
        rw [this] at hcl; cases hcl
    · have hto : g.to = r := (Hop.reader_iff.mp hgr).1
      subst hto
      obtain hch := A.readerNode hC (List.mem_of_getElem? hg)
      rcases hch with ⟨n, hn'⟩ | ⟨_, y, hy, hyc⟩
      · rw [hgr, hn] at hn'; cases hn'
      · refine Classical.byContradiction fun hnd => ?_
        refine hno ⟨_, _, ht, hnd, ?_, ⟨.close .data x, ()⟩, hr.step hst ht ?_ rfl (by simp)⟩
        · rintro ((⟨_, _, _, hn', _⟩ | ⟨r, he, _⟩) | ⟨_, _, he, _⟩)
          · have hnn' : w.net.node (.part g.to .main) = none := hn
            rw [hnn'] at hn'; cases hn'
          · simp at he
          · cases he
        · have hnil : proj (.part g.to .main) τ = [] := dropTask_undone (hr.exec.tasks _ _ ht) hnd
          rw [hnil]
          exact dropTask_step

end
end Verif
