import Verif.Model.Manager
import Verif.Spec.Flow
import Verif.Lemmas.System
import Verif.Lemmas.Loop
namespace Verif

/-- Something holds at every event of `tr`, given the events before it, `hist` being older ones. -/
def Always (P : List Ev → Ev → Prop) (hist tr : List Ev) : Prop :=
  ∀ u e v, tr = u ++ e :: v → P (hist ++ u) e

theorem always_nil (P hist) : Always P hist [] := by intro u e v h; simp at h

theorem always_cons {P hist e tr} : Always P hist (e :: tr) ↔ P hist e ∧ Always P (hist ++ [e]) tr := by
  constructor
  · intro h
    refine ⟨by simpa using h [] e tr rfl, ?_⟩
    intro u e' v hv
    have := h (e :: u) e' v (by simp [hv])
    simpa using this
  · rintro ⟨h1, h2⟩ u e' v hv
    cases u with
    | nil => simp at hv; obtain ⟨rfl, rfl⟩ := hv; simpa using h1
    | cons x u =>
      simp at hv; obtain ⟨rfl, hv⟩ := hv
      have := h2 u e' v hv
      simpa using this

theorem always_append {P hist a b} : Always P hist (a ++ b) ↔ Always P hist a ∧ Always P (hist ++ a) b := by
  induction a generalizing hist with
  | nil => simp [always_nil]
  | cons x a ih => simp [always_cons, ih, and_assoc]

theorem always_mono {P Q : List Ev → Ev → Prop} {hist tr} (h : ∀ u e, P u e → Q u e) (hp : Always P hist tr) : Always Q hist tr :=
  fun u e v hv => h _ _ (hp u e v hv)

theorem reported_snoc_got (c n : Nat) (u : List Ev) : reported c (u ++ [⟨.tryRecv .size c, .got n⟩]) = n := by
  unfold reported gotOn
  rw [List.filterMap_append]
  simp [gotOf]

theorem gotOn_append_of_none {k c} {u t : List Ev} (h : ∀ e ∈ t, gotOf k c e = none) : gotOn k c (u ++ t) = gotOn k c u := by
  rw [gotOn_append]
  have : gotOn k c t = [] := by
    unfold gotOn; rw [List.filterMap_eq_nil_iff]; exact h
  rw [this, List.append_nil]

theorem untouched {c : Nat} {u t : List Ev} (h : ∀ e ∈ t, e.q.on ≠ some (.size, c)) :
    reported c (u ++ t) = reported c u ∧ ended c (u ++ t) = ended c u := by
  constructor
  · unfold reported
    rw [gotOn_append_of_none]
    intro e he
    cases hg : gotOf .size c e with
    | none => rfl
    | some v => exact absurd (on_of_got hg) (h e he)
  · unfold ended
    rw [List.any_append]
    have : t.any (tellsEnd c) = false := by
      rw [List.any_eq_false]
      intro e he hc
      apply h e he
      obtain ⟨q, r⟩ := e
      cases q with
      | tryRecv k c' =>
        cases k <;> cases r <;> simp [tellsEnd] at hc
        subst hc; rfl
      | _ => simp [tellsEnd] at hc
    rw [this, Bool.or_false]

theorem holds_untouched {c : Nat} {u t : List Ev} (h : ∀ e ∈ t, e.q.on ≠ some (.size, c)) : holds c (u ++ t) = holds c u := by
  unfold holds; rw [(untouched h).1, (untouched h).2]

theorem occupancy_untouched {chans : List Nat} {u t : List Ev} (h : ∀ e ∈ t, ∀ c, e.q.on ≠ some (.size, c)) :
    occupancy chans (u ++ t) = occupancy chans u := by
  unfold occupancy
  congr 1
  apply List.map_congr_left
  intro c _
  exact holds_untouched fun e he => h e he c

/-- What the manager knows of a monitor agrees with what it was told. -/
def Knows (u : List Ev) (m : Monitor) : Prop := ended m.chan u = false ∧ m.size = reported m.chan u

theorem removeMonitors_succ (R : List Nat) (m : Monitor) (ms : List Monitor) :
    removeMonitors (R.map (· + 1)) (m :: ms) = m :: removeMonitors R ms := by
  unfold removeMonitors
  rw [← List.map_reverse]
  generalize R.reverse = Q
  induction Q generalizing ms with
  | nil => rfl
  | cons i Q ih => simp only [List.map_cons, List.foldl_cons, List.eraseIdx_cons_succ]; exact ih _

theorem removeMonitors_zero (R : List Nat) (m : Monitor) (ms : List Monitor) :
    removeMonitors (0 :: R.map (· + 1)) (m :: ms) = removeMonitors R ms := by
  have := removeMonitors_succ R m ms
  unfold removeMonitors at this ⊢
  rw [List.reverse_cons, List.foldl_append, this]
  rfl

structure Looked (i : Nat) (ms : List Monitor) (u t : List Ev) (l : Look) : Prop where
  looks : ∀ e ∈ t, ∃ m ∈ ms, ∃ r, e = ⟨.tryRecv .size m.chan, r⟩
  size : t.length = ms.length
  total : l.total = ((ms.map Monitor.chan).map fun c => holds c (u ++ t)).sum
  reads : l.reads = ((ms.map Monitor.chan).map fun c => (gotOn .size c t).length).sum
  removed : ∃ R : List Nat, l.toRemove = R.map (· + i) ∧
    removeMonitors R l.monitors = ((ms.map Monitor.chan).filter fun c => !ended c (u ++ t)).map fun c => ⟨reported c (u ++ t), c⟩

theorem looked {i ms u t l} (h : (look i ms).Runs t l) (hk : ∀ m ∈ ms, Knows u m) (hn : (ms.map Monitor.chan).Nodup) :
    Looked i ms u t l := by
  induction ms generalizing i u t l with
  | nil =>
    simp [look] at h
    obtain ⟨rfl, rfl⟩ := h
    exact ⟨by simp, rfl, rfl, rfl, [], rfl, rfl⟩
  | cons m ms ih =>
    simp only [look] at h
    rw [Prog.runs_bind] at h
    obtain ⟨t1, r, t2, rfl, h1, h2⟩ := h
    rw [Prog.runs_req] at h1
    subst h1
    simp only [List.map_cons, List.nodup_cons] at hn
    obtain ⟨hm, hn⟩ := hn
    have hne : ∀ m' ∈ ms, m'.chan ≠ m.chan := by
      intro m' h' h0; apply hm; rw [← h0]; exact List.mem_map_of_mem h'
    -- the rest
    have rest : ∀ {l'}, (look (i + 1) ms).Runs t2 l' → Looked (i + 1) ms (u ++ [⟨.tryRecv .size m.chan, r⟩]) t2 l' := by
      intro l' h'
      refine ih h' ?_ hn
      intro m' hm'
      have := untouched (c := m'.chan) (u := u) (t := [⟨.tryRecv .size m.chan, r⟩]) (by
        intro e he; simp at he; subst he; simp [Req.on]; exact fun h => hne m' hm' h.symm)
      exact ⟨by rw [this.2]; exact (hk m' (by simp [hm'])).1, by rw [this.1]; exact (hk m' (by simp [hm'])).2⟩
    have own : ∀ {l'}, Looked (i + 1) ms (u ++ [⟨.tryRecv .size m.chan, r⟩]) t2 l' → ∀ e ∈ t2, e.q.on ≠ some (.size, m.chan) := by
      intro l' hl e he h0
      obtain ⟨m', hm', r', rfl⟩ := hl.looks e he
      simp [Req.on] at h0
      exact hne m' hm' h0
    have eqt : u ++ ([⟨.tryRecv .size m.chan, r⟩] ++ t2) = (u ++ [⟨.tryRecv .size m.chan, r⟩]) ++ t2 := by simp
    have fixed : ∀ {l'}, Looked (i + 1) ms (u ++ [⟨.tryRecv .size m.chan, r⟩]) t2 l' →
        reported m.chan (u ++ ([⟨.tryRecv .size m.chan, r⟩] ++ t2)) = reported m.chan (u ++ [⟨.tryRecv .size m.chan, r⟩]) ∧
        ended m.chan (u ++ ([⟨.tryRecv .size m.chan, r⟩] ++ t2)) = ended m.chan (u ++ [⟨.tryRecv .size m.chan, r⟩]) ∧
        (gotOn .size m.chan ([⟨.tryRecv .size m.chan, r⟩] ++ t2)) = gotOn .size m.chan [⟨.tryRecv .size m.chan, r⟩] := by
      intro l' hl
      have := own hl
      rw [eqt]
      refine ⟨(untouched this).1, (untouched this).2, gotOn_append_of_none ?_⟩
      intro e he
      cases hg : gotOf .size m.chan e with
      | none => rfl
      | some v => exact absurd (on_of_got hg) (this e he)
    have others : ∀ m' ∈ ms, gotOn .size m'.chan ([⟨.tryRecv .size m.chan, r⟩] ++ t2) = gotOn .size m'.chan t2 := by
      intro m' hm'
      rw [gotOn_append]
      have : gotOn .size m'.chan [⟨.tryRecv .size m.chan, r⟩] = [] := by
        cases hg : gotOf .size m'.chan ⟨.tryRecv .size m.chan, r⟩ with
        | none => simp [gotOn, hg]
        | some v =>
          have := on_of_got hg
          simp [Req.on] at this
          exact absurd this.symm (hne m' hm')
      rw [this, List.nil_append]
    obtain ⟨hkm, hks⟩ := hk m (by simp)
    have readsRest : ((ms.map Monitor.chan).map fun c => (gotOn .size c ([⟨.tryRecv .size m.chan, r⟩] ++ t2)).length).sum =
        ((ms.map Monitor.chan).map fun c => (gotOn .size c t2).length).sum := by
      congr 1
      rw [List.map_map, List.map_map]
      apply List.map_congr_left
      intro m' hm'
      simp only [Function.comp]
      rw [others m' hm']
    have glue : ∀ {l' : Look} {l : Look}, Looked (i + 1) ms (u ++ [⟨.tryRecv .size m.chan, r⟩]) t2 l' →
        l.total = holds m.chan (u ++ [⟨.tryRecv .size m.chan, r⟩]) + l'.total →
        l.reads = (gotOn .size m.chan [⟨.tryRecv .size m.chan, r⟩]).length + l'.reads →
        (∃ R : List Nat, l.toRemove = R.map (· + i) ∧
          removeMonitors R l.monitors = (if ended m.chan (u ++ [⟨.tryRecv .size m.chan, r⟩]) then [] else
            [⟨reported m.chan (u ++ [⟨.tryRecv .size m.chan, r⟩]), m.chan⟩]) ++
            ((ms.map Monitor.chan).filter fun c => !ended c ((u ++ [⟨.tryRecv .size m.chan, r⟩]) ++ t2)).map
              fun c => ⟨reported c ((u ++ [⟨.tryRecv .size m.chan, r⟩]) ++ t2), c⟩) →
        Looked i (m :: ms) u ([⟨.tryRecv .size m.chan, r⟩] ++ t2) l := by
      intro l' l hl h1 h2 h3
      obtain ⟨f1, f2, f3⟩ := fixed hl
      refine ⟨?_, by simp [hl.size], ?_, ?_, ?_⟩
      · intro e he
        simp at he
        rcases he with rfl | he
        · exact ⟨m, by simp, r, rfl⟩
        · obtain ⟨m', hm', x⟩ := hl.looks e he
          exact ⟨m', by simp [hm'], x⟩
      · simp only [List.map_cons, List.sum_cons, h1, hl.total]
        have : holds m.chan (u ++ ([⟨.tryRecv .size m.chan, r⟩] ++ t2)) = holds m.chan (u ++ [⟨.tryRecv .size m.chan, r⟩]) := by
          unfold holds; rw [f1, f2]
        rw [this, eqt]
      · simp only [List.map_cons, List.sum_cons, h2, hl.reads, f3, readsRest]
      · obtain ⟨R, h3, h4⟩ := h3
        refine ⟨R, h3, ?_⟩
        rw [h4]
        simp only [List.map_cons, List.filter_cons, f2]
        by_cases he : ended m.chan (u ++ [⟨.tryRecv .size m.chan, r⟩]) = true
        · simp only [he, if_true, Bool.not_true, List.nil_append, eqt]; rfl
        · simp only [Bool.not_eq_true] at he
          rw [he]
          simp only [Bool.not_false, if_true, List.map_cons, f1]
          simp
    cases r with
    | closed =>
      simp only [] at h2
      rw [Prog.runs_bind] at h2
      obtain ⟨t3, l', t4, rfl, hl, h3⟩ := h2
      simp at h3
      obtain ⟨rfl, rfl⟩ := h3
      rw [List.append_nil] at *
      have hl := rest hl
      have he : ended m.chan (u ++ [⟨.tryRecv .size m.chan, .closed⟩]) = true := by
        simp [ended, tellsEnd]
      refine glue hl ?_ ?_ ?_
      · simp [holds, he]
      · simp [gotOn, gotOf]
      · obtain ⟨R, h3, h4⟩ := hl.removed
        refine ⟨0 :: R.map (· + 1), ?_, ?_⟩
        · simp only [h3, List.map_cons, List.map_map, Nat.zero_add]
          congr 1
          apply List.map_congr_left; intro x _; simp; omega
        · rw [removeMonitors_zero, h4, he]; simp
    | empty =>
      simp only [] at h2
      rw [Prog.runs_bind] at h2
      obtain ⟨t3, l', t4, rfl, hl, h3⟩ := h2
      simp at h3
      obtain ⟨rfl, rfl⟩ := h3
      rw [List.append_nil] at *
      have hl := rest hl
      have he : ended m.chan (u ++ [⟨.tryRecv .size m.chan, .empty⟩]) = false := by
        have : ended m.chan u = false := hkm
        simp only [ended, List.any_append] at this ⊢
        rw [this]; simp [tellsEnd]
      have hrep : reported m.chan (u ++ [⟨.tryRecv .size m.chan, .empty⟩]) = m.size := by
        rw [hks]; unfold reported; rw [gotOn_append_of_none]; intro e he; simp at he; subst he; rfl
      refine glue hl ?_ ?_ ?_
      · simp [holds, he, hrep]
      · simp [gotOn, gotOf]
      · obtain ⟨R, h3, h4⟩ := hl.removed
        refine ⟨R.map (· + 1), ?_, ?_⟩
        · simp only [h3, List.map_map]
          apply List.map_congr_left; intro x _; simp; omega
        · rw [removeMonitors_succ, h4, he, hrep]; simp
    | got n =>
      simp only [] at h2
      rw [Prog.runs_bind] at h2
      obtain ⟨t3, l', t4, rfl, hl, h3⟩ := h2
      simp at h3
      obtain ⟨rfl, rfl⟩ := h3
      rw [List.append_nil] at *
      have hl := rest hl
      have he : ended m.chan (u ++ [⟨.tryRecv .size m.chan, .got n⟩]) = false := by
        have : ended m.chan u = false := hkm
        simp only [ended, List.any_append] at this ⊢
        rw [this]; simp [tellsEnd]
      have hrep := reported_snoc_got m.chan n u
      refine glue hl ?_ ?_ ?_
      · simp [holds, he, hrep]
      · simp [gotOn, gotOf]; omega
      · obtain ⟨R, h3, h4⟩ := hl.removed
        refine ⟨R.map (· + 1), ?_, ?_⟩
        · simp only [h3, List.map_map]
          apply List.map_congr_left; intro x _; simp; omega
        · rw [removeMonitors_succ, h4, he, hrep]; simp

theorem requests_append (c : Nat) (a b : List Ev) : requests c (a ++ b) = requests c a + requests c b := by
  simp [requests]

theorem looks_requests {c : Nat} {t : List Ev} (h : ∀ e ∈ t, ∃ c' r, e = ⟨.tryRecv .size c', r⟩) : requests c t = 0 := by
  unfold requests
  rw [List.countP_eq_zero]
  intro e he
  obtain ⟨c', r, rfl⟩ := h e he
  simp [isRequest]

/-- What one round of the manager does. -/
structure MgrPass (low high : Nat) (c : Nat) (s : Manager) (tl tp tr ts : List Ev) (l : Look) (x : Manager ⊕ Nat) : Prop where
  look : (look 0 s.monitors).Runs tl l
  pause : if s.shut = false ∧ high ≤ l.total then ∃ b, tp = [⟨.send .ctl c (), b⟩] else tp = []
  resume : if (s.shut = true ∨ high ≤ l.total) ∧ l.total ≤ low then ∃ b, tr = [⟨.send .ctl c (), b⟩] else tr = []
  rest : ts = [] ∨ ∃ ms, ts = [⟨.sleep ms, ()⟩]
  out : ∃ paused, (paused = true ↔ (s.shut = true ∨ high ≤ l.total) ∧ ¬ l.total ≤ low) ∧
    ((x = .inr (s.readCount + l.reads) ∧ ts = [] ∧ removeMonitors l.toRemove l.monitors = []) ∨
     (removeMonitors l.toRemove l.monitors ≠ [] ∧ ∃ b, (ts = [] ↔ l.reads ≠ 0) ∧ x = .inl ⟨removeMonitors l.toRemove l.monitors, paused, ⟨paused, c⟩, b, s.readCount + l.reads⟩))

theorem pauseAbove_runs {high total : Nat} {s s' : Manager} {t : List Ev} (h : (pauseAbove high total s).Runs t s')
    (hs : s.control.paused = s.shut) :
    (if s.shut = false ∧ high ≤ total then ∃ b, t = [⟨.send .ctl s.control.chan (), b⟩] else t = []) ∧
    ∃ p, (p = true ↔ s.shut = true ∨ high ≤ total) ∧ s' = { s with shut := p, control := ⟨p, s.control.chan⟩ } := by
  obtain ⟨ms, sh, ⟨p, c⟩, bo, rc⟩ := s
  simp only [] at hs
  subst hs
  unfold pauseAbove at h
  by_cases hc : p = false ∧ high ≤ total
  · obtain ⟨rfl, hc⟩ := hc
    simp [hc, Control.pause] at h
    rw [Prog.runs_bind] at h
    obtain ⟨t1, ⟨c', b⟩, t2, rfl, h1, h2⟩ := h
    rw [Prog.runs_bind] at h1
    obtain ⟨t3, b', t4, rfl, h3, h4⟩ := h1
    rw [Prog.runs_req] at h3
    simp at h4 h2
    obtain ⟨rfl, rfl, rfl⟩ := h4
    obtain ⟨rfl, rfl⟩ := h2
    exact ⟨by simp [hc, h3], true, by simp [hc], rfl⟩
  · simp only [ge_iff_le, hc, if_false] at h ⊢
    simp at h
    obtain ⟨rfl, rfl⟩ := h
    refine ⟨rfl, p, ?_, rfl⟩
    cases p <;> simp at hc ⊢
    omega

theorem resumeBelow_runs {low total : Nat} {s s' : Manager} {t : List Ev} (h : (resumeBelow low total s).Runs t s')
    (hs : s.control.paused = s.shut) :
    (if s.shut = true ∧ total ≤ low then ∃ b, t = [⟨.send .ctl s.control.chan (), b⟩] else t = []) ∧
    ∃ p, (p = true ↔ s.shut = true ∧ ¬ total ≤ low) ∧ s' = { s with shut := p, control := ⟨p, s.control.chan⟩ } := by
  obtain ⟨ms, sh, ⟨p, c⟩, bo, rc⟩ := s
  simp only [] at hs
  subst hs
  unfold resumeBelow at h
  by_cases hc : p = true ∧ total ≤ low
  · obtain ⟨rfl, hc⟩ := hc
    simp [hc, Control.resume] at h
    rw [Prog.runs_bind] at h
    obtain ⟨t1, ⟨c', b⟩, t2, rfl, h1, h2⟩ := h
    rw [Prog.runs_bind] at h1
    obtain ⟨t3, b', t4, rfl, h3, h4⟩ := h1
    rw [Prog.runs_req] at h3
    simp at h4 h2
    obtain ⟨rfl, rfl, rfl⟩ := h4
    obtain ⟨rfl, rfl⟩ := h2
    exact ⟨by simp [hc, h3], false, by simp [hc], rfl⟩
  · simp only [hc, if_false] at h ⊢
    simp at h
    obtain ⟨rfl, rfl⟩ := h
    refine ⟨rfl, p, ?_, rfl⟩
    cases p <;> simp at hc ⊢
    omega

theorem managerBody_inv {low high : Nat} {s : Manager} {t : List Ev} {x : Manager ⊕ Nat} (h : (managerBody low high s).Runs t x)
    (hs : s.control.paused = s.shut) :
    ∃ tl tp tr ts l, t = tl ++ (tp ++ (tr ++ ts)) ∧ MgrPass low high s.control.chan s tl tp tr ts l x := by
  unfold managerBody at h
  rw [Prog.runs_bind] at h
  obtain ⟨tl, l, t1, rfl, hl, h⟩ := h
  simp only [] at h
  rw [Prog.runs_bind] at h
  obtain ⟨tp, s1, t2, rfl, hp, h⟩ := h
  rw [Prog.runs_bind] at h
  obtain ⟨tr, s2, ts, rfl, hr, h⟩ := h
  obtain ⟨hp1, p1, hp2, rfl⟩ := pauseAbove_runs hp hs
  obtain ⟨hr1, p2, hr2, rfl⟩ := resumeBelow_runs hr rfl
  simp only [] at hp1 hr1 h hp2 hr2
  simp only [hp2] at hr2 hr1
  refine ⟨tl, tp, tr, ts, l, rfl, hl, hp1, hr1, ?_, p2, hr2, ?_⟩
  · split at h
    · exact Or.inl h.1
    · split at h
      · rw [Prog.runs_bind] at h
        obtain ⟨t3, ⟨b, o⟩, t4, rfl, h1, h2⟩ := h
        unfold BackOff.wait at h1
        rw [Prog.runs_bind] at h1
        obtain ⟨t5, u, t6, rfl, h3, h4⟩ := h1
        rw [Prog.runs_req] at h3
        simp at h2 h4
        right
        refine ⟨s.backOff.count * s.backOff.count, ?_⟩
        simp [h3, h4.1, h2.1]
      · exact Or.inl h.1
  · split at h
    · next he => exact Or.inl ⟨h.2, h.1, he⟩
    · next he =>
      right
      refine ⟨he, ?_⟩
      split at h
      · next h0 =>
        rw [Prog.runs_bind] at h
        obtain ⟨t3, ⟨b, o⟩, t4, rfl, h1, h2⟩ := h
        unfold BackOff.wait at h1
        rw [Prog.runs_bind] at h1
        obtain ⟨t5, u, t6, rfl, h3, h4⟩ := h1
        rw [Prog.runs_req] at h3
        refine ⟨b, ?_, h2.2⟩
        simp [h3, h0]
      · next h0 =>
        refine ⟨_, ?_, h.2⟩
        simp [h.1, h0]

/-- What a flow manager does must fit what it was told. -/
def Sound (low high : Nat) (c : Nat) (chans : List Nat) (u : List Ev) (e : Ev) : Prop :=
  (isRequest c e = true → (requests c u % 2 = 0 → high ≤ occupancy chans u) ∧ (requests c u % 2 = 1 → occupancy chans u ≤ low)) ∧
  (isSleep e = true → (requests c u % 2 = 1 → low < occupancy chans u) ∧
    (requests c u % 2 = 0 → occupancy chans u < high ∨ occupancy chans u ≤ low)) ∧
  ((∃ c' r, e = ⟨.tryRecv .size c', r⟩) ∨ (∃ b, e = ⟨.send .ctl c (), b⟩) ∨ ∃ ms, e = ⟨.sleep ms, ()⟩)

/-- The manager has nothing more to request. -/
def Settled (low high : Nat) (c : Nat) (chans : List Nat) (u : List Ev) : Prop :=
  (requests c u % 2 = 1 → low < occupancy chans u) ∧ (requests c u % 2 = 0 → occupancy chans u < high ∨ occupancy chans u ≤ low)

/-- The manager's variables agree with what it was told and did. -/
structure MInv (c : Nat) (chans : List Nat) (u : List Ev) (s : Manager) : Prop where
  monitors : s.monitors = (chans.filter fun c => !ended c u).map fun c => ⟨reported c u, c⟩
  shut : s.control.paused = s.shut
  chan : s.control.chan = c
  parity : requests c u % 2 = s.shut.toNat
  count : s.readCount = (chans.map fun c => (gotOn .size c u).length).sum

theorem sum_filter_zero {α : Type} (l : List α) (p : α → Bool) (f : α → Nat) (h : ∀ x ∈ l, p x = false → f x = 0) :
    ((l.filter p).map f).sum = (l.map f).sum := by
  induction l with
  | nil => rfl
  | cons x l ih =>
    have ih := ih fun y hy => h y (by simp [hy])
    rw [List.filter_cons]
    split
    · simp [ih]
    · next hp =>
      simp only [List.map_cons, List.sum_cons, ih, h x (by simp) (by simpa using hp), Nat.zero_add]

theorem ended_append (c : Nat) (u t : List Ev) : ended c (u ++ t) = (ended c u || ended c t) := by simp [ended]

theorem ended_of_append {c : Nat} {u t : List Ev} (h : ended c u = true) : ended c (u ++ t) = true := by
  rw [ended_append, h]; rfl

structure RoundOk (low high : Nat) (c : Nat) (chans : List Nat) (u t : List Ev) (s : Manager) (x : Manager ⊕ Nat) : Prop where
  sound : Always (Sound low high c chans) u t
  settled : Settled low high c chans (u ++ t)
  next : ∀ s', x = .inl s' → MInv c chans (u ++ t) s'
  alive : ∀ s', x = .inl s' → ∃ c ∈ chans, ended c (u ++ t) = false
  stop : ∀ n, x = .inr n → (∀ c ∈ chans, ended c (u ++ t) = true) ∧ n = (chans.map fun c => (gotOn .size c (u ++ t)).length).sum
  amount : requests c t =
    (if s.shut = false ∧ high ≤ occupancy chans (u ++ t) then 1 else 0) +
    (if (s.shut = true ∨ high ≤ occupancy chans (u ++ t)) ∧ occupancy chans (u ++ t) ≤ low then 1 else 0)

theorem round_ok {low high c chans u t s x} (h : (managerBody low high s).Runs t x) (hi : MInv c chans u s) (hn : chans.Nodup) :
    RoundOk low high c chans u t s x := by
  obtain ⟨tl, tp, tr, ts, l, rfl, hp⟩ := managerBody_inv h hi.shut
  clear h
  rw [hi.chan] at hp
  have hchans : s.monitors.map Monitor.chan = chans.filter fun c => !ended c u := by
    rw [hi.monitors, List.map_map]
    have : (Monitor.chan ∘ fun c => (⟨reported c u, c⟩ : Monitor)) = id := rfl
    rw [this, List.map_id]
  have lk := looked (u := u) hp.look (by
    intro m hm
    rw [hi.monitors] at hm
    simp at hm
    obtain ⟨c', ⟨_, h2⟩, rfl⟩ := hm
    exact ⟨h2, rfl⟩) (by rw [hchans]; exact hn.filter _)
  have lkt := lk.total
  have lkr := lk.reads
  have lkm := lk.removed
  rw [hchans] at lkt lkr lkm
  -- total is the occupancy
  have htot : occupancy chans (u ++ tl) = l.total := by
    rw [lkt, occupancy, sum_filter_zero]
    intro x _ hx
    simp at hx
    simp [holds, ended_of_append hx]
  have lks : ∀ e ∈ tl, ∃ c' r, e = ⟨.tryRecv .size c', r⟩ := by
    intro e he; obtain ⟨m, _, r, rfl⟩ := lk.looks e he; exact ⟨_, r, rfl⟩
  have hlr := looks_requests (c := c) lks
  -- what comes after the look touches no sizes
  have nop : ∀ e ∈ tp, ∃ b, e = ⟨.send .ctl c (), b⟩ := by
    intro e he
    have := hp.pause
    split at this
    · obtain ⟨b, rfl⟩ := this; simp at he; exact ⟨b, he⟩
    · subst this; simp at he
  have nor : ∀ e ∈ tr, ∃ b, e = ⟨.send .ctl c (), b⟩ := by
    intro e he
    have := hp.resume
    split at this
    · obtain ⟨b, rfl⟩ := this; simp at he; exact ⟨b, he⟩
    · subst this; simp at he
  have nos : ∀ e ∈ ts, ∃ ms, e = ⟨.sleep ms, ()⟩ := by
    intro e he
    rcases hp.rest with rfl | ⟨ms, rfl⟩
    · simp at he
    · simp at he; exact ⟨ms, he⟩
  have noRec : ∀ v, v <+: tp ++ (tr ++ ts) → ∀ e ∈ v, ∀ c', e.q.on ≠ some (.size, c') := by
    intro v hv e he c'
    have := hv.subset he
    simp at this
    rcases this with h | h | h
    · obtain ⟨b, rfl⟩ := nop e h; simp [Req.on]
    · obtain ⟨b, rfl⟩ := nor e h; simp [Req.on]
    · obtain ⟨b, rfl⟩ := nos e h; simp [Req.on]
  have occ : ∀ v, v <+: tp ++ (tr ++ ts) → occupancy chans (u ++ tl ++ v) = l.total := by
    intro v hv
    rw [occupancy_untouched (noRec v hv), htot]
  have cntp : requests c tp = if s.shut = false ∧ high ≤ l.total then 1 else 0 := by
    have := hp.pause
    split at this
    · next h => obtain ⟨b, rfl⟩ := this; rw [if_pos h]; simp [requests, isRequest]
    · next h => subst this; rw [if_neg h]; rfl
  have cntr : requests c tr = if (s.shut = true ∨ high ≤ l.total) ∧ l.total ≤ low then 1 else 0 := by
    have := hp.resume
    split at this
    · next h => obtain ⟨b, rfl⟩ := this; rw [if_pos h]; simp [requests, isRequest]
    · next h => subst this; rw [if_neg h]; rfl
  have cnts : requests c ts = 0 := by
    unfold requests; rw [List.countP_eq_zero]
    intro e he; obtain ⟨ms, rfl⟩ := nos e he; simp [isRequest]
  have whole : occupancy chans (u ++ (tl ++ (tp ++ (tr ++ ts)))) = l.total := by
    have := occ _ List.prefix_rfl; simpa using this
  have par := hi.parity
  -- settled after the two requests
  have settled : ∀ v, v <+: tp ++ (tr ++ ts) → requests c v = requests c tp + requests c tr → Settled low high c chans (u ++ tl ++ v) := by
    intro v hv hr
    unfold Settled
    rw [occ v hv, requests_append, requests_append, hlr, hr, cntp, cntr]
    cases hsh : s.shut with
    | false =>
      rw [hsh] at par
      simp at par
      by_cases h1 : high ≤ l.total <;> by_cases h2 : l.total ≤ low <;> simp [h1, h2] <;> omega
    | true =>
      rw [hsh] at par
      simp at par
      by_cases h2 : l.total ≤ low <;> simp [h2] <;> omega
  have unt : ∀ c', reported c' (u ++ (tl ++ (tp ++ (tr ++ ts)))) = reported c' (u ++ tl) ∧
      ended c' (u ++ (tl ++ (tp ++ (tr ++ ts)))) = ended c' (u ++ tl) := by
    intro c'
    have := untouched (c := c') (u := u ++ tl) (t := tp ++ (tr ++ ts)) (fun e he => noRec _ List.prefix_rfl e he c')
    simpa using this
  have cnt : (chans.map fun c => (gotOn .size c (u ++ (tl ++ (tp ++ (tr ++ ts))))).length).sum =
      s.readCount + l.reads := by
    rw [hi.count, lkr, sum_filter_zero]
    · have : ∀ c', (gotOn .size c' (u ++ (tl ++ (tp ++ (tr ++ ts))))).length = (gotOn .size c' u).length + (gotOn .size c' tl).length := by
        intro c'
        have := gotOn_append_of_none (k := .size) (c := c') (u := u ++ tl) (t := tp ++ (tr ++ ts)) (by
          intro e he
          cases hg : gotOf .size c' e with
          | none => rfl
          | some v => exact absurd (on_of_got hg) (noRec _ List.prefix_rfl e he c'))
        rw [List.append_assoc] at this
        rw [this]; simp
      simp only [this]
      have : ∀ xs : List Nat, (xs.map fun c' => (gotOn .size c' u).length + (gotOn .size c' tl).length).sum =
          (xs.map fun c' => (gotOn .size c' u).length).sum + (xs.map fun c' => (gotOn .size c' tl).length).sum := by
        intro xs
        induction xs with
        | nil => rfl
        | cons x xs ih => simp [ih]; omega
      exact this chans
    · intro x _ hx
      simp at hx
      rw [List.length_eq_zero_iff]
      unfold gotOn
      rw [List.filterMap_eq_nil_iff]
      intro e he
      obtain ⟨m, hm, r, rfl⟩ := lk.looks e he
      cases hg : gotOf .size x ⟨.tryRecv .size m.chan, r⟩ with
      | none => rfl
      | some v =>
        exfalso
        have := on_of_got hg
        simp [Req.on] at this
        have hmem : m.chan ∈ s.monitors.map Monitor.chan := List.mem_map_of_mem hm
        rw [hchans, this] at hmem
        simp [hx] at hmem
  have removed : removeMonitors l.toRemove l.monitors =
      (chans.filter fun c => !ended c (u ++ tl)).map fun c => ⟨reported c (u ++ tl), c⟩ := by
    obtain ⟨R, h1, h2⟩ := lkm
    simp at h1
    subst h1
    rw [h2, List.filter_filter]
    congr 1
    apply List.filter_congr
    intro x _
    cases h : ended x u with
    | true => simp [ended_of_append h]
    | false => simp
  have after : ((chans.filter fun c' => !ended c' (u ++ (tl ++ (tp ++ (tr ++ ts))))).map fun c' => (⟨reported c' (u ++ (tl ++ (tp ++ (tr ++ ts)))), c'⟩ : Monitor)) =
      (chans.filter fun c => !ended c (u ++ tl)).map fun c => ⟨reported c (u ++ tl), c⟩ := by
    simp only [unt]
  have hreq : requests c (u ++ (tl ++ (tp ++ (tr ++ ts)))) = requests c u + requests c tp + requests c tr := by
    simp [requests_append, hlr, cnts]; omega
  refine ⟨?_, ?_, ?_, ?_, ?_, ?_⟩
  · rw [always_append, always_append, always_append]
    refine ⟨?_, ?_, ?_, ?_⟩
    · intro a e b hab
      obtain ⟨c', r, rfl⟩ := lks e (by rw [hab]; simp)
      exact ⟨by simp [isRequest], by simp [isSleep], Or.inl ⟨c', r, rfl⟩⟩
    · have := hp.pause
      split at this
      · next hc =>
        obtain ⟨b, rfl⟩ := this
        rw [always_cons]
        refine ⟨⟨fun _ => ?_, by simp [isSleep], Or.inr (Or.inl ⟨b, rfl⟩)⟩, always_nil _ _⟩
        have o := occ [] (by simp)
        simp only [List.append_nil] at o
        rw [o, requests_append, hlr]
        rw [hc.1] at par; simp at par
        exact ⟨fun _ => hc.2, fun h => by omega⟩
      · subst this; exact always_nil _ _
    · have := hp.resume
      split at this
      · next hc =>
        obtain ⟨b, rfl⟩ := this
        rw [always_cons]
        refine ⟨⟨fun _ => ?_, by simp [isSleep], Or.inr (Or.inl ⟨b, rfl⟩)⟩, always_nil _ _⟩
        have o := occ tp (by simp)
        rw [o, requests_append, requests_append, hlr, cntp]
        refine ⟨fun h => ?_, fun _ => hc.2⟩
        cases hsh : s.shut with
        | false => rcases hc.1 with h0 | h0
                   · simp [hsh] at h0
                   · exact h0
        | true => rw [hsh] at par h; simp at par h; omega
      · subst this; exact always_nil _ _
    · rcases hp.rest with rfl | ⟨ms, rfl⟩
      · exact always_nil _ _
      · rw [always_cons]
        refine ⟨⟨by simp [isRequest], fun _ => ?_, Or.inr (Or.inr ⟨ms, rfl⟩)⟩, always_nil _ _⟩
        have := settled (tp ++ tr) (by rw [← List.append_assoc]; exact List.prefix_append _ _) (requests_append _ _ _)
        rw [List.append_assoc (u ++ tl)]
        exact this
  · have := settled _ List.prefix_rfl (by simp [requests_append, cnts])
    simpa using this
  · rintro s' rfl
    obtain ⟨p, hpi, hx⟩ := hp.out
    rcases hx with ⟨h, _⟩ | ⟨_, b, _, h⟩
    · simp at h
    · simp at h; subst h
      refine ⟨?_, rfl, rfl, ?_, ?_⟩
      · simp only []; rw [after]; exact removed
      · rw [hreq, cntp, cntr]
        have : p.toNat = if (s.shut = true ∨ high ≤ l.total) ∧ ¬ l.total ≤ low then 1 else 0 := by
          by_cases hh : (s.shut = true ∨ high ≤ l.total) ∧ ¬ l.total ≤ low
          · rw [if_pos hh, hpi.mpr hh]; rfl
          · rw [if_neg hh]
            cases p with
            | false => rfl
            | true => exact absurd (hpi.mp rfl) hh
        simp only [this]
        cases hsh : s.shut with
        | false =>
          rw [hsh] at par
          simp at par
          by_cases h1 : high ≤ l.total <;> by_cases h2 : l.total ≤ low <;> simp [h1, h2] <;> omega
        | true =>
          rw [hsh] at par
          simp at par
          by_cases h2 : l.total ≤ low <;> simp [h2] <;> omega
      · exact cnt.symm
  · rintro s' rfl
    obtain ⟨p, hpi, hx⟩ := hp.out
    rcases hx with ⟨h, _⟩ | ⟨h0, _⟩
    · simp at h
    · rw [removed] at h0
      simp at h0
      obtain ⟨c', h1, h2⟩ := h0
      exact ⟨c', h1, by rw [(unt c').2]; exact h2⟩
  · rintro n rfl
    obtain ⟨p, hpi, hx⟩ := hp.out
    rcases hx with ⟨h, _, h0⟩ | ⟨_, b, _, h⟩
    · simp at h; subst h
      rw [removed] at h0
      simp at h0
      exact ⟨fun c' hc => by rw [(unt c').2]; exact h0 c' hc, cnt.symm⟩
    · simp at h
  · rw [whole, requests_append, requests_append, requests_append, hlr, cnts, cntp, cntr]; omega

theorem minv_init (c : Nat) (chans : List Nat) : MInv c chans [] (managerInit c chans) := by
  refine ⟨?_, rfl, rfl, rfl, ?_⟩
  · have : (chans.filter fun c => !ended c []) = chans := by
      rw [List.filter_eq_self]; intro a _; rfl
    rw [this]; rfl
  · have : ∀ xs : List Nat, (xs.map fun c => (gotOn .size c []).length).sum = 0 := by
      intro xs; induction xs with
      | nil => rfl
      | cons x xs ih => simpa using ih
    rw [this]; rfl

theorem rounds_ok {low high c chans u t s s'} (h : LoopRounds (managerBody low high) s t s') (hi : MInv c chans u s) (hn : chans.Nodup) :
    Always (Sound low high c chans) u t ∧ MInv c chans (u ++ t) s' ∧ (t ≠ [] → Settled low high c chans (u ++ t)) := by
  induction h generalizing u with
  | nil => exact ⟨always_nil _ _, by simpa using hi, by simp⟩
  | @next s s1 s2 t1 t2 hb _ ih =>
    have ro := round_ok hb hi hn
    obtain ⟨i1, i2, i3⟩ := ih (ro.next _ rfl)
    refine ⟨always_append.mpr ⟨ro.sound, i1⟩, by simpa using i2, ?_⟩
    intro _
    by_cases h : t2 = []
    · subst h; simpa using ro.settled
    · simpa using i3 h


theorem always_prefix {P hist a b} (h : Always P hist b) (hp : a <+: b) : Always P hist a := by
  obtain ⟨c, rfl⟩ := hp
  exact (always_append.mp h).1

theorem loopPartial_sound {low high c chans t} (h : LoopPartial (managerBody low high) (managerInit c chans) t) (hn : chans.Nodup) :
    Always (Sound low high c chans) [] t := by
  obtain ⟨s', t1, t2, h1, h2, rfl⟩ := h
  obtain ⟨i1, i2, _⟩ := rounds_ok h1 (minv_init c chans) hn
  obtain ⟨t3, x, h3⟩ := h2.extend
  exact always_append.mpr ⟨i1, always_prefix (round_ok h3 i2 hn).sound ⟨t3, rfl⟩⟩

/-- At every event of a manager's task it is sound or closes something. -/
theorem managerTask_sound {low high c chans t} (h : (managerTask low high c chans).Partial t) (hn : chans.Nodup) :
    Always (fun u e => Sound low high c chans u e ∨ ∃ k c', e = ⟨.close k c', ()⟩) [] t := by
  rcases h with h | ⟨r, t1, t2, h1, h2, rfl⟩
  · exact always_mono (fun _ _ h => Or.inl h) (loopPartial_sound h hn)
  · refine always_append.mpr ⟨always_mono (fun _ _ h => Or.inl h) (loopPartial_sound h1.toPartial hn), ?_⟩
    intro u e v huv
    right
    have : e ∈ dropEvs (managerTask low high c chans).drops := h2.subset (by rw [huv]; simp)
    simp only [dropEvs, List.mem_map] at this
    obtain ⟨x, _, rfl⟩ := this
    exact ⟨x.1, x.2, rfl⟩

end Verif
