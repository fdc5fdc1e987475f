import Verif.Lemmas.Lull
/-!
# What a manager that goes on for ever in vain has learnt
-/
namespace Verif

theorem look_all {i : Nat} {ms : List Monitor} {t : List Ev} {l : Look} (h : (look i ms).Runs t l) : ∀ m ∈ ms, ∃ r, (⟨.tryRecv .size m.chan, r⟩ : Ev) ∈ t := by
  induction ms generalizing i t l with
  | nil => simp
  | cons m ms ih =>
    unfold look at h
    rw [Prog.runs_bind] at h
    obtain ⟨t1, r, t2, rfl, h1, h2⟩ := h
    obtain ⟨rr, t1', rfl, h1⟩ := h1
    obtain ⟨rfl, rfl⟩ := h1
    have rest : ∃ i l' t3, t3 <+: t2 ∧ (look i ms).Runs t3 l' := by
      cases r with
      | closed => rw [Prog.runs_bind] at h2; obtain ⟨t3, l', t4, rfl, h3, _⟩ := h2; exact ⟨_, _, _, ⟨_, rfl⟩, h3⟩
      | empty => rw [Prog.runs_bind] at h2; obtain ⟨t3, l', t4, rfl, h3, _⟩ := h2; exact ⟨_, _, _, ⟨_, rfl⟩, h3⟩
      | got v => rw [Prog.runs_bind] at h2; obtain ⟨t3, l', t4, rfl, h3, _⟩ := h2; exact ⟨_, _, _, ⟨_, rfl⟩, h3⟩
    obtain ⟨i', l', t3, hp, h3⟩ := rest
    intro m' hm'
    rcases List.mem_cons.mp hm' with rfl | hm'
    · exact ⟨r, by simp⟩
    · obtain ⟨r', hr'⟩ := ih h3 m' hm'
      exact ⟨r', by simp [hp.subset hr']⟩

theorem vain_requests {c : Nat} {t : List Ev} (h : ∀ e ∈ t, tellsNothing e = true) : requests c t = 0 := by
  unfold requests
  rw [List.countP_eq_zero]
  intro e he hr
  have := h e he
  obtain ⟨q, r⟩ := e
  cases q <;> simp [isRequest] at hr
  simp [tellsNothing] at this

theorem vain_gotOn {k : Kind} {c : Nat} {t : List Ev} (h : ∀ e ∈ t, tellsNothing e = true) (hk : k = .size ∨ k = .mon) : gotOn k c t = [] := by
  unfold gotOn
  rw [List.filterMap_eq_nil_iff]
  intro e he
  have := h e he
  obtain ⟨q, r⟩ := e
  cases q with
  | recv k' c' => simp [tellsNothing] at this
  | tryRecv k' c' => cases r <;> first | (simp [tellsNothing] at this; done) | simp [gotOf]
  | _ => simp [gotOf]

/-- A manager that goes on for ever learning nothing and requesting nothing, while the channels stay as they are, has taken all sizes; more may come; and if it
has last asked for a pause, some buffer was last reported not to be empty. -/
theorem manager_rest {low high ctl : Nat} {chans : List Nat} (hn : chans.Nodup) {tr : List Ev} {g : Nat → Ev} {cap : Caps} {st : Store}
    (h : ∀ k, (managerTask low high ctl chans).Partial (tr ++ first g k)) (hid : ∀ i, tellsNothing (g i) = true) (hx : ∀ i, exec cap st (g i) = some st) :
    (∀ ch ∈ chans, ended ch tr = true ∨ (st .size ch).q = []) ∧ (∃ ch ∈ chans, (st .size ch).closed = false) ∧
    (requests ctl tr % 2 = 1 → ∃ ch ∈ chans, (st .size ch).closed = false ∧ (st .size ch).q = [] ∧ 0 < reported ch tr) := by
  obtain ⟨k, s, j, s', h1, h2⟩ := Task.vain h hid
  obtain ⟨_, hi, _⟩ := rounds_ok h1 (minv_init ctl chans) hn
  rw [List.nil_append] at hi
  have ro := round_ok h2 hi hn
  obtain ⟨tl, tp, trr, ts, l, he, hp⟩ := managerBody_inv h2 hi.shut
  have vain : ∀ e ∈ first g k ++ first (fun i => g (k + i)) j, tellsNothing e = true ∧ exec cap st e = some st := by
    intro e he
    rcases List.mem_append.mp he with he | he <;> obtain ⟨i, _, rfl⟩ := mem_first.mp he <;> exact ⟨hid _, hx _⟩
  have hass : (tr ++ first g k) ++ first (fun i => g (k + i)) j = tr ++ (first g k ++ first (fun i => g (k + i)) j) := by simp
  have alive := ro.alive s' rfl
  have settled := ro.settled
  rw [hass] at alive settled
  have vain' : ∀ e ∈ first (fun i => g (k + i)) j, tellsNothing e = true ∧ exec cap st e = some st := fun e he => vain e (by simp [he])
  have hopen : ∀ ch ∈ chans, ended ch (tr ++ (first g k ++ first (fun i => g (k + i)) j)) = false → (st .size ch).q = [] ∧ (st .size ch).closed = false := by
    intro ch hch hen
    have hen' : ended ch (tr ++ first g k) = false ∧ ended ch (first (fun i => g (k + i)) j) = false := by
      rw [← List.append_assoc, ended_append] at hen
      simpa using hen
    have hm : (⟨reported ch (tr ++ first g k), ch⟩ : Monitor) ∈ s.monitors := by
      rw [hi.monitors, List.mem_map]
      exact ⟨ch, by simp [hch, hen'.1], rfl⟩
    obtain ⟨r, hr⟩ := look_all hp.look _ hm
    have hr' : (⟨.tryRecv .size ch, r⟩ : Ev) ∈ first (fun i => g (k + i)) j := by rw [he]; simp [hr]
    have hv := vain' _ hr'
    cases r with
    | got v => simp [tellsNothing] at hv
    | empty => exact ⟨(exec_try_empty hv.2).1, (exec_try_empty hv.2).2.1⟩
    | closed =>
      exfalso
      have h2 := hen'.2
      unfold ended at h2
      rw [List.any_eq_false] at h2
      exact h2 _ hr' (by simp [tellsEnd])
  refine ⟨fun ch hch => ?_, ?_, fun hodd => ?_⟩
  · cases hen : ended ch (tr ++ (first g k ++ first (fun i => g (k + i)) j)) with
    | false => exact Or.inr (hopen ch hch hen).1
    | true =>
      rw [ended_append, Bool.or_eq_true] at hen
      rcases hen with h | h
      · exact Or.inl h
      · right
        unfold ended at h
        rw [List.any_eq_true] at h
        obtain ⟨e, he, hc⟩ := h
        have hv := (vain e he).2
        obtain ⟨q, r⟩ := e
        cases q with
        | tryRecv k' c' =>
          cases k' <;> cases r <;> simp [tellsEnd] at hc
          subst hc
          exact (exec_try_closed hv).1
        | _ => simp [tellsEnd] at hc
  · obtain ⟨ch, hch, hen⟩ := alive
    exact ⟨ch, hch, (hopen ch hch hen).2⟩
  · have hs := settled.1 (by rw [requests_append, vain_requests fun e he => (vain e he).1, Nat.add_zero]; exact hodd)
    have : ∃ ch ∈ chans, 0 < holds ch (tr ++ (first g k ++ first (fun i => g (k + i)) j)) := by
      refine Classical.byContradiction fun hno => ?_
      have : occupancy chans (tr ++ (first g k ++ first (fun i => g (k + i)) j)) = 0 := by
        have : ∀ l : List Nat, (∀ ch ∈ l, ch ∈ chans) → (l.map fun c => holds c (tr ++ (first g k ++ first (fun i => g (k + i)) j))).sum = 0 := by
          intro l hl
          induction l with
          | nil => rfl
          | cons a l ih =>
            rw [List.map_cons, List.sum_cons, ih fun ch h => hl ch (by simp [h])]
            have : ¬ 0 < holds a (tr ++ (first g k ++ first (fun i => g (k + i)) j)) := fun h => hno ⟨a, hl a (by simp), h⟩
            omega
        exact this chans fun _ h => h
      omega
    obtain ⟨ch, hch, hpos⟩ := this
    unfold holds at hpos
    cases hen : ended ch (tr ++ (first g k ++ first (fun i => g (k + i)) j)) with
    | true => simp [hen] at hpos
    | false =>
      have ho := hopen ch hch hen
      refine ⟨ch, hch, ho.2, ho.1, ?_⟩
      rw [hen] at hpos
      have hr : reported ch (tr ++ (first g k ++ first (fun i => g (k + i)) j)) = reported ch tr := by
        unfold reported
        rw [gotOn_append, vain_gotOn (fun e he => (vain e he).1) (Or.inl rfl), List.append_nil]
      rw [hr] at hpos
      simpa using hpos

end Verif
