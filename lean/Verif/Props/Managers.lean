import Verif.Model.Start
import Verif.Props.Wiring
/-!
# C47: preparing the managers of regulators
-/
namespace Verif

/-- A regulator that is managed: it has watermarks, and it and all the buffers it monitors are used. -/
def Managed (c : Config) (hs : List Hop) (r : Str) (rc : RegulatorConfig) (low high : Nat) : Prop :=
  (r, rc) ∈ c.regulator ∧ rc.buffered = some (low, high) ∧ Mentioned hs (.regulator, r) ∧ ∀ b ∈ rc.monitored, Mentioned hs (.buffer, b)

/-- A buffer is listed twice, by one managed regulator or by two. -/
def MonitoredTwice (c : Config) (hs : List Hop) : Prop :=
  (∃ r rc low high, Managed c hs r rc low high ∧ ¬ rc.monitored.Nodup) ∨
  ∃ r rc low high r' rc' low' high', r ≠ r' ∧ Managed c hs r rc low high ∧ Managed c hs r' rc' low' high' ∧ ∃ b ∈ rc.monitored, b ∈ rc'.monitored

/-! ## The settings -/

theorem wireStep_settings {c : Config} {s s' : WireState} {x : Connection} (h : wireStep c s x = .ok s') : s'.waiter.settings = s.waiter.settings := by
  have hfind : ∀ {r dst w L}, findOrConstruct c s r = .ok (dst, w, L) → w.settings = s.waiter.settings := by
    intro r dst w L hf
    unfold findOrConstruct at hf
    cases hg : s.waiter.getId r with
    | some i => rw [hg] at hf; cases hf; rfl
    | none =>
      rw [hg] at hf
      simp only [construct] at hf
      split at hf
      case h_6 =>
        split at hf
        · cases hf
        · split at hf
          · cases hf
          · cases hf; rfl
      all_goals (cases hf; rfl)
  unfold wireStep at h
  cases hf : findOrConstruct c s (x.ty, x.name) with
  | err e => rw [hf] at h; cases h
  | panic => rw [hf] at h; cases h
  | ok a =>
    obtain ⟨dst, w, L⟩ := a
    rw [hf] at h
    simp only at h
    rw [← hfind hf]
    cases hj : joinLast w s.last dst x.inputPort with
    | err e => rw [hj] at h; cases h
    | panic => rw [hj] at h; cases h
    | ok w' =>
      rw [hj] at h
      cases h
      unfold joinLast at hj
      split at hj
      · cases hj; rfl
      · split at hj
        · cases hj
        · rename_i _ src port _ _ inp _
          cases hjj : w.join src port dst inp with
          | error e => rw [hjj] at hj; cases hj
          | ok w2 =>
            rw [hjj] at hj; cases hj
            unfold Waiter.join at hjj
            split at hjj
            · cases hjj
            · rename_i pull w3 hsp
              have h3 : w3.settings = w.settings := by
                unfold Waiter.getSrcPull at hsp
                split at hsp
                · cases hsp
                · split at hsp
                  · cases hsp
                  · cases hsp; rfl
              unfold Waiter.giveInput at hjj
              split at hjj
              · cases hjj
              · split at hjj
                · cases hjj
                · cases hjj; exact h3

theorem wireAll_settings {c : Config} (l : List Connection) : ∀ {s s' : WireState}, wireAll c s l = .ok s' → s'.waiter.settings = s.waiter.settings := by
  induction l with
  | nil => intro s s' h; cases h; rfl
  | cons x l ih =>
    intro s s' h
    simp only [wireAll] at h
    cases hs : wireStep c s x with
    | err e => rw [hs] at h; cases h
    | panic => rw [hs] at h; cases h
    | ok s1 =>
      rw [hs] at h
      exact (ih h).trans (wireStep_settings hs)

/-- What a regulator's configuration comes to, given which components there are. -/
def watchOf (present : CompRef → Bool) (x : Str × RegulatorConfig) : Option (Str × Watch) :=
  match x.2.buffered with
  | none => none
  | some b => if x.2.monitored.all (fun y => present (.buffer, y)) && present (.regulator, x.1) then some (x.1, ⟨b.1, b.2, x.2.monitored⟩) else none

theorem put_append {α} {m : Map α} {k : Str} (v : α) (h : k ∉ m.keys) : m.put k v = m ++ [(k, v)] := by
  unfold Map.put
  induction m with
  | nil => rfl
  | cons a m ih =>
    obtain ⟨k', v'⟩ := a
    simp only [Map.keys, List.map_cons, List.mem_cons, not_or] at h
    simp only [Map.entry, if_neg (Ne.symm h.1), List.cons_append]
    rw [ih h.2]

theorem configure_settings (l : Map RegulatorConfig) : ∀ (w : Waiter), (w.settings.keys ++ l.keys).Nodup →
    (l.foldl configureOne w).settings = w.settings ++ l.filterMap (watchOf fun r => (w.comps.get r).isSome) := by
  induction l with
  | nil => intro w _; simp
  | cons x l ih =>
    intro w hn
    have hx : x.1 ∉ w.settings.keys := by
      intro hk
      simp only [Map.keys, List.map_cons] at hn hk
      rw [List.nodup_append] at hn
      exact hn.2.2 _ hk _ (by simp) rfl
    have hkeep : (configureOne w x).comps = w.comps := (configureOne_comps w x).1
    have hset : (configureOne w x).settings = w.settings ++ (watchOf (fun r => (w.comps.get r).isSome) x).toList := by
      unfold configureOne watchOf
      cases x.2.buffered with
      | none => simp
      | some b =>
        simp only [Waiter.configureRegulator]
        by_cases hc : (x.2.monitored.all (fun y => (w.comps.get (.buffer, y)).isSome) && (w.comps.get (.regulator, x.1)).isSome) = true
        · rw [if_pos hc, if_pos hc]
          exact put_append _ hx
        · rw [if_neg hc, if_neg hc]; simp
    have hk : ((configureOne w x).settings.keys ++ Map.keys l).Nodup := by
      rw [hset]
      have : (watchOf (fun r => (w.comps.get r).isSome) x).toList.map Prod.fst = [] ∨ (watchOf (fun r => (w.comps.get r).isSome) x).toList.map Prod.fst = [x.1] := by
        unfold watchOf
        cases x.2.buffered with
        | none => simp
        | some b =>
          simp only
          split <;> simp
      simp only [Map.keys, List.map_append, List.map_cons] at hn this ⊢
      rcases this with e | e <;> rw [e]
      · rw [List.append_nil]
        exact hn.sublist (List.Sublist.append_left (List.sublist_cons_self _ _) _)
      · simpa using hn
    rw [List.foldl_cons, ih (configureOne w x) hk, hset, hkeep, List.append_assoc]
    congr 1
    cases hwo : watchOf (fun r => (w.comps.get r).isSome) x <;> simp [List.filterMap_cons, hwo]

/-- The settings of a waiter that was built: one for each managed regulator. -/
theorem settings_managed {c : Config} {R : Map Hop} (hc : c.connection = hopSets R) (hn : c.regulator.keys.Nodup) {w : Waiter} (hw : getWaiter c = .ok w) :
    w.settings.keys.Nodup ∧ ∀ r s, (r, s) ∈ w.settings ↔ ∃ rc, Managed c (R.map (·.2)) r rc s.low s.high ∧ s.buffers = rc.monitored := by
  have hwd := C42_components c R hc hw
  have hpres : ∀ r, (w.comps.get r).isSome = true ↔ Mentioned (R.map (·.2)) r := by
    intro r
    constructor
    · intro h
      apply Classical.byContradiction
      intro hm
      rw [hwd.only r hm] at h; cases h
    · intro h; rw [hwd.comps r h]; rfl
  have hset : w.settings = c.regulator.filterMap (watchOf fun r => (w.comps.get r).isSome) := by
    unfold getWaiter at hw
    cases hl : allConnections c.connection with
    | none => rw [hl] at hw; cases hw
    | some l =>
      rw [hl] at hw
      simp only at hw
      cases hs : wireAll c ⟨Waiter.new, c.launch, none⟩ l with
      | err e => rw [hs] at hw; cases hw
      | panic => rw [hs] at hw; cases hw
      | ok s =>
        rw [hs] at hw
        cases hw
        have h0 : s.waiter.settings = [] := wireAll_settings l hs
        rw [configure_settings _ _ (by rw [h0]; simpa [Map.keys] using hn), h0, (configure_comps c.regulator s.waiter).1]
        rfl
  constructor
  · rw [hset]
    have : ∀ l : Map RegulatorConfig, (Map.keys (l.filterMap (watchOf fun r => (w.comps.get r).isSome))).Sublist l.keys := by
      intro l
      induction l with
      | nil => exact List.Sublist.refl _
      | cons x l ih =>
        have hk : watchOf (fun r => (w.comps.get r).isSome) x = none ∨ ∃ s, watchOf (fun r => (w.comps.get r).isSome) x = some (x.1, s) := by
          unfold watchOf
          cases x.2.buffered with
          | none => simp
          | some b => simp only; split <;> simp
        simp only [Map.keys, List.map_cons] at ih ⊢
        rcases hk with e | ⟨s, e⟩
        · rw [List.filterMap_cons_none e]; exact ih.cons _
        · rw [List.filterMap_cons_some e]; exact ih.cons_cons _
    exact hn.sublist (this _)
  · intro r s
    rw [hset, List.mem_filterMap]
    constructor
    · rintro ⟨⟨r', rc⟩, hm, he⟩
      unfold watchOf at he
      cases hb : rc.buffered with
      | none => rw [hb] at he; cases he
      | some b =>
        rw [hb] at he
        simp only [Option.ite_none_right_eq_some, Bool.and_eq_true, List.all_eq_true, Option.some.injEq, Prod.mk.injEq] at he
        obtain ⟨⟨h1, h2⟩, rfl, rfl⟩ := he
        exact ⟨rc, ⟨hm, by rw [hb], (hpres _).mp h2, fun b hb => (hpres _).mp (h1 b hb)⟩, rfl⟩
    · rintro ⟨rc, ⟨hm, hb, h1, h2⟩, he⟩
      refine ⟨(r, rc), hm, ?_⟩
      unfold watchOf
      simp only [hb]
      rw [if_pos (by simp only [Bool.and_eq_true, List.all_eq_true]; exact ⟨fun b hb => (hpres _).mpr (h2 b hb), (hpres _).mpr h1⟩)]
      obtain ⟨lo, hi, bs⟩ := s
      simp only at he
      rw [he]

/-! ## Handing out controls and monitors -/

/-- A buffer's monitor has not been handed out, or has been. -/
def Waiter.Monitor (w : Waiter) (b : Str) (taken : Bool) : Prop := ∃ i o, w.comps.get (.buffer, b) = some (.buffer i o taken)

theorem Waiter.Monitor.unique {w : Waiter} {b : Str} {t t' : Bool} (h : w.Monitor b t) (h' : w.Monitor b t') : t = t' := by
  obtain ⟨i, o, e⟩ := h
  obtain ⟨i', o', e'⟩ := h'
  rw [e] at e'; cases e'; rfl

theorem monitor_spec {w : Waiter} {r b : Str} (h : w.Monitor b false) :
    ∃ w', w.monitor r b = .ok w' ∧ w'.Monitor b true ∧ (∀ x t, x ≠ b → (w'.Monitor x t ↔ w.Monitor x t)) ∧ ∀ x, w'.comps.get (.regulator, x) = w.comps.get (.regulator, x) := by
  obtain ⟨i, o, e⟩ := h
  refine ⟨{ w with comps := w.comps.put (.buffer, b) (.buffer i o true) }, ?_, ⟨i, o, ?_⟩, ?_, ?_⟩
  · unfold Waiter.monitor; rw [e]
  · rw [Table.get_put, if_pos rfl]
  · intro x t hx
    unfold Waiter.Monitor
    simp only [Table.get_put]
    rw [if_neg (by simp [hx])]
  · intro x
    simp only [Table.get_put]
    rw [if_neg (by simp)]

theorem monitor_taken {w : Waiter} {r b : Str} (h : w.Monitor b true) : w.monitor r b = .panic := by
  obtain ⟨i, o, e⟩ := h
  unfold Waiter.monitor; rw [e]

theorem monitorAll_spec (r : Str) : ∀ (bs : List Str) (w : Waiter), (∀ b ∈ bs, ∃ t, w.Monitor b t) →
    (bs.Nodup ∧ (∀ b ∈ bs, w.Monitor b false) ∧ ∃ w', w.monitorAll r bs = .ok w' ∧ (∀ b ∈ bs, w'.Monitor b true) ∧
      (∀ x t, x ∉ bs → (w'.Monitor x t ↔ w.Monitor x t)) ∧ ∀ x, w'.comps.get (.regulator, x) = w.comps.get (.regulator, x)) ∨
    (¬ (bs.Nodup ∧ ∀ b ∈ bs, w.Monitor b false) ∧ w.monitorAll r bs = .panic) := by
  intro bs
  induction bs with
  | nil => intro w _; exact Or.inl ⟨List.nodup_nil, by simp, w, rfl, by simp, fun _ _ _ => Iff.rfl, fun _ => rfl⟩
  | cons b bs ih =>
    intro w h
    obtain ⟨t, ht⟩ := h b (by simp)
    cases t with
    | true =>
      right
      refine ⟨fun hx => ?_, ?_⟩
      · have := (hx.2 b (by simp)).unique ht; cases this
      · simp only [Waiter.monitorAll]; rw [monitor_taken ht]
    | false =>
      obtain ⟨w1, e1, h1, h2, h3⟩ := monitor_spec (r := r) ht
      have hall : ∀ x ∈ bs, ∃ t, w1.Monitor x t := by
        intro x hx
        by_cases he : x = b
        · subst he; exact ⟨_, h1⟩
        · obtain ⟨t, ht⟩ := h x (by simp [hx]); exact ⟨t, (h2 x t he).mpr ht⟩
      have hrun : w.monitorAll r (b :: bs) = w1.monitorAll r bs := by simp only [Waiter.monitorAll]; rw [e1]
      rw [hrun]
      have hiff : (bs.Nodup ∧ ∀ x ∈ bs, w1.Monitor x false) ↔ ((b :: bs).Nodup ∧ ∀ x ∈ b :: bs, w.Monitor x false) := by
        rw [List.nodup_cons]
        constructor
        · rintro ⟨a1, a2⟩
          have hb : b ∉ bs := fun hb => by have := (a2 b hb).unique h1; cases this
          refine ⟨⟨hb, a1⟩, fun x hx => ?_⟩
          rcases List.mem_cons.mp hx with rfl | hx
          · exact ht
          · exact (h2 x _ (fun e => hb (e ▸ hx))).mp (a2 x hx)
        · rintro ⟨⟨hb, a1⟩, a2⟩
          exact ⟨a1, fun x hx => (h2 x _ (fun e => hb (e ▸ hx))).mpr (a2 x (by simp [hx]))⟩
      rcases ih w1 hall with ⟨a1, a2, w', e, q1, q2, q3⟩ | ⟨a, e⟩
      · left
        obtain ⟨b1, b2⟩ := hiff.mp ⟨a1, a2⟩
        refine ⟨b1, b2, w', e, ?_, ?_, fun x => (q3 x).trans (h3 x)⟩
        · intro x hx
          rcases List.mem_cons.mp hx with rfl | hx
          · exact (q2 x true (List.nodup_cons.mp b1).1).mpr h1
          · exact q1 x hx
        · intro x t hx
          simp only [List.mem_cons, not_or] at hx
          exact (q2 x t hx.2).trans (h2 x t hx.1)
      · right
        exact ⟨fun hx => a (hiff.mpr hx), e⟩

/-- A regulator whose control has not been handed out. -/
def Waiter.Uncontrolled (w : Waiter) (r : Str) : Prop := ∃ i o, w.comps.get (.regulator, r) = some (.regulator i o false)

theorem getControl_spec {w : Waiter} {r : Str} (h : w.Uncontrolled r) :
    ∃ w', w.getControl r = .ok w' ∧ (∀ b t, w'.Monitor b t ↔ w.Monitor b t) ∧ ∀ x, x ≠ r → (w.Uncontrolled x → w'.Uncontrolled x) := by
  obtain ⟨i, o, e⟩ := h
  refine ⟨{ w with comps := w.comps.put (.regulator, r) (.regulator i o true) }, ?_, ?_, ?_⟩
  · unfold Waiter.getControl; rw [e]
  · intro b t
    unfold Waiter.Monitor
    simp only [Table.get_put]
    rw [if_neg (by simp)]
  · rintro x hx ⟨i, o, e⟩
    refine ⟨i, o, ?_⟩
    simp only [Table.get_put]
    rw [if_neg (by simp [hx])]; exact e

theorem regulatorSettings_spec : ∀ (l : List (Str × Watch)) (w : Waiter), (l.map Prod.fst).Nodup → (∀ x ∈ l, w.Uncontrolled x.1) →
    (∀ x ∈ l, ∀ b ∈ x.2.buffers, ∃ t, w.Monitor b t) →
    ((l.flatMap fun x => x.2.buffers).Nodup ∧ (∀ b ∈ l.flatMap fun x => x.2.buffers, w.Monitor b false) ∧
      ∃ w', w.regulatorSettings l = .ok (l.map fun x => ⟨x.2.low, x.2.high, x.1, x.2.buffers⟩, w')) ∨
    (¬ ((l.flatMap fun x => x.2.buffers).Nodup ∧ ∀ b ∈ l.flatMap fun x => x.2.buffers, w.Monitor b false) ∧ w.regulatorSettings l = .panic) := by
  intro l
  induction l with
  | nil => intro w _ _ _; exact Or.inl ⟨List.nodup_nil, by simp, w, rfl⟩
  | cons x l ih =>
    obtain ⟨r, s⟩ := x
    intro w hn hu hm
    simp only [List.map_cons, List.nodup_cons] at hn
    obtain ⟨w1, e1, p1, p2⟩ := getControl_spec (hu (r, s) (by simp))
    have hall : ∀ b ∈ s.buffers, ∃ t, w1.Monitor b t := by
      intro b hb
      obtain ⟨t, ht⟩ := hm (r, s) (by simp) b hb
      exact ⟨t, (p1 b t).mpr ht⟩
    simp only [List.flatMap_cons, List.nodup_append, List.mem_append]
    rcases monitorAll_spec r s.buffers w1 hall with ⟨a1, a2, w2, e2, q1, q2, q3⟩ | ⟨a, e2⟩
    · have hu2 : ∀ x ∈ l, w2.Uncontrolled x.1 := by
        intro x hx
        obtain ⟨i, o, e⟩ := p2 x.1 (fun he => hn.1 (List.mem_map.mpr ⟨x, hx, he⟩)) (hu x (by simp [hx]))
        exact ⟨i, o, (q3 x.1).trans e⟩
      have hm2 : ∀ x ∈ l, ∀ b ∈ x.2.buffers, ∃ t, w2.Monitor b t := by
        intro x hx b hb
        by_cases hin : b ∈ s.buffers
        · exact ⟨_, q1 b hin⟩
        · obtain ⟨t, ht⟩ := hm x (by simp [hx]) b hb
          exact ⟨t, (q2 b t hin).mpr ((p1 b t).mpr ht)⟩
      have hiff : ((l.flatMap fun x => x.2.buffers).Nodup ∧ ∀ b ∈ l.flatMap fun x => x.2.buffers, w2.Monitor b false) ↔
          (s.buffers.Nodup ∧ (l.flatMap fun x => x.2.buffers).Nodup ∧ ∀ a ∈ s.buffers, ∀ b ∈ l.flatMap fun x => x.2.buffers, a ≠ b) ∧
            ∀ b, (b ∈ s.buffers ∨ b ∈ l.flatMap fun x => x.2.buffers) → w.Monitor b false := by
        constructor
        · rintro ⟨n1, n2⟩
          have hdis : ∀ a ∈ s.buffers, ∀ b ∈ l.flatMap fun x => x.2.buffers, a ≠ b := by
            rintro a ha b hb rfl
            have := (n2 a hb).unique (q1 a ha); cases this
          refine ⟨⟨a1, n1, hdis⟩, ?_⟩
          rintro b (hb | hb)
          · exact (p1 b false).mp (a2 b hb)
          · exact (p1 b false).mp ((q2 b false (fun h => hdis b h b hb rfl)).mp (n2 b hb))
        · rintro ⟨⟨_, n1, hdis⟩, n2⟩
          exact ⟨n1, fun b hb => (q2 b false (fun h => hdis b h b hb rfl)).mpr ((p1 b false).mpr (n2 b (Or.inr hb)))⟩
      have hrun : w.regulatorSettings ((r, s) :: l) = match w2.regulatorSettings l with
          | .ok (cs, w) => .ok (⟨s.low, s.high, r, s.buffers⟩ :: cs, w)
          | e => e := by
        simp only [Waiter.regulatorSettings]; rw [e1]; simp only; rw [e2]; simp only
        cases w2.regulatorSettings l <;> rfl
      rcases ih w2 hn.2 hu2 hm2 with ⟨n1, n2, w', e3⟩ | ⟨n, e3⟩
      · left
        obtain ⟨b1, b2⟩ := hiff.mp ⟨n1, n2⟩
        refine ⟨b1, b2, w', ?_⟩
        rw [hrun, e3]; rfl
      · right
        exact ⟨fun h => n (hiff.mpr h), by rw [hrun, e3]⟩
    · right
      refine ⟨?_, ?_⟩
      · rintro ⟨⟨n1, _⟩, n2⟩
        exact a ⟨n1, fun b hb => (p1 b false).mpr (n2 b (Or.inl hb))⟩
      · simp only [Waiter.regulatorSettings]; rw [e1]; simp only; rw [e2]

/-- **C47** Whatever the order: preparing the managers aborts if and only if a buffer is listed twice by managed regulators; otherwise there is exactly one manager for each
managed regulator, with its watermarks and buffers. -/
theorem C47_exactly {c : Config} {R : Map Hop} (hc : c.connection = hopSets R) (hn : c.regulator.keys.Nodup) {w : Waiter} (hw : getWaiter c = .ok w)
    {order : List (Str × Watch)} (hp : order.Perm w.settings) :
    (w.regulatorSettings order = .panic ↔ MonitoredTwice c (R.map (·.2))) ∧
    (¬ MonitoredTwice c (R.map (·.2)) → ∃ cs w', w.regulatorSettings order = .ok (cs, w') ∧ (cs.map Capture.regulator).Nodup ∧
      ∀ k, k ∈ cs ↔ ∃ rc, Managed c (R.map (·.2)) k.regulator rc k.low k.high ∧ k.buffers = rc.monitored) := by
  have hwd := C42_components c R hc hw
  obtain ⟨hsn, hset⟩ := settings_managed hc hn hw
  have hmem : ∀ r s, (r, s) ∈ order ↔ ∃ rc, Managed c (R.map (·.2)) r rc s.low s.high ∧ s.buffers = rc.monitored :=
    fun r s => hp.mem_iff.trans (hset r s)
  have hon : (order.map Prod.fst).Nodup := (hp.map Prod.fst).nodup_iff.mpr hsn
  have hu : ∀ x ∈ order, w.Uncontrolled x.1 := by
    rintro ⟨r, s⟩ hx
    obtain ⟨rc, ⟨_, _, hm, _⟩, _⟩ := (hmem r s).mp hx
    have := hwd.comps _ hm
    rw [expected_regulator _ _ _ _ rfl] at this
    exact ⟨_, _, this⟩
  have hfresh : ∀ x ∈ order, ∀ b ∈ x.2.buffers, w.Monitor b false := by
    rintro ⟨r, s⟩ hx b hb
    obtain ⟨rc, ⟨_, _, _, hm⟩, he⟩ := (hmem r s).mp hx
    have hb : b ∈ s.buffers := hb
    rw [he] at hb
    have := hwd.comps _ (hm b hb)
    rw [expected_buffer _ _ _ _ rfl] at this
    exact ⟨_, _, this⟩
  have hkey : (order.flatMap fun x => x.2.buffers).Nodup ↔ ¬ MonitoredTwice c (R.map (·.2)) := by
    rw [List.nodup_iff_pairwise_ne, List.flatMap_def, List.pairwise_flatten, List.pairwise_map]
    constructor
    · rintro ⟨h1, h2⟩ (⟨r, rc, lo, hi, hM, hnd⟩ | ⟨r, rc, lo, hi, r', rc', lo', hi', hne, hM, hM', b, hb, hb'⟩)
      · have hx : (r, (⟨lo, hi, rc.monitored⟩ : Watch)) ∈ order := (hmem _ _).mpr ⟨rc, hM, rfl⟩
        exact hnd (List.nodup_iff_pairwise_ne.mpr (h1 _ (List.mem_map.mpr ⟨_, hx, rfl⟩)))
      · have hx : (r, (⟨lo, hi, rc.monitored⟩ : Watch)) ∈ order := (hmem _ _).mpr ⟨rc, hM, rfl⟩
        have hx' : (r', (⟨lo', hi', rc'.monitored⟩ : Watch)) ∈ order := (hmem _ _).mpr ⟨rc', hM', rfl⟩
        obtain ⟨i, hi1, e⟩ := List.mem_iff_getElem.mp hx
        obtain ⟨j, hj1, e'⟩ := List.mem_iff_getElem.mp hx'
        rw [List.pairwise_iff_getElem] at h2
        rcases Nat.lt_trichotomy i j with q | q | q
        · exact h2 i j hi1 hj1 q b (by rw [e]; exact hb) b (by rw [e']; exact hb') rfl
        · subst q; rw [e] at e'; exact hne (Prod.mk.inj e').1
        · exact h2 j i hj1 hi1 q b (by rw [e']; exact hb') b (by rw [e]; exact hb) rfl
    · intro hno
      constructor
      · intro l hl
        obtain ⟨⟨r, s⟩, hx, rfl⟩ := List.mem_map.mp hl
        obtain ⟨rc, hM, he⟩ := (hmem r s).mp hx
        rw [← List.nodup_iff_pairwise_ne]
        apply Classical.byContradiction
        intro hnd
        simp only at hnd
        rw [he] at hnd
        exact hno (Or.inl ⟨r, rc, _, _, hM, hnd⟩)
      · rw [List.nodup_iff_pairwise_ne, List.pairwise_map] at hon
        refine List.Pairwise.imp_of_mem ?_ hon
        rintro ⟨r, s⟩ ⟨r', s'⟩ hx hx' hne b hb b' hb' rfl
        obtain ⟨rc, hM, he⟩ := (hmem r s).mp hx
        obtain ⟨rc', hM', he'⟩ := (hmem r' s').mp hx'
        have hb : b ∈ s.buffers := hb
        have hb' : b ∈ s'.buffers := hb'
        rw [he] at hb; rw [he'] at hb'
        exact hno (Or.inr ⟨r, rc, _, _, r', rc', _, _, hne, hM, hM', b, hb, hb'⟩)
  rcases regulatorSettings_spec order w hon hu (fun x hx b hb => ⟨_, hfresh x hx b hb⟩) with ⟨n1, _, w', e⟩ | ⟨n, e⟩
  · refine ⟨⟨fun h => (by rw [e] at h; cases h), fun h => absurd h (hkey.mp n1)⟩, fun _ => ⟨_, w', e, ?_, ?_⟩⟩
    · rw [List.map_map]; exact hon
    · rintro ⟨lo, hi, r, bs⟩
      rw [List.mem_map]
      constructor
      · rintro ⟨⟨r', s⟩, hx, he⟩
        cases he
        exact (hmem r' s).mp hx
      · intro h
        exact ⟨(r, ⟨lo, hi, bs⟩), (hmem _ _).mpr h, rfl⟩
  · have hM : MonitoredTwice c (R.map (·.2)) := by
      apply Classical.byContradiction
      intro hno
      refine n ⟨hkey.mpr hno, fun b hb => ?_⟩
      obtain ⟨x, hx, hb⟩ := List.mem_flatMap.mp hb
      exact hfresh x hx b hb
    exact ⟨⟨fun _ => hM, fun _ => e⟩, fun h => absurd hM h⟩

/-! ## Instances -/

/-- A regulator and a buffer in a row, twice. -/
def managedHops : Map Hop :=
  [("a_1".toList, ⟨⟨.regulator, "r".toList, .out⟩, none, ⟨.buffer, "b".toList⟩, ⟨.terminate, 0⟩, none⟩),
   ("b_1".toList, ⟨⟨.regulator, "s".toList, .out⟩, none, ⟨.buffer, "c".toList⟩, ⟨.terminate, 0⟩, none⟩)]

def managedConfig (r s : List Str) : Config where
  faucet := []
  drain := []
  regulator := [("r".toList, ⟨some (2, 5), r⟩), ("s".toList, ⟨some (1, 9), s⟩)]
  launch := []
  connection := hopSets managedHops

/-- What becomes of it: the captures, or `none` for an abort. -/
def managers (c : Config) : Option (List Capture) :=
  match getWaiter c with
  | .ok w => match w.regulatorSettings w.settings with
    | .ok (cs, _) => some cs
    | _ => none
  | _ => some []

example : managers (managedConfig ["b".toList] ["c".toList]) = some [⟨2, 5, "r".toList, ["b".toList]⟩, ⟨1, 9, "s".toList, ["c".toList]⟩] := by decide +kernel
-- both watch one buffer
example : managers (managedConfig ["b".toList] ["c".toList, "b".toList]) = none := by decide +kernel
-- one watches a buffer that is not used: it is not managed
example : managers (managedConfig ["b".toList, "x".toList] ["c".toList, "b".toList]) = some [⟨1, 9, "s".toList, ["c".toList, "b".toList]⟩] := by decide +kernel

end Verif
