import Verif.Lemmas.JunctionRuns
import Verif.Props.Worker
/-!
# What single polls and passes of a junction look like
-/
namespace Verif

/-- A message for each output. -/
def toEach (pushs : List Push) (d : Bytes) : List (End × Bytes) := (pushs.filterMap Push.target).map (fun t => (t, d))

theorem poll_shape {pushs spy} {w : Poll} (h : PollRun pushs spy w) :
    (∃ s, w.pull.source = some s ∧ acts w.tr = [.empty s] ∧ w.res = .ok ⟨false, false⟩) ∨
    (∃ s d rest, w.pull.source = some s ∧ acts w.tr = .got s d :: rest ∧ (∀ a ∈ rest, a.isQuiet = false) ∧
      (w.isOk = true → w.isRead = true)) ∨
    (∃ s rest, w.pull.source = some s ∧ acts w.tr = .ended s :: rest ∧ (∀ a ∈ rest, a.isQuiet = false) ∧
      (w.isOk = true → w.res = .ok ⟨true, true⟩)) ∨
    (w.tr = [] ∧ w.isOk = false) := by
  unfold PollRun at h
  have rd : ∀ {t r}, MRuns (motionRead w.pull true) t r →
      (r = .error .panic ∧ t = []) ∨ (∃ s, w.pull.source = some s ∧
        ((∃ d, r = .ok (.data d) ∧ acts t = [.got s d]) ∨ (r = .ok .finished ∧ acts t = [.ended s]) ∨
         (r = .ok .skipped ∧ acts t = [.empty s]))) := by
    intro t r hr
    have hs := motionRead_runs hr
    unfold motionRead at hr
    split at hr
    · simp_all
    · simp_all
    · rename_i j c hpull _
      right
      refine ⟨.chan c, by simp [hpull, Pull.source], ?_⟩
      cases r with
      | ok x =>
        cases x with
        | data d => obtain ⟨s, hs1, hs2⟩ := hs; simp [hpull, Pull.source] at hs1; subst hs1; left; exact ⟨d, rfl, hs2⟩
        | finished =>
          rcases hs with ⟨h0, _⟩ | ⟨s, hs1, hs2⟩
          · rw [hpull] at h0; simp at h0
          · simp [hpull, Pull.source] at hs1; subst hs1; right; left; exact ⟨rfl, hs2⟩
        | skipped => obtain ⟨s, hs1, hs2⟩ := hs; simp [hpull, Pull.source] at hs1; subst hs1; right; right; exact ⟨rfl, hs2⟩
      | error e =>
        exfalso
        rw [mruns_bind] at hr
        rcases hr with ⟨e, _, h⟩ | ⟨t1, a, t2, rfl, h1, h2⟩
        · rw [mruns_ask] at h; obtain ⟨_, _, h⟩ := h; simp at h
        · cases a <;> simp at h2
    · simp_all
    · simp at hr; left; exact ⟨hr.2, hr.1⟩
    · simp at hr; left; exact ⟨hr.2, hr.1⟩
  have nr0 : ∀ {t r}, MRuns (notifyRead {} w.pull) t r → t = [] ∧ r = .ok () := by
    intro t r hr; simpa [notifyRead] using hr
  have nw0 : ∀ {t r}, MRuns (notifyWritten {} w.pull) t r → t = [] ∧ r = .ok () := by
    intro t r hr; simpa [notifyWritten] using hr
  rcases motionWorker_inv h with ⟨e, hr, h1⟩ | ⟨h1, hr⟩ | ⟨x, t1, t2, ht, hx, h1, h2⟩
  · rcases rd h1 with ⟨_, h0⟩ | ⟨s, _, h0⟩
    · right; right; right; exact ⟨h0, by simp [Poll.isOk, hr]⟩
    · rcases h0 with ⟨d, h0, _⟩ | ⟨h0, _⟩ | ⟨h0, _⟩ <;> simp at h0
  · rcases rd h1 with ⟨h0, _⟩ | ⟨s, hs, h0⟩
    · simp at h0
    · rcases h0 with ⟨d, h0, _⟩ | ⟨h0, _⟩ | ⟨h0, ha⟩
      · simp at h0
      · simp at h0
      · left; exact ⟨s, hs, ha, hr⟩
  · rcases rd h1 with ⟨h0, _⟩ | ⟨s, hs, h0⟩
    · simp at h0
    · have rest : ∀ a ∈ acts t2, a.isQuiet = false := by
        rcases h2 with ⟨e, _, h3⟩ | ⟨t3, t4, rfl, h3, h4⟩
        · obtain ⟨rfl, _⟩ := nr0 h3; simp
        · obtain ⟨rfl, _⟩ := nr0 h3
          rcases h4 with ⟨e, _, h5⟩ | ⟨m, t5, t6, rfl, h5, h6⟩
          · simpa using pushAll_quiet h5
          · rcases h6 with ⟨e, _, h7⟩ | ⟨h7, _⟩
            · obtain ⟨rfl, _⟩ := nw0 h7; simpa using pushAll_quiet h5
            · obtain ⟨rfl, _⟩ := nw0 h7; simpa using pushAll_quiet h5
      have hread : w.isOk = true → ∃ m : Nat, w.res = .ok ⟨decide (m = 0) || decide (x = .finished), true⟩ := by
        intro hok
        unfold Poll.isOk at hok
        split at hok
        · rename_i y hy
          rw [hy] at h2
          rcases h2 with ⟨e, h0, _⟩ | ⟨_, _, _, _, h4⟩
          · simp at h0
          · rcases h4 with ⟨e, h0, _⟩ | ⟨m, _, _, _, _, h6⟩
            · simp at h0
            · rcases h6 with ⟨e, h0, _⟩ | ⟨_, h0⟩
              · simp at h0
              · exact ⟨m, by rw [hy, h0]⟩
        · simp at hok
      rcases h0 with ⟨d, h0, ha⟩ | ⟨h0, ha⟩ | ⟨h0, _⟩
      · right; left
        refine ⟨s, d, acts t2, hs, by rw [ht, acts_append, ha]; rfl, rest, ?_⟩
        intro hok
        obtain ⟨m, hm⟩ := hread hok
        simp [Poll.isRead, hm]
      · right; right; left
        refine ⟨s, acts t2, hs, by rw [ht, acts_append, ha]; rfl, rest, ?_⟩
        intro hok
        obtain ⟨m, hm⟩ := hread hok
        simp at h0; subst h0
        simp [hm]
      · simp at h0; exact absurd h0 hx

theorem mem_received {tr : List Ev} {d : Bytes} (h : d ∈ received tr) : ∃ s, Act.got s d ∈ acts tr := by
  unfold received at h
  rw [List.mem_filterMap] at h
  obtain ⟨a, ha, h⟩ := h
  cases a <;> simp at h
  subst h
  exact ⟨_, ha⟩

theorem poll_prefix {pushs spy} {w : Poll} (h : PollRun pushs spy w) {u : List Ev} (hu : u <+: w.tr) :
    (offers u).map (fun o => (o.to, o.d)) <+: (received u).flatMap (toEach pushs) ∧ (received u).length ≤ 1 := by
  obtain ⟨c1, c2, c3⟩ := C05_fan_out h
  have hpre : received u <+: received w.tr := by obtain ⟨v, hv⟩ := hu; rw [← hv]; simp
  refine ⟨?_, by have := hpre.length_le; omega⟩
  match hr : received w.tr with
  | [] =>
    have : offers u <+: offers w.tr := offers_prefix hu
    rw [c2 hr] at this
    simp at this
    simp [this]
  | [d] =>
    obtain ⟨c4, _⟩ := c3 d hr
    cases u with
    | nil => simp
    | cons e u =>
      have hru : received (e :: u) = [d] := by
        rcases poll_shape h with ⟨s, _, ha, _⟩ | ⟨s, d', rest, _, ha, hq, _⟩ | ⟨s, rest, _, ha, hq, _⟩ | ⟨ha, _⟩
        · simp [received, ha] at hr
        · obtain ⟨v, hv⟩ := hu
          have : act e = .got s d' := by
            have := congrArg acts hv
            rw [ha] at this
            simp at this
            exact this.1
          have hd : d' = d := by
            unfold received at hr
            rw [ha] at hr
            simp at hr
            exact hr.1
          rw [hr] at hpre
          have hmem : (received (e :: u)) ≠ [] := by simp [received, this]
          rcases prefix_singleton hpre with h | h
          · exact absurd h hmem
          · exact h
        · obtain ⟨s', hm⟩ := mem_received (tr := w.tr) (d := d) (by simp [hr])
          rw [ha] at hm
          simp at hm
          have := hq _ hm
          simp [Act.isQuiet] at this
        · rw [ha] at hr; simp at hr
      rw [hru]
      have := (offers_prefix hu).map (fun o => (o.to, o.d))
      refine this.trans ?_
      simpa [toEach] using c4
  | _ :: _ :: _ => rw [hr] at c1; simp at c1

theorem poll_ok {pushs spy} {w : Poll} (h : PollRun pushs spy w) (hok : w.isOk = true) :
    (offers w.tr).map (fun o => (o.to, o.d)) = (received w.tr).flatMap (toEach pushs) := by
  obtain ⟨c1, c2, c3⟩ := C05_fan_out h
  have hres : ∃ x, w.res = .ok x := by
    unfold Poll.isOk at hok; split at hok
    · exact ⟨_, by assumption⟩
    · simp at hok
  obtain ⟨x, hx⟩ := hres
  match hr : received w.tr with
  | [] => simp [c2 hr]
  | [d] =>
    obtain ⟨_, c4, _⟩ := c3 d hr
    rw [c4 x hx]; simp [toEach]
  | _ :: _ :: _ => rw [hr] at c1; simp at c1

theorem pollTrace_prefix {ws : List Poll} {t : List Ev} (h : t <+: pollTrace ws) :
    ∃ ws' u, ws' <+: ws ∧ t = pollTrace ws' ++ u ∧ (u = [] ∨ ∃ w, ws' ++ [w] <+: ws ∧ u <+: w.tr) := by
  induction ws generalizing t with
  | nil => simp at h; subst h; exact ⟨[], [], by simp, rfl, Or.inl rfl⟩
  | cons w ws ih =>
    rw [pollTrace_cons] at h
    rcases prefix_append_cases h with h | ⟨v, rfl, hv⟩
    · exact ⟨[], t, by simp, rfl, Or.inr ⟨w, by simp, h⟩⟩
    · obtain ⟨ws', u, h1, rfl, h3⟩ := ih hv
      refine ⟨w :: ws', u, by simpa using h1, by simp, ?_⟩
      rcases h3 with h3 | ⟨v, h3, h4⟩
      · exact Or.inl h3
      · exact Or.inr ⟨v, by simpa using h3, h4⟩

/-- The end of a pass neither receives nor writes. -/
def Inert (t : List Ev) : Prop := ∀ a ∈ acts t, (∃ k c, a = .close k c) ∨ ∃ n, a = .sleep n

theorem Inert.proj {t : List Ev} (h : Inert t) : received t = [] ∧ offers t = [] ∧
    (∀ s, Act.ended s ∉ acts t) ∧ (∀ s d, Act.got s d ∉ acts t) ∧ (∀ s, Act.empty s ∉ acts t) ∧ endings t = 0 := by
  have z : ∀ {β} (f : Act → Option β), (∀ k c, f (.close k c) = none) → (∀ n, f (.sleep n) = none) →
      (acts t).filterMap f = [] := by
    intro β f h1 h2
    rw [List.filterMap_eq_nil_iff]
    intro a ha
    rcases h a ha with ⟨k, c, rfl⟩ | ⟨n, rfl⟩
    · exact h1 _ _
    · exact h2 _
  refine ⟨z _ (by simp) (by simp), z _ (by simp) (by simp), ?_, ?_, ?_, ?_⟩
  · intro s hm; rcases h _ hm with ⟨k, c, h⟩ | ⟨n, h⟩ <;> simp at h
  · intro s d hm; rcases h _ hm with ⟨k, c, h⟩ | ⟨n, h⟩ <;> simp at h
  · intro s hm; rcases h _ hm with ⟨k, c, h⟩ | ⟨n, h⟩ <;> simp at h
  · unfold endings
    rw [List.countP_eq_zero]
    intro a ha
    rcases h a ha with ⟨k, c, rfl⟩ | ⟨n, rfl⟩ <;> simp

theorem dropActs_close {p : Pull} {a} (h : a ∈ dropActs p) : ∃ k c, a = .close k c := by
  cases p <;> simp [dropActs] at h
  exact ⟨_, _, h⟩

theorem inert_of_tail {pushs s x} {tail : List Ev} {k ws2} (hs : AllSenders pushs)
    (h : RoundEnd pushs s k ws2 tail x) : Inert tail := by
  have fin : ∀ a ∈ finActs ws2, ∃ k c, a = Act.close k c := by
    intro a ha
    unfold finActs at ha
    rw [List.mem_flatMap] at ha
    obtain ⟨p, _, ha⟩ := ha
    exact dropActs_close ha
  rcases h with ⟨_, _, _, _, _, _, _, ha⟩ | ⟨_, _, ⟨_, _, _, _, _, ⟨_, ha, _⟩ | ⟨_, ha, _⟩⟩ | ⟨_, _, ha⟩⟩
  · intro a hm
    rw [ha, List.mem_flatMap] at hm
    obtain ⟨p, _, hm⟩ := hm
    exact Or.inl (dropActs_close hm)
  · intro a hm
    rw [ha] at hm
    simp at hm
    exact Or.inr ⟨_, hm⟩
  · intro a hm
    rw [ha] at hm
    exact Or.inl (fin a hm)
  · intro a hm
    rw [ha, List.mem_append] at hm
    rcases hm with hm | hm
    · exact Or.inl (fin a hm)
    · rw [List.mem_flatMap] at hm
      obtain ⟨p, hp, hm⟩ := hm
      obtain ⟨j, c, rfl⟩ := hs p hp
      simp [closeActs] at hm
      exact Or.inl ⟨_, _, hm⟩

end Verif
