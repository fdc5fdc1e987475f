import Verif.Lemmas.Worker
/-!
# Properties C05, C06, C08 (one message), C09: forwarding one message
-/
namespace Verif

private theorem read_quiet {pull : Pull} {A : List Act} {r} (h : ReadSees pull A r) :
    (A.filterMap fun | .offer t d w => some (Offer.mk t d w) | _ => none) = [] ∧
    (A.filterMap fun | .spy _ m _ => some m | _ => none) = [] := by
  cases r with
  | ok x =>
    cases x with
    | data d => obtain ⟨s, _, rfl⟩ := h; simp
    | finished => rcases h with ⟨_, rfl⟩ | ⟨s, _, rfl⟩ <;> simp
    | skipped => obtain ⟨s, _, rfl⟩ := h; simp
  | error e =>
    cases e <;> simp [ReadSees] at h
    · obtain ⟨_, _, rfl⟩ := h; simp
    · subst h; simp

private theorem read_received {pull : Pull} {tr : List Ev} {r} (h : ReadSees pull (acts tr) r) :
    received tr = match (generalizing := false) r with | .ok (.data d) => [d] | _ => [] := by
  unfold received
  cases r with
  | ok x =>
    cases x with
    | data d => obtain ⟨s, _, h⟩ := h; simp [h]
    | finished => rcases h with ⟨_, h⟩ | ⟨s, _, h⟩ <;> simp [h]
    | skipped => obtain ⟨s, _, h⟩ := h; simp [h]
  | error e =>
    cases e <;> simp [ReadSees] at h
    · obtain ⟨_, _, h⟩ := h; simp [h]
    · simp [h]

private theorem read_offers {pull t tr} {r : Except MErr IOW} (h : MRuns (motionRead pull t) tr r) : offers tr = [] :=
  (read_quiet (motionRead_runs h)).1
private theorem read_spied {pull t tr} {r : Except MErr IOW} (h : MRuns (motionRead pull t) tr r) : spied tr = [] :=
  (read_quiet (motionRead_runs h)).2

private theorem nr_proj {mon pull tr r} (h : MRuns (notifyRead mon pull) tr r) :
    offers tr = [] ∧ received tr = [] ∧ spied tr = [] := by
  rcases notifyRead_runs h with ⟨_, rfl, _⟩ | ⟨c, b, _, h, _⟩
  · simp [offers, received, spied]
  · simp [offers, received, spied, h]

private theorem nw_proj {mon pull tr r} (h : MRuns (notifyWritten mon pull) tr r) :
    offers tr = [] ∧ received tr = [] ∧ spied tr = [] := by
  rcases notifyWritten_runs h with ⟨_, rfl, _⟩ | ⟨c, b, _, h, _⟩
  · simp [offers, received, spied]
  · simp [offers, received, spied, h]

private theorem nr_err {mon pull tr e} (h : MRuns (notifyRead mon pull) tr (.error e)) :
    (∃ s, e = .monitorRead s) ∨ e = .panic := by
  rcases notifyRead_runs h with ⟨_, _, h⟩ | ⟨c, b, _, _, h⟩
  · simp at h
  · cases b <;> simp at h
    split at h <;> simp at h <;> simp [h]

private theorem nw_err {mon pull tr e} (h : MRuns (notifyWritten mon pull) tr (.error e)) :
    (∃ s, e = .monitorWrite s) ∨ e = .panic := by
  rcases notifyWritten_runs h with ⟨_, _, h⟩ | ⟨c, b, _, _, h⟩
  · simp at h
  · cases b <;> simp at h
    split at h <;> simp at h <;> simp [h]

/-- **C05.** One step of forwarding, whatever the responses: at most one message is received; without
one nothing is written; with message `d`, what is written is `d`, once to each connected output in
order, up to the whole list if the step succeeds; and if it fails for a write, the failing output is
the last one written to. -/
theorem C05_fan_out {pull mon pushs spy doTry tr} {r : Except MErr WorkerResult}
    (h : MRuns (motionWorker pull mon pushs spy doTry) tr r) :
    (received tr).length ≤ 1 ∧
    (received tr = [] → offers tr = []) ∧
    (∀ d, received tr = [d] →
      (offers tr).map (fun o => (o.to, o.d)) <+: (pushs.filterMap Push.target).map (fun t => (t, d)) ∧
      (∀ res, r = .ok res →
        (offers tr).map (fun o => (o.to, o.d)) = (pushs.filterMap Push.target).map (fun t => (t, d))) ∧
      (∀ j why d', r = .error (.outputClosed j why d') →
        d' = d ∧ ∃ O p t, p ∈ pushs ∧ p.journey = some j ∧ p.target = some t ∧ offers tr = O ++ [⟨t, d, .closed why⟩]) ∧
      (∀ j e d', r = .error (.writeIO j e d') →
        d' = d ∧ ∃ O p t, p ∈ pushs ∧ p.journey = some j ∧ p.target = some t ∧ offers tr = O ++ [⟨t, d, .other e⟩])) := by
  have hmem : ∀ {ps : List Push} {ws : List WOut} {p w}, w ≠ WOut.ok → (p, w) ∈ outcomes ps ws → p ∈ ps := by
    intro ps
    induction ps with
    | nil => simp [outcomes]
    | cons q ps ih =>
      intro ws p w hw hm
      cases q with
      | none =>
        simp [outcomes] at hm
        rcases hm with ⟨rfl, rfl⟩ | hm
        · simp
        · simp [ih hw hm]
      | sender =>
        cases ws with
        | nil => simp [outcomes] at hm
        | cons => simp [outcomes] at hm; rcases hm with ⟨rfl, rfl⟩ | hm
                  · simp
                  · simp [ih hw hm]
      | io =>
        cases ws with
        | nil => simp [outcomes] at hm
        | cons => simp [outcomes] at hm; rcases hm with ⟨rfl, rfl⟩ | hm
                  · simp
                  · simp [ih hw hm]
  rcases motionWorker_inv h with ⟨e, rfl, h1⟩ | ⟨h1, rfl⟩ | ⟨x, t1, t2, rfl, hx, h1, h2⟩
  · have := read_received (motionRead_runs h1)
    simp at this
    simp [this, read_offers h1]
  · have := read_received (motionRead_runs h1)
    simp at this
    simp [this, read_offers h1]
  · have hrd := read_received (motionRead_runs h1)
    have ho1 := read_offers h1
    cases x with
    | skipped => simp at hx
    | finished =>
      simp at hrd
      rcases h2 with ⟨e, rfl, h3⟩ | ⟨t3, t4, rfl, h3, h4⟩
      · simp [hrd, ho1, nr_proj h3]
      · rcases h4 with ⟨e, rfl, h5⟩ | ⟨m, t5, t6, rfl, h5, h6⟩
        · have := pushAll_nodata (by simp) h5
          simp [hrd, ho1, nr_proj h3, this.1, quiet_received (pushAll_quiet h5)]
        · have := pushAll_nodata (by simp) h5
          rcases h6 with ⟨e, rfl, h7⟩ | ⟨h7, rfl⟩
          · simp [hrd, ho1, nr_proj h3, this.1, quiet_received (pushAll_quiet h5), nw_proj h7]
          · simp [hrd, ho1, nr_proj h3, this.1, quiet_received (pushAll_quiet h5), nw_proj h7]
    | data d =>
      simp at hrd
      rcases h2 with ⟨e, rfl, h3⟩ | ⟨t3, t4, rfl, h3, h4⟩
      · simp [hrd, ho1, nr_proj h3]
        rcases nr_err h3 with ⟨s, rfl⟩ | rfl <;> simp
      · rcases h4 with ⟨e, rfl, h5⟩ | ⟨m, t5, t6, rfl, h5, h6⟩
        · obtain ⟨i1, i2, i3⟩ := pushAll_data (Nat.le_refl _) h5
          simp only [received_append, hrd, nr_proj h3, quiet_received (pushAll_quiet h5), offers_append, ho1,
            List.nil_append, List.append_nil]
          refine ⟨by simp, by simp, ?_⟩
          intro d' hd
          simp at hd; subst hd
          refine ⟨i1, by simp, ?_, ?_⟩
          · intro j why d' he
            simp at he; subst he
            cases i2 with
            | closed a b c t o u => exact ⟨rfl, _, _, _, hmem (by simp) a, c, t, o⟩
          · intro j e' d' he
            simp at he; subst he
            cases i2 with
            | other a b t o u => exact ⟨rfl, _, _, _, hmem (by simp) a, b, t, o⟩
        · obtain ⟨i1, i2, i3, i4, i5⟩ := pushAll_data (Nat.le_refl _) h5
          rcases h6 with ⟨e, rfl, h7⟩ | ⟨h7, rfl⟩
          · simp only [received_append, hrd, nr_proj h3, quiet_received (pushAll_quiet h5), offers_append, ho1,
              List.nil_append, List.append_nil, nw_proj h7]
            refine ⟨by simp, by simp, ?_⟩
            intro d' hd
            simp at hd; subst hd
            rw [i1]
            refine ⟨by simp [targets], by simp, ?_, ?_⟩
            · rcases nw_err h7 with ⟨s, rfl⟩ | rfl <;> simp
            · rcases nw_err h7 with ⟨s, rfl⟩ | rfl <;> simp
          · simp only [received_append, hrd, nr_proj h3, quiet_received (pushAll_quiet h5), offers_append, ho1,
              List.nil_append, List.append_nil, nw_proj h7]
            refine ⟨by simp, by simp, ?_⟩
            intro d' hd
            simp at hd; subst hd
            rw [i1]
            refine ⟨by simp [targets], by simp [targets], by simp, by simp⟩

/-- A run with a message and two outputs, the second of which (variation F) is closed. -/
example : MRuns (motionWorker (.receiver ⟨0, 1⟩ 0) {} [.sender ⟨1, some .out, 2, .terminate⟩ 1, .sender ⟨1, some .out, 3, .finish⟩ 2] none false)
    [⟨.recv .data 0, some [97]⟩, ⟨.send .data 1 [97], true⟩, ⟨.send .data 2 [97], false⟩]
    (.ok ⟨false, true⟩) := by
  refine ⟨some [97], _, rfl, true, _, rfl, false, _, rfl, rfl, rfl⟩

/-- **C06.** What closed receivers do. Let a message be received and let `L` list the outputs written
to with the outcomes. The step fails with "output closed" iff some output of variation T is found
closed; it fails with a write error iff some write fails otherwise; and if it succeeds, all outputs
were written to, and the sender is told to stop iff every output is of variation F and closed. -/
theorem C06_pipe_variations {pull mon pushs spy doTry tr} {r : Except MErr WorkerResult}
    (h : MRuns (motionWorker pull mon pushs spy doTry) tr r) (d : Bytes) (hd : received tr = [d])
    (L : List (Push × WOut)) (hL : L = outcomes pushs ((offers tr).map Offer.w)) :
    ((∃ j why, r = .error (.outputClosed j why d)) ↔
      ∃ p why, (p, .closed why) ∈ L ∧ p.breakable = .terminate) ∧
    ((∃ j e, r = .error (.writeIO j e d)) ↔ ∃ p e, (p, .other e) ∈ L) ∧
    (∀ res, r = .ok res →
      L.map Prod.fst = pushs ∧ res.read = true ∧
      (res.finished = true ↔ ∀ y ∈ L, y.1.breakable = .finish ∧ ∃ why, y.2 = .closed why)) := by
  have hlen : ∀ {ps : List Push} {ws : List WOut}, (outcomes ps ws).length = ps.length → (outcomes ps ws).map Prod.fst = ps := by
    intro ps
    induction ps with
    | nil => simp [outcomes]
    | cons q ps ih =>
      intro ws hl
      cases q with
      | none => simp [outcomes] at hl ⊢; exact ih hl
      | sender => cases ws <;> simp [outcomes] at hl ⊢; exact ih hl
      | io => cases ws <;> simp [outcomes] at hl ⊢; exact ih hl
  rcases motionWorker_inv h with ⟨e, rfl, h1⟩ | ⟨h1, rfl⟩ | ⟨x, t1, t2, rfl, hx, h1, h2⟩
  · have := read_received (motionRead_runs h1); rw [hd] at this; simp at this
  · have := read_received (motionRead_runs h1); rw [hd] at this; simp at this
  · have hrd := read_received (motionRead_runs h1)
    have ho1 := read_offers h1
    cases x with
    | skipped => simp at hx
    | finished =>
      exfalso
      simp at hrd
      rcases h2 with ⟨e, rfl, h3⟩ | ⟨t3, t4, rfl, h3, h4⟩
      · simp [hrd, nr_proj h3] at hd
      · rcases h4 with ⟨e, rfl, h5⟩ | ⟨m, t5, t6, rfl, h5, h6⟩
        · simp [hrd, nr_proj h3, quiet_received (pushAll_quiet h5)] at hd
        · rcases h6 with ⟨e, rfl, h7⟩ | ⟨h7, rfl⟩ <;>
            simp [hrd, nr_proj h3, quiet_received (pushAll_quiet h5), nw_proj h7] at hd
    | data d' =>
      have hdd : d' = d := by
        have : received t1 <+: received (t1 ++ t2) := by simp
        rw [hd, hrd] at this
        simpa using this
      subst hdd
      rcases h2 with ⟨e, rfl, h3⟩ | ⟨t3, t4, rfl, h3, h4⟩
      · have hL' : ∀ y ∈ L, y = (.none, .ok) := by
          rw [hL]; simp only [offers_append, ho1, nr_proj h3]; exact fun y hy => outcomes_nil_mem hy
        rcases nr_err h3 with ⟨s, rfl⟩ | rfl
        · refine ⟨⟨by simp, ?_⟩, ⟨by simp, ?_⟩, by simp⟩
          · rintro ⟨p, why, hm, _⟩; simpa using hL' _ hm
          · rintro ⟨p, e, hm⟩; simpa using hL' _ hm
        · refine ⟨⟨by simp, ?_⟩, ⟨by simp, ?_⟩, by simp⟩
          · rintro ⟨p, why, hm, _⟩; simpa using hL' _ hm
          · rintro ⟨p, e, hm⟩; simpa using hL' _ hm
      · have hsplit : (∃ e t5, r = .error e ∧ MRuns (pushAll (.data d') spy pushs pushs.length) t5 (.error e) ∧ offers (t1 ++ (t3 ++ t4)) = offers t5) ∨
            (∃ m t5, MRuns (pushAll (.data d') spy pushs pushs.length) t5 (.ok m) ∧ offers (t1 ++ (t3 ++ t4)) = offers t5 ∧
              ((∃ e, r = .error e ∧ ((∃ s, e = .monitorWrite s) ∨ e = .panic)) ∨ r = .ok ⟨decide (m = 0), true⟩)) := by
          rcases h4 with ⟨e, rfl, h5⟩ | ⟨m, t5, t6, rfl, h5, h6⟩
          · left; exact ⟨e, t4, rfl, h5, by simp [ho1, nr_proj h3]⟩
          · right
            refine ⟨m, t5, h5, ?_⟩
            rcases h6 with ⟨e, rfl, h7⟩ | ⟨h7, rfl⟩
            · exact ⟨by simp [ho1, nr_proj h3, nw_proj h7], Or.inl ⟨e, rfl, nw_err h7⟩⟩
            · exact ⟨by simp [ho1, nr_proj h3, nw_proj h7], Or.inr (by simp)⟩
        rcases hsplit with ⟨e, t5, rfl, h5, ho⟩ | ⟨m, t5, h5, ho, hr⟩
        · obtain ⟨i1, i2, i3⟩ := pushAll_data (Nat.le_refl _) h5
          rw [ho] at hL
          rw [← hL] at i2
          refine ⟨⟨?_, ?_⟩, ⟨?_, ?_⟩, by simp⟩
          · rintro ⟨j, why, he⟩
            simp at he; subst he
            cases i2 with
            | closed a b c t o u => exact ⟨_, _, a, b⟩
          · rintro ⟨p, why, hm, hb⟩
            have hf : fatal (p, .closed why) := Or.inl ⟨why, rfl, hb⟩
            cases i2 with
            | closed a b c t o u => exact ⟨_, _, rfl⟩
            | other a b t o u => have := u _ hm hf; simp at this
            | spy a b => exact absurd hf (b _ hm)
          · rintro ⟨j, c, he⟩
            simp at he; subst he
            cases i2 with
            | other a b t o u => exact ⟨_, _, a⟩
          · rintro ⟨p, c, hm⟩
            have hf : fatal (p, .other c) := Or.inr ⟨c, rfl⟩
            cases i2 with
            | closed a b _ t o u => have := u _ hm hf; simp at this
            | other a b t o u => exact ⟨_, _, rfl⟩
            | spy a b => exact absurd hf (b _ hm)
        · obtain ⟨i1, i2, i3, i4, i5⟩ := pushAll_data (Nat.le_refl _) h5
          rw [ho] at hL
          rw [← hL] at i2 i3 i4
          have hno : ¬ (∃ p why, (p, WOut.closed why) ∈ L ∧ p.breakable = .terminate) := by
            rintro ⟨p, why, hm, hb⟩; exact i3 _ hm (Or.inl ⟨why, rfl, hb⟩)
          have hno2 : ¬ (∃ p c, (p, WOut.other c) ∈ L) := by
            rintro ⟨p, c, hm⟩; exact i3 _ hm (Or.inr ⟨c, rfl⟩)
          rcases hr with ⟨e, rfl, he⟩ | rfl
          · simp only [hno, hno2, iff_false]
            rcases he with ⟨s, rfl⟩ | rfl <;> simp
          · simp only [hno, hno2, iff_false]
            refine ⟨by simp, by simp, ?_⟩
            rintro res hres
            simp at hres
            subst hres
            refine ⟨by rw [hL]; exact hlen (by rw [← hL]; exact i2), rfl, ?_⟩
            simp only [decide_eq_true_eq]
            have : m = 0 ↔ ∀ y ∈ L, isFC y = true := by
              rw [← List.countP_eq_length]; omega
            rw [this]
            constructor
            · intro hall y hy
              have := hall y hy
              unfold isFC at this
              split at this
              · rename_i why hw; exact ⟨by simpa using this, why, hw⟩
              · simp at this
            · intro hall y hy
              obtain ⟨a, why, b⟩ := hall y hy
              simp [isFC, b, a]

/-- **C06**, end of input and nothing to read: the step reports so, and writes nothing. -/
theorem C06_no_message {pull mon pushs spy doTry tr} {res : WorkerResult}
    (h : MRuns (motionWorker pull mon pushs spy doTry) tr (.ok res)) (hd : received tr = []) :
    (res = ⟨true, true⟩ ∧ (endings tr = 1 ∨ pull = .none)) ∨
    (res = ⟨false, false⟩ ∧ ∃ s, acts tr = [.empty s]) := by
  rcases motionWorker_inv h with ⟨e, h0, h1⟩ | ⟨h1, hr⟩ | ⟨x, t1, t2, rfl, hx, h1, h2⟩
  · simp at h0
  · simp at hr; subst hr
    right
    obtain ⟨s, _, hs⟩ := motionRead_runs h1
    exact ⟨rfl, s, hs⟩
  · have hrd := read_received (motionRead_runs h1)
    cases x with
    | skipped => simp at hx
    | data d => simp [hrd] at hd
    | finished =>
      left
      rcases h2 with ⟨e, h0, h3⟩ | ⟨t3, t4, rfl, h3, h4⟩
      · simp at h0
      · rcases h4 with ⟨e, h0, h5⟩ | ⟨m, t5, t6, rfl, h5, h6⟩
        · simp at h0
        · rcases h6 with ⟨e, h0, h7⟩ | ⟨h7, hr⟩
          · simp at h0
          · simp at hr; subst hr
            refine ⟨rfl, ?_⟩
            have e3 : endings t3 = 0 := by
              rcases notifyRead_runs h3 with ⟨_, rfl, _⟩ | ⟨c, b, _, h, _⟩
              · rfl
              · simp [endings, h]
            have e6 : endings t6 = 0 := by
              rcases notifyWritten_runs h7 with ⟨_, rfl, _⟩ | ⟨c, b, _, h, _⟩
              · rfl
              · simp [endings, h]
            rcases motionRead_runs h1 with ⟨h, _⟩ | ⟨s, _, h⟩
            · right; exact h
            · left; simp [e3, e6, quiet_endings (pushAll_quiet h5)]; simp [endings, h]

example : MRuns (motionWorker (.receiver ⟨0, 1⟩ 0) {} [.sender ⟨1, some .out, 2, .consume⟩ 1] none true)
    [⟨.tryRecv .data 0, .closed⟩] (.ok ⟨true, true⟩) :=
  ⟨.closed, _, rfl, rfl, rfl⟩

/-- The spy record a pipe calls for: its source, destination and port, when it has a port. -/
def expectedSpy (x : IOW) (p : Push) : Option SpyMsg :=
  match p.journey with
  | some j => j.srcPort.map fun port => ⟨j.src, j.dst, port, x⟩
  | none => none

/-- **C09.** In a successful step that received something (a message or the end of the input), the
spy, if there is one, gets exactly one record per output with a port, in order. -/
theorem C09_spies {pull mon pushs spy doTry tr} {res : WorkerResult}
    (h : MRuns (motionWorker pull mon pushs spy doTry) tr (.ok res)) :
    (res.read = false → spied tr = []) ∧
    (res.read = true → ∃ x, (∀ d, received tr = [d] → x = .data d) ∧ (received tr = [] → x = .finished) ∧
      spied tr = if spy.isSome then pushs.filterMap (expectedSpy x) else []) := by
  have hrec : ∀ x, spyRecord x = expectedSpy x := by
    intro x; funext p
    unfold spyRecord expectedSpy
    split
    · rename_i hj; simp [hj]
    · rename_i hj
      cases hp : p.journey with
      | none => rfl
      | some j =>
        obtain ⟨s, o, dst, b⟩ := j
        cases o with
        | none => rfl
        | some port => exact absurd hp (hj s port dst b)
  rcases motionWorker_inv h with ⟨e, h0, h1⟩ | ⟨h1, hr⟩ | ⟨x, t1, t2, rfl, hx, h1, h2⟩
  · simp at h0
  · simp at hr; subst hr
    exact ⟨fun _ => read_spied h1, by simp⟩
  · have hrd := read_received (motionRead_runs h1)
    rcases h2 with ⟨e, h0, h3⟩ | ⟨t3, t4, rfl, h3, h4⟩
    · simp at h0
    · rcases h4 with ⟨e, h0, h5⟩ | ⟨m, t5, t6, rfl, h5, h6⟩
      · simp at h0
      · rcases h6 with ⟨e, h0, h7⟩ | ⟨h7, hr⟩
        · simp at h0
        · simp at hr; subst hr
          refine ⟨by simp, fun _ => ⟨x, ?_, ?_, ?_⟩⟩
          · intro d hd
            simp [hrd, nr_proj h3, quiet_received (pushAll_quiet h5), nw_proj h7] at hd
            cases x <;> simp at hd
            subst hd; rfl
          · intro hd
            simp [hrd, nr_proj h3, quiet_received (pushAll_quiet h5), nw_proj h7] at hd
            cases x <;> simp at hd hx ⊢
          · simp only [spied_append, read_spied h1, nr_proj h3, nw_proj h7, List.nil_append, List.append_nil]
            rw [← hrec]
            cases x with
            | data d => exact (pushAll_data (Nat.le_refl _) h5).2.2.2.2
            | finished => exact (pushAll_nodata (by simp) h5).2.2
            | skipped => simp at hx

example : MRuns (motionWorker (.receiver ⟨0, 1⟩ 0) {} [.sender ⟨1, some .out, 2, .consume⟩ 1] (some 9) true)
    [⟨.tryRecv .data 0, .got [97]⟩, ⟨.send .data 1 [97], true⟩, ⟨.send .spy 9 ⟨1, 2, .out, .data [97]⟩, true⟩] (.ok ⟨false, true⟩) :=
  ⟨.got [97], _, rfl, true, _, rfl, true, _, rfl, rfl, rfl⟩

end Verif
