import Verif.Lemmas.Loop
/-!
# Lemmas about `motion`
-/
namespace Verif

/-- Everything a worker receives comes from its input. -/
theorem worker_source {pull mon pushs spy doTry tr} {r : Except MErr WorkerResult}
    (h : MRuns (motionWorker pull mon pushs spy doTry) tr r) :
    ∀ s d, Act.got s d ∈ acts tr → pull.source = some s := by
  have rd : ∀ {t1 r}, MRuns (motionRead pull doTry) t1 r → ∀ s d, Act.got s d ∈ acts t1 → pull.source = some s := by
    intro t1 r h1 s d hm
    have := motionRead_runs h1
    cases r with
    | ok x =>
      cases x with
      | data d' => obtain ⟨s', hs, ha⟩ := this; rw [ha] at hm; simp at hm; rw [hs, hm.1]
      | finished => rcases this with ⟨_, ha⟩ | ⟨s', hs, ha⟩ <;> rw [ha] at hm <;> simp at hm
      | skipped => obtain ⟨s', hs, ha⟩ := this; rw [ha] at hm; simp at hm
    | error e =>
      cases e <;> simp [ReadSees] at this
      · obtain ⟨_, _, ha⟩ := this; rw [ha] at hm; simp at hm
      · rw [this] at hm; simp at hm
  have nr : ∀ {t r}, MRuns (notifyRead mon pull) t r → ∀ s d, Act.got s d ∉ acts t := by
    intro t r h1 s d hm
    rcases notifyRead_runs h1 with ⟨_, rfl, _⟩ | ⟨c, b, _, ha, _⟩
    · simp at hm
    · rw [ha] at hm; simp at hm
  have nw : ∀ {t r}, MRuns (notifyWritten mon pull) t r → ∀ s d, Act.got s d ∉ acts t := by
    intro t r h1 s d hm
    rcases notifyWritten_runs h1 with ⟨_, rfl, _⟩ | ⟨c, b, _, ha, _⟩
    · simp at hm
    · rw [ha] at hm; simp at hm
  have pq : ∀ {x t r}, MRuns (pushAll x spy pushs pushs.length) t r → ∀ s d, Act.got s d ∉ acts t := by
    intro x t r h1 s d hm
    have := pushAll_quiet h1 _ hm
    simp [Act.isQuiet] at this
  intro s d hm
  rcases motionWorker_inv h with ⟨e, rfl, h1⟩ | ⟨h1, hr⟩ | ⟨x, t1, t2, rfl, hx, h1, h2⟩
  · exact rd h1 s d hm
  · exact rd h1 s d hm
  · rw [acts_append, List.mem_append] at hm
    rcases hm with hm | hm
    · exact rd h1 s d hm
    · exfalso
      rcases h2 with ⟨e, h0, h3⟩ | ⟨t3, t4, rfl, h3, h4⟩
      · exact nr h3 s d hm
      · rw [acts_append, List.mem_append] at hm
        rcases hm with hm | hm
        · exact nr h3 s d hm
        · rcases h4 with ⟨e, h0, h5⟩ | ⟨m, t5, t6, rfl, h5, h6⟩
          · exact pq h5 s d hm
          · rw [acts_append, List.mem_append] at hm
            rcases hm with hm | hm
            · exact pq h5 s d hm
            · rcases h6 with ⟨e, h0, h7⟩ | ⟨h7, hr⟩ <;> exact nw h7 s d hm

theorem receivedFrom_eq {tr : List Ev} {s : End} (h : ∀ s' d, Act.got s' d ∈ acts tr → s' = s) :
    receivedFrom s tr = received tr := by
  unfold receivedFrom received
  revert h
  induction acts tr with
  | nil => simp
  | cons a l ih =>
    intro h
    have ih := ih (fun s' d hm => h s' d (List.mem_cons_of_mem _ hm))
    cases a <;> simp [List.filterMap_cons, ih]
    rename_i s' d
    simp [h s' d (by simp)]

/-- What ending a relay looks like. -/
def closeActs (push : Push) (mon : Notifications) : List Act :=
  (match push with | .none => [] | .sender _ c => [.close .data c] | .io _ h => [.flush h true]) ++
  (mon.read.map (Act.close .mon)).toList ++ (mon.written.map (Act.close .mon)).toList

theorem closeMon_runs {c : Option Nat} {tr : List Ev} {r : Except MErr Unit} (h : MRuns (closeMon c) tr r) :
    r = .ok () ∧ acts tr = (c.map (Act.close .mon)).toList := by
  cases c with
  | none => simp [closeMon] at h; simp [h]
  | some c =>
    obtain ⟨v, rfl, rfl⟩ := (mruns_ask (q := .close .mon c) (r := r)).mp h
    exact ⟨rfl, rfl⟩

theorem motionClose_runs {push : Push} {tr : List Ev} {r : Except MErr Unit} (h : MRuns (motionClose push) tr r) :
    (r = .ok () ∧ acts tr = closeActs push {}) ∨
    ∃ j hh, push = .io j hh ∧ r = .error (.closeIO j) ∧ acts tr = [.flush hh false] := by
  cases push with
  | none => simp [motionClose] at h; left; simp [h, closeActs]
  | sender j c =>
    obtain ⟨v, rfl, rfl⟩ := (mruns_ask (q := .close .data c) (r := r)).mp h
    exact Or.inl ⟨rfl, rfl⟩
  | io j hh =>
    unfold motionClose at h
    rw [mruns_bind] at h
    rcases h with ⟨e, _, h⟩ | ⟨t1, a, t2, rfl, h1, h2⟩
    · rw [mruns_ask] at h; obtain ⟨_, _, h⟩ := h; simp at h
    · rw [mruns_ask] at h1
      obtain ⟨v, rfl, hv⟩ := h1
      simp at hv; subst hv
      cases a with
      | true => simp at h2; obtain ⟨rfl, rfl⟩ := h2; exact Or.inl ⟨rfl, rfl⟩
      | false => simp at h2; obtain ⟨rfl, rfl⟩ := h2; exact Or.inr ⟨j, hh, rfl, rfl, rfl⟩

theorem motionBody_inv {pull mon spy push n tr x} (h : (motionBody pull mon spy push n).Runs tr x) :
    (∃ e, x = .inr (.error e) ∧ MRuns (motionWorker pull mon [push] spy false) tr (.error e)) ∨
    ∃ res t1 t2, tr = t1 ++ t2 ∧ MRuns (motionWorker pull mon [push] spy false) t1 (.ok res) ∧
      ((res.finished = false ∧ t2 = [] ∧ x = .inl (if res.read then n + 1 else n)) ∨
       (res.finished = true ∧
        ((acts t2 = closeActs push mon ∧ x = .inr (.ok (if res.read then n + 1 else n))) ∨
         ∃ j hh, push = .io j hh ∧ x = .inr (.error (.closeIO j)) ∧ acts t2 = [.flush hh false]))) := by
  unfold motionBody at h
  rw [Prog.runs_bind] at h
  obtain ⟨t1, r, t2, rfl, h1, h2⟩ := h
  have h2' : t2 = [] ∧ x = match (generalizing := false) r with | .ok (.inl n) => .inl n | .ok (.inr n) => .inr (.ok n) | .error e => .inr (.error e) := by
    rcases r with e | (m | m) <;> simpa using h2
  obtain ⟨rfl, rfl⟩ := h2'
  rw [List.append_nil]
  change MRuns _ t1 r at h1
  rw [mruns_bind] at h1
  rcases h1 with ⟨e, rfl, h1⟩ | ⟨t1, res, t2, rfl, h1, h3⟩
  · exact Or.inl ⟨e, rfl, h1⟩
  · right
    refine ⟨res, t1, t2, rfl, h1, ?_⟩
    dsimp only at h3
    split at h3
    · rename_i hf
      right
      refine ⟨hf, ?_⟩
      rw [mruns_bind] at h3
      have hca : ∀ {t r}, MRuns (closeAll [push]) t r → MRuns (motionClose push) t r := by
        intro t r hc
        simp only [closeAll] at hc
        rw [mruns_bind] at hc
        rcases hc with ⟨e, rfl, hc⟩ | ⟨u1, a, u2, rfl, hc, hc2⟩
        · exact hc
        · simp at hc2; obtain ⟨rfl, rfl⟩ := hc2
          simpa using hc
      rcases h3 with ⟨e, rfl, h3⟩ | ⟨t3, a, t4, rfl, h3, h4⟩
      · rcases motionClose_runs (hca h3) with ⟨h, _⟩ | ⟨j, hh, hp, he, hb⟩
        · simp at h
        · right
          simp at he; subst he
          exact ⟨j, hh, hp, rfl, hb⟩
      · left
        rcases motionClose_runs (hca h3) with ⟨_, hb⟩ | ⟨j, hh, hp, he, hb⟩
        · rw [mruns_bind] at h4
          rcases h4 with ⟨e, rfl, h4⟩ | ⟨t5, b, t6, rfl, h4, h5⟩
          · have := (closeMon_runs h4).1; simp at this
          · rw [mruns_bind] at h5
            rcases h5 with ⟨e, rfl, h5⟩ | ⟨t7, c, t8, rfl, h5, h6⟩
            · have := (closeMon_runs h5).1; simp at this
            · simp at h6
              obtain ⟨rfl, rfl⟩ := h6
              refine ⟨?_, rfl⟩
              rw [acts_append, acts_append, acts_append, hb, (closeMon_runs h4).2, (closeMon_runs h5).2]
              simp [closeActs]
        · simp at he
    · rename_i hf
      left
      simp at h3
      obtain ⟨rfl, rfl⟩ := h3
      exact ⟨by simpa using hf, rfl, rfl⟩

theorem closeActs_proj {push mon} {t : List Ev} (h : acts t = closeActs push mon) :
    heard t = 0 ∧ received t = [] ∧ offers t = [] ∧ (∀ c, notified c t = []) := by
  have : ∀ a ∈ acts t, (∃ k c, a = .close k c) ∨ ∃ hh b, a = .flush hh b := by
    rw [h]
    intro a ha
    unfold closeActs at ha
    simp at ha
    rcases ha with ha | ⟨c, _, rfl⟩ | ⟨c, _, rfl⟩
    · cases push <;> simp at ha
      · exact Or.inl ⟨_, _, ha⟩
      · exact Or.inr ⟨_, _, ha⟩
    · exact Or.inl ⟨_, _, rfl⟩
    · exact Or.inl ⟨_, _, rfl⟩
  have z : ∀ {β} (f : Act → Option β), (∀ k c, f (.close k c) = none) → (∀ hh b, f (.flush hh b) = none) →
      (acts t).filterMap f = [] := by
    intro β f h1 h2
    rw [List.filterMap_eq_nil_iff]
    intro a ha
    rcases this a ha with ⟨k, c, rfl⟩ | ⟨hh, b, rfl⟩
    · exact h1 _ _
    · exact h2 _ _
  have hr : received t = [] := z _ (by simp) (by simp)
  have he : endings t = 0 := by
    unfold endings
    rw [List.countP_eq_zero]
    intro a ha
    rcases this a ha with ⟨k, c, rfl⟩ | ⟨hh, b, rfl⟩ <;> simp
  exact ⟨by simp [heard, hr, he], hr, z _ (by simp) (by simp), fun c => z _ (by simp) (by simp)⟩

theorem flush_proj {t : List Ev} {hh b} (h : acts t = [.flush hh b]) :
    heard t = 0 ∧ received t = [] ∧ offers t = [] ∧ (∀ c, notified c t = []) ∧ closings t = [] := by
  simp [heard, received, offers, notified, endings, closings, h]

theorem rounds_seen {pull mon spy push n tr n'} (h : LoopRounds (motionBody pull mon spy push) n tr n')
    (hp : pull ≠ .none) (ha : mon.Apart) :
    ∃ k, n' = n + k ∧ (∀ s d, Act.got s d ∈ acts tr → pull.source = some s) ∧
      (∀ o ∈ offers tr, push.target = some o.to) ∧ closings tr = [] ∧ k = heard tr ∧ endings tr = 0 ∧
      (push.target.isSome = true → (offers tr).map Offer.d = received tr) ∧
      (push.target = none → offers tr = []) ∧
      (mon.read.isSome = true → pings mon.read tr = k) ∧ (mon.written.isSome = true → pings mon.written tr = k) ∧
      (∀ c, mon.read = some c → ∀ m ∈ notified c tr, m = .read 0) ∧
      (∀ c, mon.written = some c → ∀ m ∈ notified c tr, m = .wrote 0) := by
  induction h with
  | nil => exact ⟨0, by simp⟩
  | @next s s' s'' tr tr' hb _ ih =>
    obtain ⟨k, rfl, i1, i2, i3, i4, i5, i6, i7, i8, i9, i10, i11⟩ := ih
    rcases motionBody_inv hb with ⟨e, h0, _⟩ | ⟨res, t1, t2, rfl, hw, ⟨hf, rfl, hx⟩ | ⟨hf, ⟨_, hx⟩ | ⟨_, _, _, hx, _⟩⟩⟩
    · simp at h0
    · have rd := round_done hw hp ha
      simp [rd.read] at hx
      subst hx
      rw [List.append_nil]
      refine ⟨1 + k, by omega, ?_, ?_, by simp [rd.open_, i3], by simp [rd.heard_one, i4], by simp [rd.more hf, i5],
        ?_, ?_, ?_, ?_, ?_, ?_⟩
      · intro a d hm
        rw [acts_append, List.mem_append] at hm
        rcases hm with hm | hm
        · exact worker_source hw a d hm
        · exact i1 a d hm
      · intro o hm
        rw [offers_append, List.mem_append] at hm
        rcases hm with hm | hm
        · exact rd.target o hm
        · exact i2 o hm
      · intro hs; simp [rd.all_written hs, i6 hs]
      · intro hs
        rw [offers_append, i7 hs, List.append_nil]
        match ho : offers t1 with
        | [] => rfl
        | o :: _ => have := rd.target o (by simp [ho]); simp [hs] at this
      · intro hs; simp [rd.read_eq hs, i8 hs]
      · intro hs; simp [rd.written_eq hs, i9 hs]
      · intro c hc m hm
        rw [notified_append, List.mem_append] at hm
        rcases hm with hm | hm
        · exact rd.read_msgs c hc m hm
        · exact i10 c hc m hm
      · intro c hc m hm
        rw [notified_append, List.mem_append] at hm
        rcases hm with hm | hm
        · exact rd.written_msgs c hc m hm
        · exact i11 c hc m hm
    · simp at hx
    · simp at hx

end Verif
