import Verif.Lemmas.BufferTrees
/-!
# What each activity of a buffer contributes to the count
-/
namespace Verif

/-- Number of messages accepted by a channel. -/
abbrev nSent (k : Kind) (c : Nat) (tr : List Ev) : Nat := (sentOn k c tr).length
/-- Number of messages taken out of a channel. -/
abbrev nGot (k : Kind) (c : Nat) (tr : List Ev) : Nat := (gotOn k c tr).length

theorem sentOn_cons (k c) (e : Ev) (t : List Ev) : sentOn k c (e :: t) = (sentOf k c e).toList ++ sentOn k c t := by
  unfold sentOn; rw [List.filterMap_cons]; cases sentOf k c e <;> simp
theorem gotOn_cons (k c) (e : Ev) (t : List Ev) : gotOn k c (e :: t) = (gotOf k c e).toList ++ gotOn k c t := by
  unfold gotOn; rw [List.filterMap_cons]; cases gotOf k c e <;> simp
theorem closings_cons (e : Ev) (t : List Ev) : closings (e :: t) = closings [e] ++ closings t := by
  rw [← closings_append]; rfl
theorem heard_cons (e : Ev) (t : List Ev) : heard (e :: t) = heard [e] + heard t := by
  rw [← heard_append]; rfl
theorem closings_not_close {q : Req} {r : q.Resp} (h : ∀ k c, q ≠ .close k c) : closings [⟨q, r⟩] = [] := by
  cases q with
  | recv k c => cases k <;> cases r <;> rfl
  | tryRecv k c => cases k <;> cases r <;> rfl
  | send k c v => cases k <;> cases r <;> rfl
  | streamRead c => cases r <;> rfl
  | ioWrite c d => cases r <;> rfl
  | ioFlush c => cases r <;> rfl
  | close k c => exact absurd rfl (h k c)
  | stat k c => rfl
  | sleep n => rfl
  | status => rfl

theorem heard_recv (c : Nat) (r : Option Bytes) : heard [⟨.recv .data c, r⟩] = 1 := by cases r <;> rfl

theorem sentOn_drops {l : List (Kind × Nat)} {t : List Ev} (h : t <+: dropEvs l) (k : Kind) (c : Nat) : sentOn k c t = [] := by
  unfold sentOn
  rw [List.filterMap_eq_nil_iff]
  intro e he
  obtain ⟨k, c, _, rfl⟩ := mem_dropEvs h e he
  rfl
theorem gotOn_drops {l : List (Kind × Nat)} {t : List Ev} (h : t <+: dropEvs l) (k : Kind) (c : Nat) : gotOn k c t = [] := by
  unfold gotOn
  rw [List.filterMap_eq_nil_iff]
  intro e he
  obtain ⟨k, c, _, rfl⟩ := mem_dropEvs h e he
  rfl

theorem send_partial {α : Type} {k : Kind} {c : Nat} {v : k.Payload} {f : Bool → Prog α} {tr : List Ev}
    (h : (Prog.op (.send k c v) f).Partial tr) :
    tr = [] ∨ (∃ t, tr = ⟨.send k c v, true⟩ :: t ∧ (f true).Partial t) ∨ (∃ t, tr = ⟨.send k c v, false⟩ :: t ∧ (f false).Partial t) := by
  replace h := (Prog.partial_op _ _ _).mp h; rcases h with rfl | ⟨r, t, rfl, h⟩
  · exact Or.inl rfl
  · cases r
    · exact Or.inr (Or.inr ⟨t, rfl, h⟩)
    · exact Or.inr (Or.inl ⟨t, rfl, h⟩)

theorem send_runs {α : Type} {k : Kind} {c : Nat} {v : k.Payload} {f : Bool → Prog α} {tr : List Ev} {x : α}
    (h : (Prog.op (.send k c v) f).Runs tr x) :
    (∃ t, tr = ⟨.send k c v, true⟩ :: t ∧ (f true).Runs t x) ∨ (∃ t, tr = ⟨.send k c v, false⟩ :: t ∧ (f false).Runs t x) := by
  obtain ⟨r, t, rfl, h⟩ := h
  cases r
  · exact Or.inr ⟨t, rfl, h⟩
  · exact Or.inl ⟨t, rfl, h⟩

/-! ### The input half -/

section
variable {ch : BufferChans} {j : PullJourney} {b : Breakable} {n : Nat} {tr : List Ev}

/-- A notification was refused before anything was closed. -/
def MonRefused (c : Nat) (tr : List Ev) : Prop :=
  ∃ u m v, tr = u ++ ⟨.send .mon c m, false⟩ :: v ∧ closings u = []

/-- A message was refused. -/
def Refused (c : Nat) (tr : List Ev) : Prop := ∃ d, (⟨.send .data c d, false⟩ : Ev) ∈ tr

theorem MonRefused.before {c : Nat} {t tr : List Ev} (h : MonRefused c tr) (ht : closings t = []) : MonRefused c (t ++ tr) := by
  obtain ⟨u, m, v, rfl, hu⟩ := h
  exact ⟨t ++ u, m, v, by simp, by simp [ht, hu]⟩
theorem MonRefused.after {c : Nat} {t tr : List Ev} (h : MonRefused c tr) : MonRefused c (tr ++ t) := by
  obtain ⟨u, m, v, rfl, hu⟩ := h
  exact ⟨u, m, v ++ t, by simp, hu⟩

theorem inEnd_quiet {m : Nat} (h : (inEnd ch m).Partial tr) (k c) : sentOn k c tr = [] ∧ heard tr = 0 := by
  replace h := (Prog.partial_op _ _ _).mp h; rcases h with rfl | ⟨r, t, rfl, h⟩
  · exact ⟨rfl, rfl⟩
  replace h := (Prog.partial_op _ _ _).mp h; rcases h with rfl | ⟨r, t, rfl, h⟩
  · exact ⟨rfl, rfl⟩
  · rw [Prog.partial_ret] at h; subst h; exact ⟨rfl, rfl⟩

/-- What can have happened in a round of the input half. -/
theorem in_body (h : (inTree ch j b n).Partial tr) :
    (nSent .data ch.inner tr ≤ nSent .mon ch.mIn tr ∧ closings tr = []) ∨
    (nSent .data ch.inner tr ≤ nSent .mon ch.mIn tr + 1 ∧ (inTree ch j b n).Awaits tr (.send .mon ch.mIn (.wrote 0)) ∧ closings tr = []) ∨
    nSent .data ch.inner tr + 1 ≤ nSent .mon ch.mIn tr ∨ MonRefused ch.mIn tr ∨
    (Refused ch.inner tr ∧ nSent .data ch.inner tr ≤ nSent .mon ch.mIn tr) := by
  have cl : ∀ (q : Req) (r : q.Resp) t, (∀ k c, q ≠ .close k c) → closings (⟨q, r⟩ :: t) = closings t := by
    intro q r t hq; rw [closings_cons, closings_not_close hq, List.nil_append]
  replace h := (Prog.partial_op _ _ _).mp h; rcases h with rfl | ⟨r, t, rfl, h⟩
  · left; simp [nSent]
  cases r with
  | none =>
    replace h := send_partial h; rcases h with rfl | ⟨t, rfl, h⟩ | ⟨t, rfl, h⟩
    · left; simp [nSent, sentOn_cons, sentOf, cl]
    · right; right; left
      have q1 := (inEnd_quiet h .data ch.inner).1
      have q2 := (inEnd_quiet h .mon ch.mIn).1
      simp [nSent, sentOn_cons, sentOf, q1, q2]
    · right; right; right; left
      exact ⟨[⟨.recv .data ch.input, none⟩], _, t, rfl, by simp [cl]⟩
  | some d =>
    replace h := send_partial h; rcases h with rfl | ⟨t, rfl, h⟩ | ⟨t, rfl, h⟩
    · left; simp [nSent, sentOn_cons, sentOf, cl]
    · replace h := send_partial h; rcases h with rfl | ⟨t, rfl, h⟩ | ⟨t, rfl, h⟩
      · right; left
        refine ⟨by simp [nSent, sentOn_cons, sentOf], ⟨some d, rfl, true, rfl, rfl⟩, by simp [cl]⟩
      · rw [Prog.partial_ret] at h; subst h
        left; simp [nSent, sentOn_cons, sentOf, cl]
      · right; right; right; left
        exact ⟨[⟨.recv .data ch.input, some d⟩, ⟨.send .data ch.inner d, true⟩], _, t, rfl, by simp [cl]⟩
    · have ref : ∀ t, Refused ch.inner (⟨.recv .data ch.input, some d⟩ :: ⟨.send .data ch.inner d, false⟩ :: t) := fun t => ⟨d, by simp⟩
      cases b with
      | terminate =>
        rw [Prog.partial_ret] at h; subst h
        left; simp [nSent, sentOn_cons, sentOf, cl]
      | consume =>
        replace h := send_partial h; rcases h with rfl | ⟨t, rfl, h⟩ | ⟨t, rfl, h⟩
        · left; simp [nSent, sentOn_cons, sentOf, cl]
        · rw [Prog.partial_ret] at h; subst h
          left; simp [nSent, sentOn_cons, sentOf, cl]
        · right; right; right; left
          exact ⟨[⟨.recv .data ch.input, some d⟩, ⟨.send .data ch.inner d, false⟩], _, t, rfl, by simp [cl]⟩
      | finish =>
        replace h := send_partial h; rcases h with rfl | ⟨t, rfl, h⟩ | ⟨t, rfl, h⟩
        · left; simp [nSent, sentOn_cons, sentOf, cl]
        · right; right; left
          have q1 := (inEnd_quiet h .data ch.inner).1
          have q2 := (inEnd_quiet h .mon ch.mIn).1
          simp [nSent, sentOn_cons, sentOf, q1, q2]
        · right; right; right; left
          exact ⟨[⟨.recv .data ch.input, some d⟩, ⟨.send .data ch.inner d, false⟩], _, t, rfl, by simp [cl]⟩

/-- A round of the input half that is not the last one. -/
theorem in_next {n' : Nat} (h : (inTree ch j b n).Runs tr (.inl n')) :
    nSent .data ch.inner tr ≤ nSent .mon ch.mIn tr ∧ closings tr = [] ∧ heard tr = nSent .mon ch.mIn tr := by
  have cl : ∀ (q : Req) (r : q.Resp) t, (∀ k c, q ≠ .close k c) → closings (⟨q, r⟩ :: t) = closings t := by
    intro q r t hq; rw [closings_cons, closings_not_close hq, List.nil_append]
  have noEnd : ∀ {m t}, ¬ (inEnd ch m).Runs t (.inl n') := by
    rintro m t ⟨_, _, rfl, _, _, rfl, _, h⟩; simp at h
  obtain ⟨r, t, rfl, h⟩ := h
  cases r with
  | none =>
    replace h := send_runs h; rcases h with ⟨t, rfl, h⟩ | ⟨t, rfl, h⟩
    · exact absurd h noEnd
    · simp at h
  | some d =>
    have hh : ∀ {x y}, heard [⟨.recv .data ch.input, some d⟩, ⟨.send .data ch.inner d, x⟩, ⟨.send .mon ch.mIn (.wrote 0), y⟩] = 1 := by
      intro x y; cases x <;> cases y <;> rfl
    replace h := send_runs h; rcases h with ⟨t, rfl, h⟩ | ⟨t, rfl, h⟩
    · replace h := send_runs h; rcases h with ⟨t, rfl, h⟩ | ⟨t, rfl, h⟩
      · obtain ⟨rfl, h⟩ := h
        simp [nSent, sentOn_cons, sentOf, cl, hh]
      · simp at h
    · cases b with
      | terminate => simp at h
      | consume =>
        replace h := send_runs h; rcases h with ⟨t, rfl, h⟩ | ⟨t, rfl, h⟩
        · obtain ⟨rfl, h⟩ := h
          simp [nSent, sentOn_cons, sentOf, cl, hh]
        · simp at h
      | finish =>
        replace h := send_runs h; rcases h with ⟨t, rfl, h⟩ | ⟨t, rfl, h⟩
        · exact absurd h noEnd
        · simp at h

/-- The last round of the input half. -/
theorem in_stop {x : Except MErr Nat} (h : (inTree ch j b n).Runs tr (.inr x)) :
    (nSent .data ch.inner tr + 1 ≤ nSent .mon ch.mIn tr ∨ MonRefused ch.mIn tr ∨
    (Refused ch.inner tr ∧ nSent .data ch.inner tr ≤ nSent .mon ch.mIn tr)) ∧
    (∀ m, x = .ok m → heard tr = nSent .mon ch.mIn tr) := by
  have cl : ∀ (q : Req) (r : q.Resp) t, (∀ k c, q ≠ .close k c) → closings (⟨q, r⟩ :: t) = closings t := by
    intro q r t hq; rw [closings_cons, closings_not_close hq, List.nil_append]
  obtain ⟨r, t, rfl, h⟩ := h
  cases r with
  | none =>
    replace h := send_runs h; rcases h with ⟨t, rfl, h⟩ | ⟨t, rfl, h⟩
    · have q1 := (inEnd_quiet (Prog.runs_partial h) .data ch.inner).1
      have q2 := (inEnd_quiet (Prog.runs_partial h) .mon ch.mIn)
      have hh : heard [⟨.send .mon ch.mIn (.wrote 0), true⟩] = 0 := rfl
      refine ⟨Or.inl (by simp [nSent, sentOn_cons, sentOf, q1, q2.1]), fun m _ => ?_⟩
      rw [heard_cons _ (_ :: t), heard_cons _ t, heard_recv, q2.2, hh]
      simp [nSent, sentOn_cons, sentOf, q2.1]
    · refine ⟨Or.inr (Or.inl ⟨[⟨.recv .data ch.input, none⟩], _, t, rfl, by simp [cl]⟩), ?_⟩
      rintro m rfl; simp at h
  | some d =>
    replace h := send_runs h; rcases h with ⟨t, rfl, h⟩ | ⟨t, rfl, h⟩
    · replace h := send_runs h; rcases h with ⟨t, rfl, h⟩ | ⟨t, rfl, h⟩
      · simp at h
      · refine ⟨Or.inr (Or.inl ⟨[⟨.recv .data ch.input, some d⟩, ⟨.send .data ch.inner d, true⟩], _, t, rfl, by simp [cl]⟩), ?_⟩
        rintro m rfl; simp at h
    · cases b with
      | terminate =>
        obtain ⟨rfl, h⟩ := h
        refine ⟨Or.inr (Or.inr ⟨⟨d, by simp⟩, by simp [nSent, sentOn_cons, sentOf]⟩), ?_⟩
        rintro m rfl; simp at h
      | consume =>
        replace h := send_runs h; rcases h with ⟨t, rfl, h⟩ | ⟨t, rfl, h⟩
        · simp at h
        · refine ⟨Or.inr (Or.inl ⟨[⟨.recv .data ch.input, some d⟩, ⟨.send .data ch.inner d, false⟩], _, t, rfl, by simp [cl]⟩), ?_⟩
          rintro m rfl; simp at h
      | finish =>
        replace h := send_runs h; rcases h with ⟨t, rfl, h⟩ | ⟨t, rfl, h⟩
        · have q1 := (inEnd_quiet (Prog.runs_partial h) .data ch.inner).1
          have q2 := (inEnd_quiet (Prog.runs_partial h) .mon ch.mIn)
          have hh : heard [⟨.send .mon ch.mIn (.wrote 0), true⟩] = 0 := rfl
          have hh2 : heard [⟨.send .data ch.inner d, false⟩] = 0 := rfl
          refine ⟨Or.inl (by simp [nSent, sentOn_cons, sentOf, q1, q2.1]), fun m _ => ?_⟩
          rw [heard_cons _ (_ :: _ :: t), heard_cons _ (_ :: t), heard_cons _ t, heard_recv, q2.2, hh, hh2]
          simp [nSent, sentOn_cons, sentOf, q2.1]
        · refine ⟨Or.inr (Or.inl ⟨[⟨.recv .data ch.input, some d⟩, ⟨.send .data ch.inner d, false⟩], _, t, rfl, by simp [cl]⟩), ?_⟩
          rintro m rfl; simp at h

variable {out : Push}

theorem in_rounds {n n' : Nat} (h : LoopRounds (bufferIn ch j out).body n tr n') :
    nSent .data ch.inner tr ≤ nSent .mon ch.mIn tr ∧ closings tr = [] ∧ heard tr = nSent .mon ch.mIn tr := by
  induction h with
  | nil => exact ⟨Nat.le_refl _, rfl, rfl⟩
  | next hr _ ih =>
    rw [bufferIn_tree] at hr
    obtain ⟨a1, a2, a3⟩ := in_next hr
    obtain ⟨b1, b2, b3⟩ := ih
    refine ⟨by simp [nSent] at *; omega, by simp [a2, b2], by simp [nSent] at *; omega⟩

/-- The input half: what it has put into the buffer and what it has notified. -/
theorem in_local (h : (bufferIn ch j out).Partial tr) :
    (nSent .data ch.inner tr ≤ nSent .mon ch.mIn tr ∧ closings tr = []) ∨
    (nSent .data ch.inner tr ≤ nSent .mon ch.mIn tr + 1 ∧ (bufferIn ch j out).Awaits tr (.send .mon ch.mIn (.wrote 0)) ∧ closings tr = []) ∨
    nSent .data ch.inner tr + 1 ≤ nSent .mon ch.mIn tr ∨ MonRefused ch.mIn tr ∨
    (Refused ch.inner tr ∧ nSent .data ch.inner tr ≤ nSent .mon ch.mIn tr) := by
  rcases h with ⟨n, t1, t2, h1, h2, rfl⟩ | ⟨r, t0, t3, h0, h3, rfl⟩
  · have h2' := h2
    rw [show (bufferIn ch j out).body n = _ from bufferIn_tree ch j out n] at h2'
    obtain ⟨a1, a2, a3⟩ := in_rounds h1
    rcases in_body h2' with ⟨c1, c2⟩ | ⟨c1, c2, c3⟩ | c1 | c1 | ⟨⟨d, c1⟩, c2⟩
    · left; refine ⟨by simp [nSent] at *; omega, by simp [a2, c2]⟩
    · right; left; refine ⟨by simp [nSent] at *; omega, ⟨n, t1, t2, h1, by rw [show (bufferIn ch j out).body n = _ from bufferIn_tree ch j out n]; exact c2, rfl⟩, by simp [a2, c3]⟩
    · right; right; left; simp [nSent] at *; omega
    · right; right; right; left; exact c1.before a2
    · right; right; right; right; exact ⟨⟨d, by simp [c1]⟩, by simp [nSent] at *; omega⟩
  · obtain ⟨n, t1, t2, rfl, h1, h2⟩ := h0.rounds
    rw [show (bufferIn ch j out).body n = _ from bufferIn_tree ch j out n] at h2
    obtain ⟨a1, a2, a3⟩ := in_rounds h1
    have e1 := sentOn_drops h3 .data ch.inner
    have e2 := sentOn_drops h3 .mon ch.mIn
    right; right
    rcases (in_stop h2).1 with c1 | c1 | ⟨⟨d, c1⟩, c2⟩
    · left; simp [nSent, e1, e2] at *; omega
    · right; left; exact (c1.before a2).after
    · right; right; exact ⟨⟨d, by simp [c1]⟩, by simp [nSent, e1, e2] at *; omega⟩

/-- The requests of the input half. -/
def InReq (ch : BufferChans) (q : Req) : Prop :=
  q = .recv .data ch.input ∨ (∃ d, q = .send .data ch.inner d) ∨ q = .send .mon ch.mIn (.wrote 0) ∨ ∃ k c, q = .close k c

theorem in_only : (inTree ch j b n).Only (InReq ch) := by
  have e : ∀ m, (inEnd ch m).Only (InReq ch) := by
    intro m; exact ⟨by simp [InReq], fun _ => ⟨by simp [InReq], fun _ => trivial⟩⟩
  refine ⟨by simp [InReq], fun r => ?_⟩
  cases r with
  | none => exact ⟨by simp [InReq], fun r => by cases r <;> first | exact trivial | exact e _⟩
  | some d =>
    refine ⟨by simp [InReq], fun r => ?_⟩
    cases r with
    | true => exact ⟨by simp [InReq], fun r => by cases r <;> exact trivial⟩
    | false =>
      cases b with
      | terminate => exact trivial
      | consume => exact ⟨by simp [InReq], fun r => by cases r <;> exact trivial⟩
      | finish => exact ⟨by simp [InReq], fun r => by cases r <;> first | exact trivial | exact e _⟩

/-- When the input half is between messages everything it has heard has been notified. -/
theorem in_settled (h : (∃ q, (bufferIn ch j out).Awaits tr q ∧ ∀ k c v, q ≠ .send k c v) ∨
      ∃ m t1 t2, LoopRuns (bufferIn ch j out).body (bufferIn ch j out).init t1 (.ok m) ∧ t2 <+: dropEvs (bufferIn ch j out).drops ∧ tr = t1 ++ t2) :
    heard tr = nSent .mon ch.mIn tr := by
  rcases h with ⟨q, ⟨n, t1, t2, h1, h2, rfl⟩, hq⟩ | ⟨m, t0, t3, h0, h3, rfl⟩
  · rw [show (bufferIn ch j out).body n = _ from bufferIn_tree ch j out n] at h2
    obtain ⟨a1, a2, a3⟩ := in_rounds h1
    suffices heard t2 = nSent .mon ch.mIn t2 by simp [nSent] at *; omega
    have fin : ∀ {m : Nat} {t u : List Ev}, (inEnd ch m).Awaits t q → heard u = nSent .mon ch.mIn u → heard (u ++ t) = nSent .mon ch.mIn (u ++ t) := by
      intro m t u ht hu
      have := inEnd_quiet ht.partial .mon ch.mIn
      simp [nSent, this] at *; exact hu
    cases t2 with
    | nil => rfl
    | cons e t2 =>
      obtain ⟨r, rfl, h2⟩ := h2
      have sendcase : ∀ {k c} {v : k.Payload} {f : Bool → Prog (Nat ⊕ Except MErr Nat)} {t}, (Prog.op (.send k c v) f).Awaits t q →
          ∃ r t', t = ⟨.send k c v, r⟩ :: t' ∧ (f r).Awaits t' q := by
        intro k c v f t ht
        cases t with
        | nil => exact absurd (show Req.send k c v = q from ht).symm (hq _ _ _)
        | cons e t => obtain ⟨r, rfl, ht⟩ := ht; exact ⟨r, t, rfl, ht⟩
      cases r with
      | none =>
        replace h2 := sendcase h2; obtain ⟨r, t, rfl, h2⟩ := h2
        cases r with
        | true => exact fin (u := [_, _]) h2 (by simp [nSent, sentOn_cons, sentOf]; rfl)
        | false => exact absurd h2 (by simp [Prog.Awaits])
      | some d =>
        replace h2 := sendcase h2; obtain ⟨r, t, rfl, h2⟩ := h2
        cases r with
        | true =>
          replace h2 := sendcase h2; obtain ⟨r, t, rfl, h2⟩ := h2
          cases r <;> exact absurd h2 (by simp [Prog.Awaits])
        | false =>
          revert h2
          cases out.breakable with
          | terminate => intro h2; exact absurd h2 (by simp [Prog.Awaits])
          | consume =>
            intro h2
            replace h2 := sendcase h2; obtain ⟨r, t, rfl, h2⟩ := h2
            cases r <;> exact absurd h2 (by simp [Prog.Awaits])
          | finish =>
            intro h2
            replace h2 := sendcase h2; obtain ⟨r, t, rfl, h2⟩ := h2
            cases r with
            | true => exact fin (u := [_, _, _]) h2 (by simp [nSent, sentOn_cons, sentOf]; rfl)
            | false => exact absurd h2 (by simp [Prog.Awaits])
  · obtain ⟨n, t1, t2, rfl, h1, h2⟩ := h0.rounds
    rw [show (bufferIn ch j out).body n = _ from bufferIn_tree ch j out n] at h2
    obtain ⟨a1, a2, a3⟩ := in_rounds h1
    have := (in_stop h2).2 m rfl
    have e2 := sentOn_drops h3 .mon ch.mIn
    obtain ⟨d1, d2, _⟩ := drops_acts h3
    have e3 : heard t3 = 0 := by simp [heard, d1, d2]
    simp [nSent, e2, e3] at *; omega

end


/-! ### The output half -/

section
variable {ch : BufferChans} {out : Push} {tr : List Ev}

theorem sent_le_pings (c : Nat) (tr : List Ev) : nSent .mon c tr ≤ pings (some c) tr := by
  induction tr with
  | nil => simp [nSent]
  | cons e tr ih =>
    have e2 : pings (some c) (e :: tr) = pings (some c) [e] + pings (some c) tr := by rw [← pings_append]; rfl
    rw [e2]
    simp only [nSent, sentOn_cons, List.length_append] at *
    suffices (sentOf .mon c e).toList.length ≤ pings (some c) [e] by omega
    obtain ⟨q, r⟩ := e
    cases q with
    | send k c' v =>
      cases k <;> cases r <;> simp [sentOf]
      by_cases h : c' = c
      · subst h; simp [pings, notified, acts, act]
      · simp [h]
    | _ => simp [sentOf]

theorem out_apart : ({ read := some ch.mOut } : Notifications).Apart := by rintro x ⟨_, h⟩; simp at h

theorem out_body {n : Nat} (h : ((bufferOut ch out).body n).Partial tr) : heard tr ≤ 1 ∧ pings (some ch.mOut) tr ≤ heard tr := by
  obtain ⟨t3, x, h3⟩ := h.extend
  rcases motionBody_inv h3 with ⟨e, _, hw⟩ | ⟨res, u1, u2, hu, hw, hrest⟩
  · have := round_seen hw (by simp) out_apart ⟨t3, rfl⟩
    exact ⟨this.one, this.read_le⟩
  · have hpre : tr <+: u1 ++ u2 := ⟨t3, hu⟩
    rcases prefix_append_cases hpre with hpre | ⟨v, rfl, hv⟩
    · have := round_seen hw (by simp) out_apart hpre
      exact ⟨this.one, this.read_le⟩
    · have := round_seen hw (by simp) out_apart List.prefix_rfl
      have z : heard v = 0 ∧ pings (some ch.mOut) v = 0 := by
        have zero : ∀ {u : List Ev}, heard u = 0 → pings (some ch.mOut) u = 0 → v <+: u → heard v = 0 ∧ pings (some ch.mOut) v = 0 := by
          rintro u a b ⟨w, rfl⟩
          simp at a b
          exact ⟨a.1, b.1⟩
        rcases hrest with ⟨_, rfl, _⟩ | ⟨_, ⟨hc, _⟩ | ⟨_, hh, _, _, hc⟩⟩
        · simp at hv; subst hv; simp
        · obtain ⟨c1, c2, c3, c4⟩ := closeActs_proj hc
          exact zero c1 (by simp [pings, c4]) hv
        · obtain ⟨c1, c2, c3, c4, c5⟩ := flush_proj hc
          exact zero c1 (by simp [pings, c4, c5]) hv
      have o1 := this.one
      have o2 : pings (some ch.mOut) u1 ≤ heard u1 := this.read_le
      simp [z]
      omega

/-- The output half: it notifies at most what it has heard; it hears the end at most once. -/
theorem out_local (h : (bufferOut ch out).Partial tr) : nSent .mon ch.mOut tr ≤ heard tr ∧ endings tr ≤ 1 := by
  have lp : ∀ {tr}, LoopPartial (bufferOut ch out).body (bufferOut ch out).init tr → nSent .mon ch.mOut tr ≤ heard tr ∧ endings tr ≤ 1 := by
    rintro tr ⟨n, t1, t2, h1, h2, rfl⟩
    obtain ⟨k, _, _, _, _, hk, he, _, _, hp, _⟩ := rounds_seen h1 (by simp) out_apart
    have hp := hp rfl
    obtain ⟨b1, b2⟩ := out_body h2
    have := sent_le_pings ch.mOut (t1 ++ t2)
    simp only [pings_append, heard_append, endings_append] at *
    refine ⟨by omega, ?_⟩
    have : endings t2 ≤ heard t2 := by simp [heard]
    omega
  rcases h with h | ⟨r, t0, t3, h0, h3, rfl⟩
  · exact lp h
  · have := lp h0.toPartial
    obtain ⟨d1, d2, _⟩ := drops_acts h3
    simp [nSent, sentOn_drops h3, d2, heard, d1] at *
    exact this

theorem out_next {n n' : Nat} (h : ((bufferOut ch out).body n).Runs tr (.inl n')) : heard tr ≤ nSent .mon ch.mOut tr := by
  have := (out_body (Prog.runs_partial h)).1
  rw [bufferOut_tree] at h
  obtain ⟨x, t, rfl, h⟩ := h
  replace h := send_runs h
  rcases h with ⟨t, rfl, h⟩ | ⟨t, rfl, h⟩
  · simp [nSent, sentOn_cons, sentOf] at *; omega
  · have h := h.2; simp at h

/-- When the output half is not about to notify, all it has heard has been notified. -/
theorem out_settled {q : Req} (h : (bufferOut ch out).Awaits tr q) (hq : ∀ c v, q ≠ .send .mon c v) : heard tr ≤ nSent .mon ch.mOut tr := by
  obtain ⟨n, t1, t2, h1, h2, rfl⟩ := h
  have r1 : heard t1 ≤ nSent .mon ch.mOut t1 := by
    have : ∀ {n n' : Nat} {t}, LoopRounds (bufferOut ch out).body n t n' → heard t ≤ nSent .mon ch.mOut t := by
      intro n n' t h
      induction h with
      | nil => simp
      | next hr _ ih => have := out_next hr; simp [nSent] at *; omega
    exact this h1
  have r2 : heard t2 ≤ nSent .mon ch.mOut t2 := by
    have := (out_body h2.partial).1
    rw [show (bufferOut ch out).body n = _ from bufferOut_tree ch out n] at h2
    cases t2 with
    | nil => simp
    | cons e t2 =>
      obtain ⟨x, rfl, h2⟩ := h2
      cases t2 with
      | nil => exact absurd (show Req.send .mon ch.mOut (.read 0) = q from h2).symm (hq _ _)
      | cons e t2 =>
        obtain ⟨y, rfl, h2⟩ := h2
        cases y with
        | false => exact absurd h2 (by simp [Prog.Awaits])
        | true => simp [nSent, sentOn_cons, sentOf] at *; omega
  simp [nSent] at *; omega

end

/-- The requests of the output half. -/
def OutReq (ch : BufferChans) (q : Req) : Prop :=
  q = .recv .data ch.inner ∨ q = .send .mon ch.mOut (.read 0) ∨ (∀ kc, q.on = some kc → kc ≠ (.data, ch.inner) ∧ kc.1 ≠ .mon) ∨
  ∃ k c, q = .close k c

theorem outRest_only {ch : BufferChans} {out : Push} {n : Nat} {x : IOW} (ho : (Kind.data, ch.inner) ∉ out.owned) : (outRest ch out n x).Only (OutReq ch) := by
  have kinds : ∀ q, Within (out.owned ++ (ch.spy.map fun c => (Kind.spy, c)).toList) q → OutReq ch q := by
    intro q h
    refine Or.inr (Or.inr (Or.inl fun kc hk => ?_))
    have := h kc hk
    rw [List.mem_append] at this
    rcases this with h | h
    · refine ⟨fun h' => ho (by rw [← h']; exact h), ?_⟩
      cases out with
      | none => simp [Push.owned] at h
      | sender j c => simp [Push.owned] at h; subst h; simp
      | io j c => simp [Push.owned] at h
    · cases hs : ch.spy with
      | none => rw [hs] at h; simp at h
      | some c => rw [hs] at h; simp at h; subst h; simp
  have mono : ∀ {α : Type} {p : M α}, MOnly (Within (out.owned ++ (ch.spy.map fun c => (Kind.spy, c)).toList)) p → MOnly (OutReq ch) p :=
    fun h => Prog.Only.mono h kinds
  unfold outRest
  refine Prog.Only.bind (p := ExceptT.run _) ?_ ?_
  · refine MOnly.bind ?_ fun r => ?_
    · refine MOnly.bind (mono (pushAll_only ?_ ?_)) fun u => MOnly.bind (monly_pure _) fun _ => ?_
      · intro p hp kc hk; simp at hp; subst hp; simp [hk]
      · intro c hc; simp [hc]
      · split <;> exact monly_pure _
    · show MOnly _ (if r.finished = true then _ else _)
      split
      · refine MOnly.bind (MOnly.bind (mono (motionClose_only ?_)) fun _ => monly_pure _) fun _ =>
          MOnly.bind (monly_ask (Or.inr (Or.inr (Or.inr ⟨_, _, rfl⟩)))) fun _ => MOnly.bind (monly_pure _) fun _ => monly_pure _
        intro kc hk; simp [hk]
      · exact monly_pure _
  · intro a
    rcases a with e | (n | n) <;> exact trivial

theorem out_only {ch : BufferChans} {out : Push} {n : Nat} (ho : (Kind.data, ch.inner) ∉ out.owned) : (outTree ch out n).Only (OutReq ch) := by
  refine ⟨Or.inl rfl, fun x => ⟨Or.inr (Or.inl rfl), fun y => ?_⟩⟩
  cases y with
  | true => exact outRest_only ho
  | false => exact trivial

/-! ### The count -/

/-- The event is a look into a notification channel. -/
def isTry (c : Nat) : Ev → Bool
  | ⟨.tryRecv .mon c', _⟩ => decide (c' = c)
  | _ => false

abbrev tries (c : Nat) (tr : List Ev) : Nat := tr.countP (isTry c)

/-- Requests of the second half of a round. -/
def RestReq (size : Nat) (q : Req) : Prop :=
  (∀ k c, q ≠ .tryRecv k c ∧ q ≠ .recv k c ∧ q ≠ .close k c) ∧ (∀ c v, q ≠ .send .mon c v) ∧ (∀ c, q.on ≠ some (.data, c)) ∧
  ∀ c v, q = .send .size c v → v = size

section
variable {ch : BufferChans} {tr : List Ev} {sender : Option Nat} {mIn mOut : Nat}

theorem wait_only {size : Nat} (b : BackOff) : (b.wait).Only (RestReq size) := by
  unfold BackOff.wait
  refine Prog.Only.bind (p := req _) (Prog.only_req ⟨by simp, by simp, by simp [Req.on], by simp⟩) fun _ => ?_
  exact trivial

theorem report_only {size last : Nat} : (reportSize sender size last).Only (RestReq size) := by
  unfold reportSize
  cases sender with
  | none => exact trivial
  | some c =>
    show Prog.Only _ (if last ≠ size then _ else _)
    split
    · refine Prog.Only.bind (p := req _) (Prog.only_req ⟨by simp, by simp, by simp [Req.on], ?_⟩) fun _ => trivial
      intro c' v h; simp at h; exact h.2.symm
    · exact trivial

theorem rest_only {b : BackOff} {moved : Bool} {size last : Nat} : (totalRest sender mIn mOut b moved size last).Only (RestReq size) := by
  unfold totalRest
  refine Prog.Only.bind report_only fun x => ?_
  obtain ⟨l, ok⟩ := x
  show Prog.Only _ (if ok = false then _ else _)
  split
  · exact trivial
  · refine Prog.Only.bind (p := req _) (Prog.only_req ⟨by simp, by simp, by simp [Req.on], by simp⟩) fun x => ?_
    obtain ⟨e, c⟩ := x
    refine Prog.Only.bind ?_ fun x => ?_
    · split
      · exact Prog.only_req ⟨by simp, by simp, by simp [Req.on], by simp⟩
      · exact trivial
    · obtain ⟨e', c'⟩ := x
      show Prog.Only _ (if (e && c && e' && c') = true then _ else _)
      split
      · exact trivial
      · split
        · exact trivial
        · exact Prog.Only.bind (wait_only _) fun _ => trivial

theorem rest_runs {b : BackOff} {moved : Bool} {size last : Nat} {x} (h : (totalRest sender mIn mOut b moved size last).Runs tr x) :
    (∀ s, x = .inl s → s.size = size) ∧ ∀ r, x = .inr r → r = .done size ∨ r = .sendError := by
  unfold totalRest at h
  rw [Prog.runs_bind] at h
  obtain ⟨t1, ⟨l, ok⟩, t2, rfl, _, h⟩ := h
  change Prog.Runs (if ok = false then _ else _) _ _ at h
  split at h
  · obtain ⟨_, rfl⟩ := h; simp
  · rw [Prog.runs_bind] at h
    obtain ⟨t3, ⟨e, c⟩, t4, rfl, _, h⟩ := h
    simp only [] at h
    rw [Prog.runs_bind] at h
    obtain ⟨t5, ⟨e', c'⟩, t6, rfl, _, h⟩ := h
    change Prog.Runs (if (e && c && e' && c') = true then _ else _) _ _ at h
    split at h
    · obtain ⟨_, rfl⟩ := h; simp
    · split at h
      · obtain ⟨_, rfl⟩ := h; simp
      · rw [Prog.runs_bind] at h
        obtain ⟨t7, ⟨y, z⟩, t8, rfl, _, h⟩ := h
        obtain ⟨_, rfl⟩ := h; simp

theorem rest_quiet {size : Nat} {t : List Ev} (h : ∀ e ∈ t, RestReq size e.q) :
    (∀ c, tries c t = 0) ∧ (∀ k c, gotOn k c t = []) ∧ closings t = [] := by
  induction t with
  | nil => simp
  | cons e t ih =>
    obtain ⟨i1, i2, i3⟩ := ih (fun e he => h e (by simp [he]))
    have he := h e (by simp)
    obtain ⟨q, r⟩ := e
    refine ⟨fun c => ?_, fun k c => ?_, ?_⟩
    · rw [show tries c (⟨q, r⟩ :: t) = tries c t + if isTry c ⟨q, r⟩ = true then 1 else 0 from List.countP_cons, i1]
      have : isTry c ⟨q, r⟩ = false := by
        cases q with
        | tryRecv k c' => exact absurd rfl (he.1 k c').1
        | _ => rfl
      simp [this]
    · rw [gotOn_cons, i2]
      cases q with
      | tryRecv k c' => exact absurd rfl (he.1 k c').1
      | recv k c' => exact absurd rfl (he.1 k c').2.1
      | _ => rfl
    · rw [closings_cons, i3, closings_not_close (fun k c hq => (he.1 k c).2.2 hq)]; rfl

/-- Whether something was taken out. -/
def took {α : Type} : TryRes α → Nat
  | .got _ => 1
  | _ => 0

theorem got_try (c : Nat) (y : TryRes MonMsg) : (gotOf .mon c ⟨.tryRecv .mon c, y⟩).toList.length = took y := by
  cases y <;> simp [gotOf, took]
theorem got_try_ne {c c' : Nat} (h : c' ≠ c) (y : TryRes MonMsg) : (gotOf .mon c ⟨.tryRecv .mon c', y⟩) = none := by
  cases y <;> simp [gotOf, h]

/-- What can have happened in a round of the count. -/
theorem count_second {s : Total} {size : Nat} {moved : Bool} {x} (h : (countSecond sender mIn mOut s size moved).Runs tr x) :
    ∃ z rest, tr = ⟨.tryRecv .mon mOut, z⟩ :: rest ∧
      ((rest = [] ∧ x = .inr .wrongMessage ∧ ∃ m, z = .got (.wrote m)) ∨
       (rest = [] ∧ x = .inr .underflow ∧ size = 0 ∧ took z = 1) ∨
       ∃ size', size' + took z = size ∧ (∀ e ∈ rest, RestReq size' e.q) ∧ (∀ s', x = .inl s' → s'.size = size') ∧
         ∀ r, x = .inr r → r = .done size' ∨ r = .sendError) := by
  obtain ⟨z, rest, rfl, h⟩ := h
  refine ⟨z, rest, rfl, ?_⟩
  have fin : ∀ {size' moved}, (totalRest sender mIn mOut s.backOff moved size' s.last).Runs rest x → 
      (∀ e ∈ rest, RestReq size' e.q) ∧ (∀ s', x = .inl s' → s'.size = size') ∧ ∀ r, x = .inr r → r = .done size' ∨ r = .sendError := by
    intro size' moved h
    exact ⟨rest_only.partial (Prog.runs_partial h), rest_runs h⟩
  cases z with
  | got m =>
    cases m with
    | wrote m => exact Or.inl ⟨h.1, h.2, m, rfl⟩
    | read m =>
      right
      change Prog.Runs (if size = 0 then _ else _) _ _ at h
      split at h
      · left; exact ⟨h.1, h.2, by assumption, rfl⟩
      · right; exact ⟨size - 1, by simp [took]; omega, fin h⟩
  | empty => right; right; exact ⟨size, by simp [took], fin h⟩
  | closed => right; right; exact ⟨size, by simp [took], fin h⟩

theorem count_round {s : Total} {x} (h : (countTree sender mIn mOut s).Runs tr x) :
    (∃ m, tr = [⟨.tryRecv .mon mIn, .got (.read m)⟩] ∧ x = .inr .wrongMessage) ∨
    ∃ y z rest, tr = ⟨.tryRecv .mon mIn, y⟩ :: ⟨.tryRecv .mon mOut, z⟩ :: rest ∧
      ((rest = [] ∧ x = .inr .wrongMessage ∧ ∃ m, z = .got (.wrote m)) ∨
       (rest = [] ∧ x = .inr .underflow ∧ s.size + took y = 0 ∧ took z = 1) ∨
       ∃ size', size' + took z = s.size + took y ∧ (∀ e ∈ rest, RestReq size' e.q) ∧ (∀ s', x = .inl s' → s'.size = size') ∧
         ∀ r, x = .inr r → r = .done size' ∨ r = .sendError) := by
  obtain ⟨y, rest, rfl, h⟩ := h
  have go : ∀ {size moved}, size = s.size + took y → (countSecond sender mIn mOut s size moved).Runs rest x →
      ∃ y' z rest', (⟨.tryRecv .mon mIn, y⟩ :: rest : List Ev) = ⟨.tryRecv .mon mIn, y'⟩ :: ⟨.tryRecv .mon mOut, z⟩ :: rest' ∧
      ((rest' = [] ∧ x = .inr .wrongMessage ∧ ∃ m, z = .got (.wrote m)) ∨
       (rest' = [] ∧ x = .inr .underflow ∧ s.size + took y' = 0 ∧ took z = 1) ∨
       ∃ size', size' + took z = s.size + took y' ∧ (∀ e ∈ rest', RestReq size' e.q) ∧ (∀ s', x = .inl s' → s'.size = size') ∧
         ∀ r, x = .inr r → r = .done size' ∨ r = .sendError) := by
    intro size moved hs h
    obtain ⟨z, rest', rfl, h'⟩ := count_second h
    rw [hs] at h'
    exact ⟨y, z, rest', rfl, h'⟩
  cases y with
  | got m =>
    cases m with
    | read m => left; exact ⟨m, by rw [h.1], h.2⟩
    | wrote m => right; exact go rfl h
  | empty => right; exact go rfl h
  | closed => right; exact go rfl h


theorem tries_cons (c : Nat) (e : Ev) (t : List Ev) : tries c (e :: t) = (if isTry c e = true then 1 else 0) + tries c t := by
  unfold tries; rw [List.countP_cons]; omega

/-- The numbers of a round. -/
theorem count_shape (hne : mIn ≠ mOut) {y z : TryRes MonMsg} {rest : List Ev} {size : Nat} (h : ∀ e ∈ rest, RestReq size e.q) :
    nGot .mon mIn (⟨.tryRecv .mon mIn, y⟩ :: ⟨.tryRecv .mon mOut, z⟩ :: rest) = took y ∧
    nGot .mon mOut (⟨.tryRecv .mon mIn, y⟩ :: ⟨.tryRecv .mon mOut, z⟩ :: rest) = took z ∧
    tries mIn (⟨.tryRecv .mon mIn, y⟩ :: ⟨.tryRecv .mon mOut, z⟩ :: rest) = 1 ∧
    tries mOut (⟨.tryRecv .mon mIn, y⟩ :: ⟨.tryRecv .mon mOut, z⟩ :: rest) = 1 ∧
    closings (⟨.tryRecv .mon mIn, y⟩ :: ⟨.tryRecv .mon mOut, z⟩ :: rest) = [] := by
  obtain ⟨q1, q2, q3⟩ := rest_quiet h
  refine ⟨?_, ?_, ?_, ?_, ?_⟩
  · simp only [nGot, gotOn_cons, q2, got_try_ne (Ne.symm hne), List.length_append]; simp; exact got_try _ _
  · simp only [nGot, gotOn_cons, q2, got_try_ne hne, List.length_append]; simp; exact got_try _ _
  · simp [tries_cons, q1, isTry, Ne.symm hne]
  · simp [tries_cons, q1, isTry, hne]
  · rw [closings_cons, closings_cons _ rest, q3, closings_not_close (by simp), closings_not_close (by simp)]; rfl

theorem count_rounds (hne : mIn ≠ mOut) {s s' : Total} (h : LoopRounds (totalBody sender mIn mOut) s tr s') :
    s'.size + nGot .mon mOut tr = s.size + nGot .mon mIn tr ∧ tries mIn tr = tries mOut tr ∧ closings tr = [] := by
  induction h with
  | nil => simp [nGot]
  | next hr _ ih =>
    rw [total_tree] at hr
    rcases count_round hr with ⟨m, _, hx⟩ | ⟨y, z, rest, rfl, h | h | ⟨size', h1, h2, h3, _⟩⟩
    · simp at hx
    · simp at h
    · simp at h
    · have h3 := h3 _ rfl
      obtain ⟨n1, n2, n3, n4, n5⟩ := count_shape (mIn := mIn) (mOut := mOut) hne (y := y) (z := z) h2
      simp only [nGot, gotOn_append, List.length_append, tries, List.countP_append, closings_append] at *
      rw [n1, n2, n3, n4, n5]
      refine ⟨by omega, by omega, by simp [ih]⟩

/-- What can have happened in a round of the count, complete or not. -/
theorem count_body {s : Total} (h : (countTree sender mIn mOut s).Partial tr) :
    tr = [] ∨
    (∃ y, tr = [⟨.tryRecv .mon mIn, y⟩] ∧ ((∃ m, y = .got (.read m)) ∨ (countTree sender mIn mOut s).Awaits tr (.tryRecv .mon mOut))) ∨
    ∃ y z rest, tr = ⟨.tryRecv .mon mIn, y⟩ :: ⟨.tryRecv .mon mOut, z⟩ :: rest ∧
      ((rest = [] ∧ ∃ m, z = .got (.wrote m)) ∨
       (rest = [] ∧ s.size + took y = 0 ∧ took z = 1) ∨
       ∃ size', size' + took z = s.size + took y ∧ (∀ e ∈ rest, RestReq size' e.q)) := by
  obtain ⟨t3, x, h3⟩ := h.extend
  cases tr with
  | nil => exact Or.inl rfl
  | cons e tr =>
    right
    have one : ∀ (y : TryRes MonMsg), ((∃ m, y = .got (.read m)) ∨ (countTree sender mIn mOut s).Awaits [⟨.tryRecv .mon mIn, y⟩] (.tryRecv .mon mOut)) := by
      intro y
      cases y with
      | got m => cases m with
        | read m => exact Or.inl ⟨m, rfl⟩
        | wrote m => exact Or.inr ⟨_, rfl, rfl⟩
      | empty => exact Or.inr ⟨_, rfl, rfl⟩
      | closed => exact Or.inr ⟨_, rfl, rfl⟩
    rcases count_round h3 with ⟨m, he, hx⟩ | ⟨y, z, rest, he, hk⟩
    · left
      simp at he
      obtain ⟨rfl, rfl, rfl⟩ := he
      exact ⟨_, rfl, one _⟩
    · simp only [List.cons_append, List.cons.injEq] at he
      obtain ⟨rfl, he⟩ := he
      cases tr with
      | nil => left; exact ⟨y, rfl, one y⟩
      | cons e' tr =>
        right
        simp only [List.cons_append, List.cons.injEq] at he
        obtain ⟨rfl, he⟩ := he
        refine ⟨y, z, tr, rfl, ?_⟩
        rcases hk with ⟨h1, _, h2⟩ | ⟨h1, _, h2⟩ | ⟨size', h1, h2, _⟩
        · left; rw [h1] at he; simp at he; exact ⟨he.1, h2⟩
        · right; left; rw [h1] at he; simp at he; exact ⟨he.1, h2⟩
        · right; right; exact ⟨size', h1, fun e he' => h2 e (by rw [← he]; simp [he'])⟩

/-- How the count stands, provided notifications are of the right kind and nothing was subtracted too much. -/
theorem count_local (hne : mIn ≠ mOut) (h : (totalTask sender mIn mOut).Partial tr)
    (hin : ∀ m ∈ gotOn .mon mIn tr, m = .wrote 0) (hout : ∀ m ∈ gotOn .mon mOut tr, m = .read 0)
    (hle : nGot .mon mOut tr ≤ nGot .mon mIn tr) :
    (tries mIn tr = tries mOut tr + 1 ∧ (totalTask sender mIn mOut).Awaits tr (.tryRecv .mon mOut)) ∨
    (tries mIn tr = tries mOut tr ∧ ∀ r t1 t2, LoopRuns (totalBody sender mIn mOut) (totalTask sender mIn mOut).init t1 r → tr = t1 ++ t2 →
      (∃ n, r = .done n) ∨ r = .sendError) := by
  have init : (totalTask sender mIn mOut).init.size = 0 := rfl
  have lp : ∀ {tr : List Ev}, LoopPartial (totalBody sender mIn mOut) (totalTask sender mIn mOut).init tr →
      (∀ m ∈ gotOn .mon mIn tr, m = .wrote 0) → (∀ m ∈ gotOn .mon mOut tr, m = .read 0) →
      nGot .mon mOut tr ≤ nGot .mon mIn tr → 
      (tries mIn tr = tries mOut tr + 1 ∧ (totalTask sender mIn mOut).Awaits tr (.tryRecv .mon mOut)) ∨ tries mIn tr = tries mOut tr := by
    rintro tr ⟨s, t1, t2, h1, h2, rfl⟩ hin hout hle
    obtain ⟨a1, a2, a3⟩ := count_rounds hne h1
    have h2' := h2
    rw [total_tree] at h2'
    rcases count_body h2' with rfl | ⟨y, rfl, h⟩ | ⟨y, z, rest, rfl, h⟩
    · right; simpa using a2
    · rcases h with ⟨m, rfl⟩ | h
      · have := hin (.read m) (by simp [gotOn_cons, gotOf]); simp at this
      · left
        refine ⟨?_, s, t1, _, h1, by rw [← total_tree] at h; exact h, rfl⟩
        simp [tries] at a2 ⊢
        simp [isTry, hne]; omega
    · right
      rcases h with ⟨rfl, m, rfl⟩ | ⟨rfl, hz, ht⟩ | ⟨size', h3, h4⟩
      · have := hout (.wrote m) (by simp [gotOn_cons, gotOf]); simp at this
      · exfalso
        obtain ⟨n1, n2, _⟩ := count_shape (mIn := mIn) (mOut := mOut) hne (y := y) (z := z) (rest := []) (size := 0) (by simp)
        simp only [nGot, gotOn_append, List.length_append] at *
        omega
      · obtain ⟨n1, n2, n3, n4, n5⟩ := count_shape (mIn := mIn) (mOut := mOut) hne (y := y) (z := z) h4
        simp only [tries, List.countP_append] at *
        omega
  have stop : ∀ {r t1}, LoopRuns (totalBody sender mIn mOut) (totalTask sender mIn mOut).init t1 r →
      (∀ m ∈ gotOn .mon mIn t1, m = .wrote 0) → (∀ m ∈ gotOn .mon mOut t1, m = .read 0) →
      nGot .mon mOut t1 ≤ nGot .mon mIn t1 → tries mIn t1 = tries mOut t1 ∧ ((∃ n, r = .done n) ∨ r = .sendError) := by
    intro r t1 h hin hout hle
    obtain ⟨s, u1, u2, rfl, h1, h2⟩ := h.rounds
    obtain ⟨a1, a2, a3⟩ := count_rounds hne h1
    rw [total_tree] at h2
    rcases count_round h2 with ⟨m, rfl, hx⟩ | ⟨y, z, rest, rfl, ⟨rfl, hx, m, rfl⟩ | ⟨rfl, hx, hz, ht⟩ | ⟨size', h3, h4, _, h5⟩⟩
    · have := hin (.read m) (by simp [gotOn_cons, gotOf]); simp at this
    · have := hout (.wrote m) (by simp [gotOn_cons, gotOf]); simp at this
    · exfalso
      obtain ⟨n1, n2, _⟩ := count_shape (mIn := mIn) (mOut := mOut) hne (y := y) (z := z) (rest := []) (size := 0) (by simp)
      simp only [nGot, gotOn_append, List.length_append] at *
      omega
    · obtain ⟨n1, n2, n3, n4, n5⟩ := count_shape (mIn := mIn) (mOut := mOut) hne (y := y) (z := z) h4
      refine ⟨?_, ?_⟩
      · simp only [tries, List.countP_append] at *; omega
      · rcases h5 r rfl with h | h
        · exact Or.inl ⟨_, h⟩
        · exact Or.inr h
  have dropTries : ∀ {t2 : List Ev} {l c}, t2 <+: dropEvs l → tries c t2 = 0 := by
    intro t2 l c hd
    unfold tries
    rw [List.countP_eq_zero]
    intro e he
    obtain ⟨k, c, _, rfl⟩ := mem_dropEvs hd e he
    simp [isTry]
  have ended : ∀ r t1 t2, LoopRuns (totalBody sender mIn mOut) (totalTask sender mIn mOut).init t1 r → tr = t1 ++ t2 →
      tries mIn tr = tries mOut tr ∧ ((∃ n, r = .done n) ∨ r = .sendError) := by
    rintro r t1 t2 h1 rfl
    have hd : t2 <+: dropEvs _ := Task.after (t := totalTask sender mIn mOut) h1 h
    simp only [nGot, gotOn_append, gotOn_drops hd, List.append_nil] at hin hout hle
    obtain ⟨b1, b2⟩ := stop h1 hin hout hle
    refine ⟨?_, b2⟩
    have z1 := dropTries (c := mIn) hd
    have z2 := dropTries (c := mOut) hd
    simp only [tries, List.countP_append] at *
    omega
  rcases h with h | ⟨r, t1, t2, h1, h2, rfl⟩
  · rcases lp h hin hout hle with h | h
    · exact Or.inl h
    · exact Or.inr ⟨h, fun r t1 t2 h1 h2 => (ended r t1 t2 h1 h2).2⟩
  · exact Or.inr ⟨(ended r t1 t2 h1 rfl).1, fun r t1 t2 h1 h2 => (ended r t1 t2 h1 h2).2⟩

/-- The second look comes after the first. -/
theorem count_tries (hne : mIn ≠ mOut) (h : (totalTask sender mIn mOut).Partial tr) : tries mOut tr ≤ tries mIn tr := by
  have lp : ∀ {tr : List Ev}, LoopPartial (totalBody sender mIn mOut) (totalTask sender mIn mOut).init tr → tries mOut tr ≤ tries mIn tr := by
    rintro tr ⟨s, t1, t2, h1, h2, rfl⟩
    obtain ⟨a1, a2, a3⟩ := count_rounds hne h1
    rw [total_tree] at h2
    suffices tries mOut t2 ≤ tries mIn t2 by simp only [tries, List.countP_append] at *; omega
    rcases count_body h2 with rfl | ⟨y, rfl, h⟩ | ⟨y, z, rest, rfl, h⟩
    · simp
    · simp [tries_cons, isTry, hne]
    · rcases h with ⟨rfl, m, rfl⟩ | ⟨rfl, hz, ht⟩ | ⟨size', h3, h4⟩
      · simp [tries_cons, isTry, hne, Ne.symm hne]
      · simp [tries_cons, isTry, hne, Ne.symm hne]
      · obtain ⟨n1, n2, n3, n4, n5⟩ := count_shape (mIn := mIn) (mOut := mOut) hne (y := y) (z := z) h4
        omega
  rcases h with h | ⟨r, t1, t2, h1, h2, rfl⟩
  · exact lp h
  · have := lp h1.toPartial
    have z : tries mOut t2 = 0 := by
      unfold tries
      rw [List.countP_eq_zero]
      intro e he
      obtain ⟨k, c, _, rfl⟩ := mem_dropEvs h2 e he
      simp [isTry]
    simp only [tries, List.countP_append] at *; omega

/-- The requests of the count. -/
def CountReq (mIn mOut : Nat) (q : Req) : Prop := q = .tryRecv .mon mIn ∨ q = .tryRecv .mon mOut ∨ ∃ size, RestReq size q

theorem count_only (s : Total) : (totalBody sender mIn mOut s).Only (CountReq mIn mOut) := by
  rw [total_tree]
  have rest : ∀ {b : BackOff} {moved : Bool} {size last : Nat}, (totalRest sender mIn mOut b moved size last).Only (CountReq mIn mOut) :=
    fun {b moved size last} => rest_only.mono fun q h => Or.inr (Or.inr ⟨size, h⟩)
  have second : ∀ size moved, (countSecond sender mIn mOut s size moved).Only (CountReq mIn mOut) := by
    intro size moved
    refine ⟨Or.inr (Or.inl rfl), fun z => ?_⟩
    cases z with
    | got m => cases m with
      | wrote m => exact trivial
      | read m =>
        show Prog.Only _ (if size = 0 then _ else _)
        split
        · exact trivial
        · exact rest
    | empty => exact rest
    | closed => exact rest
  refine ⟨Or.inl rfl, fun y => ?_⟩
  cases y with
  | got m => cases m with
    | wrote m => exact second _ _
    | read m => exact trivial
  | empty => exact second _ _
  | closed => exact second _ _

theorem countReq_open {e : Ev} (h : CountReq mIn mOut e.q) : closings [e] = [] := by
  obtain ⟨q, r⟩ := e
  apply closings_not_close
  intro k c hq
  simp only at h
  subst hq
  rcases h with h | h | ⟨_, h⟩
  · simp at h
  · simp at h
  · exact (h.1 k c).2.2 rfl

/-- A count that has closed something only closes from then on. -/
theorem count_closed (h : (totalTask sender mIn mOut).Partial (tr ++ [e])) (hc : closings tr ≠ []) : ∃ k c, e = ⟨.close k c, ()⟩ := by
  have lp : ∀ {t : List Ev}, LoopPartial (totalBody sender mIn mOut) (totalTask sender mIn mOut).init t → closings t = [] := by
    rintro t ⟨s, t1, t2, h1, h2, rfl⟩
    have all : ∀ t : List Ev, (∀ e ∈ t, CountReq mIn mOut e.q) → closings t = [] := by
      intro t ht
      induction t with
      | nil => rfl
      | cons e t ih => rw [closings_cons, countReq_open (ht e (by simp)), ih (fun e he => ht e (by simp [he]))]; rfl
    apply all
    intro e he
    rw [List.mem_append] at he
    rcases he with he | he
    · exact h1.only count_only e he
    · exact (count_only _).partial h2 e he
  rcases h with h | ⟨r, t1, t2, h1, h2, he⟩
  · have := lp h; simp at this; exact absurd this.1 hc
  · rcases List.eq_nil_or_concat t2 with rfl | ⟨t2', e', rfl⟩
    · have := lp h1.toPartial
      rw [List.append_nil] at he
      rw [← he] at this; simp at this; exact absurd this.1 hc
    · have : e = e' := by
        rw [List.concat_eq_append, ← List.append_assoc] at he
        have := congrArg List.getLast? he
        simpa using this
      subst this
      obtain ⟨k, c, _, rfl⟩ := mem_dropEvs h2 e (by simp)
      exact ⟨k, c, rfl⟩

end

end Verif
