import Verif.Lemmas.Prog
import Verif.Spec.Trace
namespace Verif

@[simp] theorem acts_nil : acts [] = [] := rfl
@[simp] theorem acts_append (a b : List Ev) : acts (a ++ b) = acts a ++ acts b := by simp [acts]
@[simp] theorem acts_cons (a : Ev) (b : List Ev) : acts (a :: b) = act a :: acts b := rfl

@[simp] theorem received_append (a b : List Ev) : received (a ++ b) = received a ++ received b := by simp [received]
@[simp] theorem offers_append (a b : List Ev) : offers (a ++ b) = offers a ++ offers b := by simp [offers]
@[simp] theorem spied_append (a b : List Ev) : spied (a ++ b) = spied a ++ spied b := by simp [spied]
@[simp] theorem notified_append (c : Nat) (a b : List Ev) : notified c (a ++ b) = notified c a ++ notified c b := by simp [notified]
@[simp] theorem closings_append (a b : List Ev) : closings (a ++ b) = closings a ++ closings b := by simp [closings]
@[simp] theorem endings_append (a b : List Ev) : endings (a ++ b) = endings a + endings b := by simp [endings]
@[simp] theorem receivedFrom_append (s : End) (a b : List Ev) : receivedFrom s (a ++ b) = receivedFrom s a ++ receivedFrom s b := by simp [receivedFrom]
@[simp] theorem offeredTo_append (s : End) (a b : List Ev) : offeredTo s (a ++ b) = offeredTo s a ++ offeredTo s b := by simp [offeredTo]
@[simp] theorem acceptedBy_append (s : End) (a b : List Ev) : acceptedBy s (a ++ b) = acceptedBy s a ++ acceptedBy s b := by simp [acceptedBy]

/-- What a read of `pull` looks like, with its result. -/
def ReadSees (pull : Pull) (A : List Act) : Except MErr IOW → Prop
  | .ok (.data d) => ∃ s, pull.source = some s ∧ A = [.got s d]
  | .ok .finished => (pull = .none ∧ A = []) ∨ ∃ s, pull.source = some s ∧ A = [.ended s]
  | .ok .skipped => ∃ s, pull.source = some s ∧ A = [.empty s]
  | .error (.readIO j e) => ∃ h, pull = .stream j h ∧ A = [.readErr h e]
  | .error .panic => A = []
  | .error _ => False

theorem motionRead_runs {pull : Pull} {t : Bool} {tr : List Ev} {r : Except MErr IOW}
    (h : MRuns (motionRead pull t) tr r) : ReadSees pull (acts tr) r := by
  unfold motionRead at h
  split at h
  · simp at h; obtain ⟨rfl, rfl⟩ := h; exact Or.inl ⟨rfl, rfl⟩
  · rename_i j c
    rw [mruns_bind] at h
    rcases h with ⟨e, _, h⟩ | ⟨t1, a, t2, rfl, h1, h2⟩
    · rw [mruns_ask] at h; obtain ⟨_, _, h⟩ := h; simp at h
    · rw [mruns_ask] at h1
      obtain ⟨v, rfl, hv⟩ := h1
      simp at hv; subst hv
      cases a with
      | none => simp at h2; obtain ⟨rfl, rfl⟩ := h2; exact Or.inr ⟨_, rfl, rfl⟩
      | some d => simp at h2; obtain ⟨rfl, rfl⟩ := h2; exact ⟨_, rfl, rfl⟩
  · rename_i j c
    rw [mruns_bind] at h
    rcases h with ⟨e, _, h⟩ | ⟨t1, a, t2, rfl, h1, h2⟩
    · rw [mruns_ask] at h; obtain ⟨_, _, h⟩ := h; simp at h
    · rw [mruns_ask] at h1
      obtain ⟨v, rfl, hv⟩ := h1
      simp at hv; subst hv
      cases a with
      | got d => simp at h2; obtain ⟨rfl, rfl⟩ := h2; exact ⟨_, rfl, rfl⟩
      | empty => simp at h2; obtain ⟨rfl, rfl⟩ := h2; exact ⟨_, rfl, rfl⟩
      | closed => simp at h2; obtain ⟨rfl, rfl⟩ := h2; exact Or.inr ⟨_, rfl, rfl⟩
  · rename_i j c
    rw [mruns_bind] at h
    rcases h with ⟨e, _, h⟩ | ⟨t1, a, t2, rfl, h1, h2⟩
    · rw [mruns_ask] at h; obtain ⟨_, _, h⟩ := h; simp at h
    · rw [mruns_ask] at h1
      obtain ⟨v, rfl, hv⟩ := h1
      simp at hv; subst hv
      cases a with
      | line d => simp at h2; obtain ⟨rfl, rfl⟩ := h2; exact ⟨_, rfl, rfl⟩
      | eof => simp at h2; obtain ⟨rfl, rfl⟩ := h2; exact Or.inr ⟨_, rfl, rfl⟩
      | err e => simp at h2; obtain ⟨rfl, rfl⟩ := h2; exact ⟨_, rfl, rfl⟩
  · simp at h; obtain ⟨rfl, rfl⟩ := h; rfl
  · simp at h; obtain ⟨rfl, rfl⟩ := h; rfl

/-- An outcome `w` that a push can have. -/
def Push.possible : Push → WOut → Prop
  | .none, _ => False
  | .sender _ _, .ok => True
  | .sender _ _, .closed .channelClosed => True
  | .sender _ _, _ => False
  | .io _ _, .ok => True
  | .io _ _, .closed .brokenPipe => True
  | .io _ _, .closed .channelClosed => False
  | .io _ _, .other _ => True

/-- The error for an outcome. -/
def Push.writeErr (p : Push) (d : Bytes) : WOut → Option MErr
  | .ok => Option.none
  | .closed why => p.journey.map fun j => .outputClosed j why d
  | .other e => p.journey.map fun j => .writeIO j e d

theorem motionWrite_runs {p : Push} {d : Bytes} {tr : List Ev} {r : Except MErr Unit}
    (h : MRuns (motionWrite p d) tr r) :
    (p = .none ∧ tr = [] ∧ r = .ok ()) ∨
    ∃ t w, p.target = some t ∧ p.possible w ∧ acts tr = [.offer t d w] ∧
      r = (match p.writeErr d w with | some e => .error e | Option.none => .ok ()) := by
  unfold motionWrite at h
  split at h
  · simp at h; exact Or.inl ⟨rfl, h.1, h.2⟩
  · rename_i j c d
    right
    rw [mruns_bind] at h
    rcases h with ⟨e, _, h⟩ | ⟨t1, a, t2, rfl, h1, h2⟩
    · rw [mruns_ask] at h; obtain ⟨_, _, h⟩ := h; simp at h
    · rw [mruns_ask] at h1
      obtain ⟨v, rfl, hv⟩ := h1
      simp at hv; subst hv
      cases a with
      | true =>
        simp at h2; obtain ⟨rfl, rfl⟩ := h2
        exact ⟨_, .ok, rfl, trivial, rfl, rfl⟩
      | false =>
        simp at h2; obtain ⟨rfl, rfl⟩ := h2
        exact ⟨_, .closed .channelClosed, rfl, trivial, rfl, rfl⟩
  · rename_i j c d
    right
    rw [mruns_bind] at h
    rcases h with ⟨e, _, h⟩ | ⟨t1, a, t2, rfl, h1, h2⟩
    · rw [mruns_ask] at h; obtain ⟨_, _, h⟩ := h; simp at h
    · rw [mruns_ask] at h1
      obtain ⟨v, rfl, hv⟩ := h1
      simp at hv; subst hv
      cases a with
      | ok => simp at h2; obtain ⟨rfl, rfl⟩ := h2; exact ⟨_, .ok, rfl, trivial, rfl, rfl⟩
      | brokenPipe => simp at h2; obtain ⟨rfl, rfl⟩ := h2; exact ⟨_, .closed .brokenPipe, rfl, trivial, rfl, rfl⟩
      | other e => simp at h2; obtain ⟨rfl, rfl⟩ := h2; exact ⟨_, .other e, rfl, trivial, rfl, rfl⟩

/-- The effect of one output's outcome on the count of unfinished outputs. -/
def afterOutcome (p : Push) (d : Bytes) (w : WOut) (n : Nat) : Except MErr Nat :=
  match w, p.breakable with
  | .ok, _ => .ok n
  | .closed _, .finish => .ok (n - 1)
  | .closed _, .consume => .ok n
  | w, _ => match p.writeErr d w with | some e => .error e | Option.none => .ok n

theorem possible_writeErr {p : Push} {d : Bytes} {w : WOut} (h : p.possible w) (hw : w ≠ .ok) :
    ∃ j, p.journey = some j ∧
      ((∃ why, w = .closed why ∧ p.writeErr d w = some (.outputClosed j why d)) ∨
       (∃ e, w = .other e ∧ p.writeErr d w = some (.writeIO j e d))) := by
  cases p with
  | none => simp [Push.possible] at h
  | sender j c =>
    refine ⟨j, rfl, ?_⟩
    cases w with
    | ok => simp at hw
    | closed why => left; exact ⟨why, rfl, rfl⟩
    | other e => simp [Push.possible] at h
  | io j c =>
    refine ⟨j, rfl, ?_⟩
    cases w with
    | ok => simp at hw
    | closed why => left; exact ⟨why, rfl, rfl⟩
    | other e => right; exact ⟨e, rfl, rfl⟩

theorem writeOne_runs {p : Push} {d : Bytes} {n : Nat} {tr : List Ev} {r : Except MErr Nat}
    (h : MRuns (writeOne (.data d) p n) tr r) :
    (p = .none ∧ tr = [] ∧ r = .ok n) ∨
    ∃ t w, p.target = some t ∧ p.possible w ∧ acts tr = [.offer t d w] ∧ r = afterOutcome p d w n := by
  unfold writeOne at h
  simp only at h
  split at h
  · rename_i hb
    rw [mruns_bind] at h
    rcases h with ⟨e, rfl, h⟩ | ⟨t1, a, t2, rfl, h1, h2⟩
    · rcases motionWrite_runs h with ⟨_, _, h⟩ | ⟨t, w, h1, h2, h3, h4⟩
      · simp at h
      · right
        refine ⟨t, w, h1, h2, h3, ?_⟩
        cases w with
        | ok => simp [Push.writeErr] at h4
        | closed why => simp [afterOutcome, hb]; split at h4 <;> simp_all
        | other e => simp [afterOutcome]; split at h4 <;> simp_all
    · simp at h2; obtain ⟨rfl, rfl⟩ := h2
      rcases motionWrite_runs h1 with ⟨h3, h4, h⟩ | ⟨t, w, h1, h2, h3, h4⟩
      · left; exact ⟨h3, by simp [h4], rfl⟩
      · right
        refine ⟨t, w, h1, h2, by simp [h3], ?_⟩
        by_cases hw : w = .ok
        · subst hw; simp [afterOutcome]
        · obtain ⟨j, _, h5⟩ := possible_writeErr (d := d) h2 hw
          rcases h5 with ⟨_, _, h5⟩ | ⟨_, _, h5⟩ <;> simp [h5] at h4
  · rename_i b hb
    rw [mruns_tryCatch] at h
    rcases h with ⟨a, rfl, h⟩ | ⟨t1, e, t2, rfl, h, h'⟩
    · rw [mruns_bind] at h
      rcases h with ⟨e, h0, h⟩ | ⟨t1, a, t2, rfl, h1, h2⟩
      · simp at h0
      · simp at h2; obtain ⟨rfl, rfl⟩ := h2
        rcases motionWrite_runs h1 with ⟨h3, h4, h⟩ | ⟨t, w, h1, h2, h3, h4⟩
        · left; exact ⟨h3, by simp [h4], rfl⟩
        · right
          refine ⟨t, w, h1, h2, by simp [h3], ?_⟩
          by_cases hw : w = .ok
          · subst hw; simp [afterOutcome]
          · obtain ⟨j, _, h5⟩ := possible_writeErr (d := d) h2 hw
            rcases h5 with ⟨_, _, h5⟩ | ⟨_, _, h5⟩ <;> simp [h5] at h4
    · rw [mruns_bind] at h
      rcases h with ⟨e', h0, h⟩ | ⟨t1', a, t2', rfl, h1, h2⟩
      · simp at h0; subst h0
        rcases motionWrite_runs h with ⟨_, _, h⟩ | ⟨t, w, h1, h2, h3, h4⟩
        · simp at h
        · right
          have hw : w ≠ .ok := by rintro rfl; simp [Push.writeErr] at h4
          obtain ⟨j, hj, h5⟩ := possible_writeErr (d := d) h2 hw
          rcases h5 with ⟨why, rfl, h5⟩ | ⟨e', rfl, h5⟩
          · simp [h5] at h4; subst h4
            simp at h'
            obtain ⟨rfl, rfl⟩ := h'
            refine ⟨t, _, h1, h2, by simp [h3], ?_⟩
            cases hbb : p.breakable with
            | terminate => exact absurd hbb hb
            | finish => simp [afterOutcome, hbb]
            | consume => simp [afterOutcome, hbb]
          · simp [h5] at h4; subst h4
            simp at h'
            obtain ⟨rfl, rfl⟩ := h'
            refine ⟨t, _, h1, h2, by simp [h3], ?_⟩
            simp [afterOutcome, h5]
      · simp at h2

theorem writeOne_runs_nodata {p : Push} {x : IOW} (hx : ∀ d, x ≠ .data d) {n : Nat} {tr : List Ev} {r : Except MErr Nat}
    (h : MRuns (writeOne x p n) tr r) : tr = [] ∧ r = .ok n := by
  cases x with
  | data d => simp at hx
  | finished => simpa [writeOne] using h
  | skipped => simpa [writeOne] using h

/-- The spy record an output calls for. -/
def spyRecord (data : IOW) (p : Push) : Option SpyMsg :=
  match p.journey with
  | some ⟨src, some port, dst, _⟩ => some { src := src, dst := dst, srcPort := port, msg := data }
  | _ => none

theorem spyOne_runs {spy : Option Nat} {x : IOW} {p : Push} {tr : List Ev} {r : Except MErr Unit}
    (h : MRuns (spyOne spy x p) tr r) :
    ((spy = none ∨ spyRecord x p = none) ∧ tr = [] ∧ r = .ok ()) ∨
    ∃ c m b, spy = some c ∧ spyRecord x p = some m ∧ acts tr = [.spy c m b] ∧
      r = if b then .ok () else .error (.spyWrite m) := by
  unfold spyOne at h
  split at h
  · rename_i c src port dst br hj
    rw [mruns_bind] at h
    rcases h with ⟨e, _, h⟩ | ⟨t1, a, t2, rfl, h1, h2⟩
    · rw [mruns_ask] at h; obtain ⟨_, _, h⟩ := h; simp at h
    · rw [mruns_ask] at h1
      obtain ⟨v, rfl, hv⟩ := h1
      simp at hv; subst hv
      right
      refine ⟨c, _, a, rfl, by simp [spyRecord, hj]; rfl, ?_, ?_⟩
      · cases a <;> simp at h2 <;> obtain ⟨rfl, rfl⟩ := h2 <;> rfl
      · cases a <;> simp at h2 <;> obtain ⟨rfl, rfl⟩ := h2 <;> rfl
  · rename_i spy _ _ hne
    simp at h
    left
    refine ⟨?_, h.1, h.2⟩
    cases spy with
    | none => left; rfl
    | some c =>
      right
      unfold spyRecord
      split
      · rename_i src port dst br hj; exact absurd hj (hne c src port dst br rfl)
      · rfl

theorem notifyRead_runs {mon : Notifications} {pull : Pull} {tr : List Ev} {r : Except MErr Unit}
    (h : MRuns (notifyRead mon pull) tr r) :
    (mon.read = none ∧ tr = [] ∧ r = .ok ()) ∨
    ∃ c b, mon.read = some c ∧ acts tr = [.mon c (.read 0) b] ∧
      r = if b then .ok () else match pull.journey with | some j => .error (.monitorRead j.src) | none => .error .panic := by
  unfold notifyRead at h
  split at h
  · rename_i c hc
    rw [mruns_bind] at h
    rcases h with ⟨e, _, h⟩ | ⟨t1, a, t2, rfl, h1, h2⟩
    · rw [mruns_ask] at h; obtain ⟨_, _, h⟩ := h; simp at h
    · rw [mruns_ask] at h1
      obtain ⟨v, rfl, hv⟩ := h1
      simp at hv; subst hv
      right
      refine ⟨c, a, hc, ?_⟩
      cases a
      · simp at h2
        split at h2 <;> simp at h2 <;> obtain ⟨rfl, rfl⟩ := h2 <;> simp_all [act]
      · simp at h2; obtain ⟨rfl, rfl⟩ := h2; simp [act]
  · rename_i hc; simp at h; exact Or.inl ⟨hc, h.1, h.2⟩

theorem notifyWritten_runs {mon : Notifications} {pull : Pull} {tr : List Ev} {r : Except MErr Unit}
    (h : MRuns (notifyWritten mon pull) tr r) :
    (mon.written = none ∧ tr = [] ∧ r = .ok ()) ∨
    ∃ c b, mon.written = some c ∧ acts tr = [.mon c (.wrote 0) b] ∧
      r = if b then .ok () else match pull.journey with | some j => .error (.monitorWrite j) | none => .error .panic := by
  unfold notifyWritten at h
  split at h
  · rename_i c hc
    rw [mruns_bind] at h
    rcases h with ⟨e, _, h⟩ | ⟨t1, a, t2, rfl, h1, h2⟩
    · rw [mruns_ask] at h; obtain ⟨_, _, h⟩ := h; simp at h
    · rw [mruns_ask] at h1
      obtain ⟨v, rfl, hv⟩ := h1
      simp at hv; subst hv
      right
      refine ⟨c, a, hc, ?_⟩
      cases a
      · simp at h2
        split at h2 <;> simp at h2 <;> obtain ⟨rfl, rfl⟩ := h2 <;> simp_all [act]
      · simp at h2; obtain ⟨rfl, rfl⟩ := h2; simp [act]
  · rename_i hc; simp at h; exact Or.inl ⟨hc, h.1, h.2⟩

theorem pushAll_cons {x : IOW} {spy : Option Nat} {p : Push} {ps : List Push} {n : Nat} {tr : List Ev}
    {r : Except MErr Nat} (h : MRuns (pushAll x spy (p :: ps) n) tr r) :
    (∃ e, r = .error e ∧ MRuns (writeOne x p n) tr (.error e)) ∨
    (∃ n' t1 t2, tr = t1 ++ t2 ∧ MRuns (writeOne x p n) t1 (.ok n') ∧
      ((∃ e, r = .error e ∧ MRuns (spyOne spy x p) t2 (.error e)) ∨
        ∃ t3 t4, t2 = t3 ++ t4 ∧ MRuns (spyOne spy x p) t3 (.ok ()) ∧ MRuns (pushAll x spy ps n') t4 r)) := by
  unfold pushAll at h
  rw [mruns_bind] at h
  rcases h with ⟨e, h1, h2⟩ | ⟨t1, a, t2, rfl, h1, h2⟩
  · exact Or.inl ⟨e, h1, h2⟩
  · right
    refine ⟨a, t1, t2, rfl, h1, ?_⟩
    rw [mruns_bind] at h2
    rcases h2 with ⟨e, h3, h4⟩ | ⟨t3, _, t4, rfl, h3, h4⟩
    · exact Or.inl ⟨e, h3, h4⟩
    · exact Or.inr ⟨t3, t4, rfl, h3, h4⟩

/-- Acts other than offers and spy records. -/
def Act.isQuiet : Act → Bool
  | .offer .. => false
  | .spy .. => false
  | _ => true

theorem pushAll_quiet {x : IOW} {spy : Option Nat} {ps : List Push} {n : Nat} {tr : List Ev}
    {r : Except MErr Nat} (h : MRuns (pushAll x spy ps n) tr r) : ∀ a ∈ acts tr, a.isQuiet = false := by
  induction ps generalizing n tr r with
  | nil => simp [pushAll] at h; simp [h.1]
  | cons p ps ih =>
    have hw : ∀ {t r}, MRuns (writeOne x p n) t r → ∀ a ∈ acts t, a.isQuiet = false := by
      intro t r h
      cases x with
      | data d =>
        rcases writeOne_runs h with ⟨_, rfl, _⟩ | ⟨_, w, _, _, h, _⟩
        · simp
        · simp [h, Act.isQuiet]
      | finished => rw [(writeOne_runs_nodata (by simp) h).1]; simp
      | skipped => rw [(writeOne_runs_nodata (by simp) h).1]; simp
    have hs : ∀ {t r}, MRuns (spyOne spy x p) t r → ∀ a ∈ acts t, a.isQuiet = false := by
      intro t r h
      rcases spyOne_runs h with ⟨_, rfl, _⟩ | ⟨_, w, _, _, _, h, _⟩
      · simp
      · simp [h, Act.isQuiet]
    rcases pushAll_cons h with ⟨e, _, h⟩ | ⟨n', t1, t2, rfl, h1, h2⟩
    · exact hw h
    · intro a ha
      simp at ha
      rcases ha with ha | ha
      · exact hw h1 a ha
      · rcases h2 with ⟨e, _, h⟩ | ⟨t3, t4, rfl, h3, h4⟩
        · exact hs h a ha
        · simp at ha
          rcases ha with ha | ha
          · exact hs h3 a ha
          · exact ih h4 a ha

theorem filterMap_eq_nil_of_quiet {β : Type} (f : Act → Option β) {A : List Act}
    (hf : ∀ a, a.isQuiet = false → f a = none) (h : ∀ a ∈ A, a.isQuiet = false) : A.filterMap f = [] := by
  rw [List.filterMap_eq_nil_iff]; exact fun a ha => hf a (h a ha)

theorem quiet_received {tr : List Ev} (h : ∀ a ∈ acts tr, a.isQuiet = false) : received tr = [] :=
  filterMap_eq_nil_of_quiet _ (by intro a; cases a <;> simp [Act.isQuiet]) h
theorem quiet_receivedFrom {tr : List Ev} (s : End) (h : ∀ a ∈ acts tr, a.isQuiet = false) : receivedFrom s tr = [] :=
  filterMap_eq_nil_of_quiet _ (by intro a; cases a <;> simp [Act.isQuiet]) h
theorem quiet_notified {tr : List Ev} (c : Nat) (h : ∀ a ∈ acts tr, a.isQuiet = false) : notified c tr = [] :=
  filterMap_eq_nil_of_quiet _ (by intro a; cases a <;> simp [Act.isQuiet]) h
theorem quiet_closings {tr : List Ev} (h : ∀ a ∈ acts tr, a.isQuiet = false) : closings tr = [] :=
  filterMap_eq_nil_of_quiet _ (by intro a; cases a <;> simp [Act.isQuiet]) h
theorem quiet_endings {tr : List Ev} (h : ∀ a ∈ acts tr, a.isQuiet = false) : endings tr = 0 := by
  unfold endings
  rw [List.countP_eq_zero]
  intro a ha
  have := h a ha
  cases a <;> simp_all [Act.isQuiet]

end Verif
