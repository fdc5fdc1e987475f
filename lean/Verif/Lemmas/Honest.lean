import Verif.Spec.Exit
import Verif.Lemmas.Fails
import Verif.Lemmas.Errors
import Verif.Lemmas.RuntimeExit
/-!
# Errors and fatal events

What ends with an error is what met something fatal.
-/
namespace Verif

variable {S : End → Prop}

@[simp] theorem failed_nil : ¬ Failed S [] := by simp [Failed, acts]

@[simp] theorem failed_append {t u : List Ev} : Failed S (t ++ u) ↔ Failed S t ∨ Failed S u := by
  simp only [Failed, acts_append, List.mem_append]
  constructor
  · rintro ⟨a, h | h, f⟩
    · exact Or.inl ⟨a, h, f⟩
    · exact Or.inr ⟨a, h, f⟩
  · rintro (⟨a, h, f⟩ | ⟨a, h, f⟩)
    · exact ⟨a, Or.inl h, f⟩
    · exact ⟨a, Or.inr h, f⟩

theorem failed_one {e : Ev} : Failed S [e] ↔ (act e).fatal S := by simp [Failed, acts]

theorem failed_drops {l : List (Kind × Nat)} : ¬ Failed S (dropEvs l) := by
  rintro ⟨a, ha, hf⟩
  simp only [acts, dropEvs, List.map_map, List.mem_map, Function.comp] at ha
  obtain ⟨x, _, rfl⟩ := ha
  exact hf

/-- Whatever happens while it runs is harmless. -/
def Calm {α : Type} (S : End → Prop) (p : Prog α) : Prop := ∀ tr a, p.Runs tr a → ¬ Failed S tr

theorem Calm.bind {α β : Type} {p : Prog α} {f : α → Prog β} (hp : Calm S p) (hf : ∀ a, Calm S (f a)) : Calm S (p >>= f) := by
  intro tr b h
  rw [Prog.runs_bind] at h
  obtain ⟨t1, a, t2, rfl, h1, h2⟩ := h
  rw [failed_append]
  rintro (h | h)
  · exact hp _ _ h1 h
  · exact hf _ _ _ h2 h

theorem calm_pure {α : Type} (a : α) : Calm S (pure a : Prog α) := by
  rintro tr b ⟨rfl, _⟩; simp

theorem calm_req {q : Req} (h : ∀ r, ¬ (act ⟨q, r⟩).fatal S) : Calm S (req q) := by
  intro tr r hr
  rw [Prog.runs_req] at hr
  subst hr
  rw [failed_one]; exact h r

/-- The last event is fatal, and no other. -/
def Struck (S : End → Prop) (tr : List Ev) : Prop := ∃ t x, tr = t ++ [x] ∧ ¬ Failed S t ∧ (act x).fatal S

theorem Struck.failed {tr : List Ev} (h : Struck S tr) : Failed S tr := by
  obtain ⟨t, x, rfl, _, h⟩ := h
  rw [failed_append, failed_one]; exact Or.inr h

theorem Struck.after {t tr : List Ev} (h : ¬ Failed S t) (hs : Struck S tr) : Struck S (t ++ tr) := by
  obtain ⟨u, x, rfl, h1, h2⟩ := hs
  exact ⟨t ++ u, x, by simp, by rw [failed_append]; rintro (h' | h') <;> contradiction, h2⟩

theorem struck_one {e : Ev} (h : (act e).fatal S) : Struck S [e] := ⟨[], e, rfl, failed_nil, h⟩

/-- It ends with an error exactly if it meets something fatal, and at once. -/
def Honest {α : Type} (S : End → Prop) (p : M α) : Prop := ∀ tr r, MRuns p tr r → match r with
  | .ok _ => ¬ Failed S tr
  | .error _ => Struck S tr

theorem Honest.struck {α : Type} {p : M α} (h : Honest S p) {tr : List Ev} {e : MErr} (hr : MRuns p tr (.error e)) : Struck S tr := h _ _ hr
theorem Honest.error {α : Type} {p : M α} (h : Honest S p) {tr : List Ev} {e : MErr} (hr : MRuns p tr (.error e)) : Failed S tr := (h.struck hr).failed
theorem Honest.ok {α : Type} {p : M α} (h : Honest S p) {tr : List Ev} {a : α} (hr : MRuns p tr (.ok a)) : ¬ Failed S tr := h _ _ hr

theorem Honest.iff {α : Type} {p : M α} (h : Honest S p) {tr : List Ev} {r : Except MErr α} (hr : MRuns p tr r) : (∃ e, r = .error e) ↔ Failed S tr := by
  cases r with
  | ok a => exact ⟨(by rintro ⟨e, he⟩; cases he), fun hf => absurd hf (h.ok hr)⟩
  | error e => exact ⟨fun _ => h.error hr, fun _ => ⟨e, rfl⟩⟩

theorem honest_of {α : Type} {p : M α} (h1 : ∀ tr e, MRuns p tr (.error e) → Struck S tr) (h2 : ∀ tr a, MRuns p tr (.ok a) → ¬ Failed S tr) : Honest S p := by
  intro tr r h
  cases r with
  | error e => exact h1 _ _ h
  | ok a => exact h2 _ _ h

theorem Honest.bind {α β : Type} {p : M α} {f : α → M β} (hp : Honest S p) (hf : ∀ a, Honest S (f a)) : Honest S (p >>= f) := by
  refine honest_of ?_ ?_
  · intro tr e h
    rw [mruns_bind] at h
    rcases h with ⟨e', h0, h⟩ | ⟨t1, a, t2, rfl, h1, h2⟩
    · exact hp.struck h
    · exact ((hf a).struck h2).after (hp.ok h1)
  · intro tr b h
    rw [mruns_bind] at h
    rcases h with ⟨e', h0, h⟩ | ⟨t1, a, t2, rfl, h1, h2⟩
    · cases h0
    · rw [failed_append]
      rintro (h | h)
      · exact hp.ok h1 h
      · exact (hf a).ok h2 h

theorem honest_pure {α : Type} (a : α) : Honest S (pure a : M α) := honest_of (by rintro tr e ⟨_, h⟩; cases h) (by rintro tr b ⟨rfl, _⟩; simp)

/-- Asking, where bad answers end it with an error. -/
theorem honest_ask {β : Type} {q : Req} {f : q.Resp → M β}
    (h : ∀ r, ((act ⟨q, r⟩).fatal S ∧ ∃ e, f r = throw e) ∨ (¬ (act ⟨q, r⟩).fatal S ∧ Honest S (f r))) : Honest S (ask q >>= f) := by
  have key : ∀ tr r, MRuns (ask q >>= f) tr r → ∃ v t, tr = ⟨q, v⟩ :: t ∧ MRuns (f v) t r := by
    intro tr r hr
    rw [mruns_bind] at hr
    rcases hr with ⟨e', h0, h'⟩ | ⟨t1, a, t2, rfl, h1, h2⟩
    · rw [mruns_ask] at h'; obtain ⟨v, _, h'⟩ := h'; simp at h'
    · rw [mruns_ask] at h1
      obtain ⟨v, rfl, h1⟩ := h1
      simp at h1
      subst h1
      exact ⟨a, t2, rfl, h2⟩
  refine honest_of ?_ ?_
  · intro tr e hr
    obtain ⟨v, t, rfl, hr'⟩ := key _ _ hr
    rcases h v with ⟨h, e', he⟩ | ⟨h0, h⟩
    · rw [he] at hr'; obtain ⟨rfl, _⟩ := hr'
      exact struck_one h
    · exact (h.struck hr').after (by rw [failed_one]; exact h0)
  · intro tr a hr
    obtain ⟨v, t, rfl, hr'⟩ := key _ _ hr
    rw [show (⟨q, v⟩ : Ev) :: t = [⟨q, v⟩] ++ t from rfl, failed_append, failed_one]
    rcases h v with ⟨_, e, he⟩ | ⟨h0, h⟩
    · rw [he] at hr'; obtain ⟨_, hr'⟩ := hr'; cases hr'
    · rintro (hf | hf)
      · exact h0 hf
      · exact h.ok hr' hf

theorem honest_one {q : Req} (h : ∀ r, ¬ (act ⟨q, r⟩).fatal S) : Honest S (ask q) := by
  refine honest_of ?_ ?_
  · intro tr e hr
    rw [mruns_ask] at hr; obtain ⟨v, _, h'⟩ := hr; simp at h'
  · intro tr a hr
    rw [mruns_ask] at hr; obtain ⟨v, rfl, h'⟩ := hr
    rw [failed_one]; exact h v

theorem honest_lift {α : Type} {p : Prog α} (h : Calm S p) : Honest S (ExceptT.lift p : M α) := by
  have key : ∀ tr r, MRuns (ExceptT.lift p : M α) tr r → ∃ a, r = .ok a ∧ p.Runs tr a := by
    intro tr r hr
    have hr : Prog.Runs (Prog.bind p (fun a => Prog.ret (Except.ok a))) tr r := hr
    rw [Prog.runs_bind'] at hr
    obtain ⟨t1, a, t2, rfl, h1, rfl, h3⟩ := hr
    exact ⟨a, h3, by simpa using h1⟩
  refine honest_of ?_ ?_
  · intro tr e hr; obtain ⟨a, h0, _⟩ := key _ _ hr; cases h0
  · intro tr a hr; obtain ⟨a, _, h1⟩ := key _ _ hr; exact h _ _ h1

/-- The output's pipe variation says whether it stops there. -/
def Push.Fits (S : End → Prop) (p : Push) : Prop := ∀ t, p.target = some t → (S t ↔ p.breakable = .terminate)

theorem motionRead_honest {pull : Pull} {b : Bool} (hb : b = true → ∃ j c, pull = .receiver j c) : Honest S (motionRead pull b) := by
  cases pull with
  | none => cases b with
    | false => exact honest_pure _
    | true => obtain ⟨_, _, h⟩ := hb rfl; cases h
  | receiver j c =>
    cases b
    · exact honest_ask fun r => Or.inr (by cases r <;> exact ⟨by simp [act, Act.fatal], honest_pure _⟩)
    · exact honest_ask fun r => Or.inr (by cases r <;> exact ⟨by simp [act, Act.fatal], honest_pure _⟩)
  | stream j hh =>
    cases b with
    | true => obtain ⟨_, _, h⟩ := hb rfl; cases h
    | false =>
      refine honest_ask fun r => ?_
      cases r
      · exact Or.inr ⟨by simp [act, Act.fatal], honest_pure _⟩
      · exact Or.inr ⟨by simp [act, Act.fatal], honest_pure _⟩
      · exact Or.inl ⟨by simp [act, Act.fatal], _, rfl⟩

theorem motionWrite_honest {push : Push} {d : Bytes} (h : push.Fits S) (ht : push.breakable = .terminate) : Honest S (motionWrite push d) := by
  cases push with
  | none => exact honest_pure _
  | sender j c =>
    refine honest_ask fun r => ?_
    cases r
    · exact Or.inl ⟨by simpa [act, Act.fatal] using (h _ rfl).mpr ht, _, rfl⟩
    · exact Or.inr ⟨by simp [act, Act.fatal], honest_pure _⟩
  | io j hh =>
    refine honest_ask fun r => ?_
    cases r
    · exact Or.inr ⟨by simp [act, Act.fatal], honest_pure _⟩
    · exact Or.inl ⟨by simpa [act, Act.fatal] using (h _ rfl).mpr ht, _, rfl⟩
    · exact Or.inl ⟨by simp [act, Act.fatal], _, rfl⟩

/-- Where it does not stop, being told so is an error that is not fatal. -/
theorem motionWrite_error {push : Push} {d : Bytes} (h : push.Fits S) (ht : push.breakable ≠ .terminate) {tr : List Ev} {r : Except MErr Unit}
    (hr : MRuns (motionWrite push d) tr r) :
    (r = .ok () ∧ ¬ Failed S tr) ∨ (∃ j w d', r = .error (.outputClosed j w d') ∧ ¬ Failed S tr) ∨ (∃ j e d', r = .error (.writeIO j e d') ∧ Struck S tr) := by
  cases push with
  | none => obtain ⟨rfl, rfl⟩ := hr; exact Or.inl ⟨rfl, failed_nil⟩
  | sender j c =>
    have hr : MRuns (ask (.send .data c d) >>= fun b => if b then pure () else throw (.outputClosed j .channelClosed d)) tr r := hr
    rw [mruns_bind] at hr
    rcases hr with ⟨e', h0, h'⟩ | ⟨t1, a, t2, rfl, h1, h2⟩
    · rw [mruns_ask] at h'; obtain ⟨v, _, h'⟩ := h'; simp at h'
    rw [mruns_ask] at h1
    obtain ⟨v, rfl, h1⟩ := h1
    cases a with
    | false =>
      cases h1
      obtain ⟨rfl, rfl⟩ := h2
      refine Or.inr (Or.inl ⟨_, _, _, rfl, ?_⟩)
      rw [List.append_nil, failed_one]
      simp only [act, Bool.false_eq_true, ↓reduceIte, Act.fatal]
      exact fun hs => ht ((h _ rfl).mp hs)
    | true =>
      cases h1
      obtain ⟨rfl, rfl⟩ := h2
      refine Or.inl ⟨rfl, ?_⟩
      rw [List.append_nil, failed_one]
      simp [act, Act.fatal]
  | io j hh =>
    simp only [motionWrite] at hr
    rw [mruns_bind] at hr
    rcases hr with ⟨e', h0, h'⟩ | ⟨t1, a, t2, rfl, h1, h2⟩
    · rw [mruns_ask] at h'; obtain ⟨v, _, h'⟩ := h'; simp at h'
    rw [mruns_ask] at h1
    obtain ⟨v, rfl, h1⟩ := h1
    cases h1
    cases a with
    | ok =>
      obtain ⟨rfl, rfl⟩ := h2
      refine Or.inl ⟨rfl, ?_⟩
      rw [List.append_nil, failed_one]
      simp [act, Act.fatal]
    | brokenPipe =>
      obtain ⟨rfl, rfl⟩ := h2
      refine Or.inr (Or.inl ⟨_, _, _, rfl, ?_⟩)
      rw [List.append_nil, failed_one]
      exact fun hs => ht ((h _ rfl).mp hs)
    | other e =>
      obtain ⟨rfl, rfl⟩ := h2
      refine Or.inr (Or.inr ⟨_, _, _, rfl, ?_⟩)
      rw [List.append_nil]
      exact struck_one (by simp [act, Act.fatal])

theorem writeOne_honest {x : IOW} {push : Push} {n : Nat} (h : push.Fits S) : Honest S (writeOne x push n) := by
  cases x with
  | finished => exact honest_pure _
  | skipped => exact honest_pure _
  | data d =>
    simp only [writeOne]
    split
    · rename_i hb
      exact Honest.bind (motionWrite_honest h hb) fun _ => honest_pure _
    · rename_i b hb
      have ht : push.breakable ≠ .terminate := hb
      have key : ∀ t r, MRuns (do motionWrite push d; pure n : M Nat) t r →
          (r = .ok n ∧ ¬ Failed S t) ∨ (∃ j w d', r = .error (.outputClosed j w d') ∧ ¬ Failed S t) ∨ (∃ j e d', r = .error (.writeIO j e d') ∧ Struck S t) := by
        intro t r hr
        rw [mruns_bind] at hr
        rcases hr with ⟨e, rfl, hr⟩ | ⟨t1, a, t2, rfl, h1, rfl, rfl⟩
        · rcases motionWrite_error h ht hr with ⟨h0, _⟩ | ⟨j, w, d', he, hf⟩ | ⟨j, w, d', he, hf⟩
          · cases h0
          · cases he; exact Or.inr (Or.inl ⟨j, w, d', rfl, hf⟩)
          · cases he; exact Or.inr (Or.inr ⟨j, w, d', rfl, hf⟩)
        · rcases motionWrite_error h ht h1 with ⟨_, hf⟩ | ⟨j, w, d', he, hf⟩ | ⟨j, w, d', he, hf⟩
          · exact Or.inl ⟨rfl, by simpa using hf⟩
          · cases he
          · cases he
      refine honest_of ?_ ?_
      · intro tr e hr
        rw [mruns_tryCatch] at hr
        rcases hr with ⟨a, h0, _⟩ | ⟨t1, e', t2, rfl, h1, h2⟩
        · cases h0
        · rcases key _ _ h1 with ⟨h0, _⟩ | ⟨j, w, d', he, hf⟩ | ⟨j, w, d', he, hf⟩
          · cases h0
          · cases he; obtain ⟨_, h2⟩ := h2; cases h2
          · cases he; obtain ⟨rfl, _⟩ := h2; simpa using hf
      · intro tr a hr
        rw [mruns_tryCatch] at hr
        rcases hr with ⟨a, h0, hr⟩ | ⟨t1, e', t2, rfl, h1, h2⟩
        · rcases key _ _ hr with ⟨_, hf⟩ | ⟨j, w, d', he, hf⟩ | ⟨j, w, d', he, hf⟩
          · exact hf
          · exact hf
          · cases he
        · rcases key _ _ h1 with ⟨h0, _⟩ | ⟨j, w, d', he, hf⟩ | ⟨j, w, d', he, hf⟩
          · cases h0
          · cases he; obtain ⟨rfl, _⟩ := h2; simpa using hf
          · cases he; obtain ⟨_, h2⟩ := h2; cases h2

theorem spyOne_honest {x : IOW} {spy : Option Nat} {push : Push} : Honest S (spyOne spy x push) := by
  unfold spyOne
  split
  · refine honest_ask fun r => ?_
    cases r
    · exact Or.inl ⟨by simp [act, Act.fatal], _, rfl⟩
    · exact Or.inr ⟨by simp [act, Act.fatal], honest_pure _⟩
  · exact honest_pure _

theorem pushAll_honest {x : IOW} {spy : Option Nat} {ps : List Push} {n : Nat} (h : ∀ p ∈ ps, p.Fits S) : Honest S (pushAll x spy ps n) := by
  induction ps generalizing n with
  | nil => exact honest_pure _
  | cons p ps ih =>
    exact Honest.bind (writeOne_honest (h p (by simp))) fun _ => Honest.bind spyOne_honest fun _ => ih fun p hp => h p (by simp [hp])

theorem notifyRead_honest {mon : Notifications} {pull : Pull} : Honest S (notifyRead mon pull) := by
  unfold notifyRead
  split
  · refine honest_ask fun r => ?_
    cases r
    · refine Or.inl ⟨by simp [act, Act.fatal], ?_⟩
      simp only [Bool.false_eq_true, ↓reduceIte]
      split <;> exact ⟨_, rfl⟩
    · exact Or.inr ⟨by simp [act, Act.fatal], honest_pure _⟩
  · exact honest_pure _

theorem notifyWritten_honest {mon : Notifications} {pull : Pull} : Honest S (notifyWritten mon pull) := by
  unfold notifyWritten
  split
  · refine honest_ask fun r => ?_
    cases r
    · refine Or.inl ⟨by simp [act, Act.fatal], ?_⟩
      simp only [Bool.false_eq_true, ↓reduceIte]
      split <;> exact ⟨_, rfl⟩
    · exact Or.inr ⟨by simp [act, Act.fatal], honest_pure _⟩
  · exact honest_pure _

theorem motionWorker_honest {pull : Pull} {mon : Notifications} {ps : List Push} {spy : Option Nat} {b : Bool} (hp : ∀ p ∈ ps, p.Fits S)
    (hb : b = true → ∃ j c, pull = .receiver j c) : Honest S (motionWorker pull mon ps spy b) := by
  unfold motionWorker
  refine Honest.bind (motionRead_honest hb) fun data => ?_
  split
  · exact honest_pure _
  · refine Honest.bind notifyRead_honest fun _ => ?_
    refine Honest.bind (pushAll_honest hp) fun n => ?_
    refine Honest.bind notifyWritten_honest fun _ => ?_
    split <;> exact honest_pure _

theorem motionClose_honest {push : Push} : Honest S (motionClose push) := by
  cases push with
  | none => exact honest_pure _
  | sender j c => exact honest_one fun r => by simp [act, Act.fatal]
  | io j c =>
    refine honest_ask fun r => ?_
    cases r
    · exact Or.inl ⟨by simp [act, Act.fatal], _, rfl⟩
    · exact Or.inr ⟨by simp [act, Act.fatal], honest_pure _⟩

theorem closeAll_honest {ps : List Push} : Honest S (closeAll ps) := by
  induction ps with
  | nil => exact honest_pure _
  | cons p ps ih => exact Honest.bind motionClose_honest fun _ => ih

theorem closeMon_honest {c : Option Nat} : Honest S (closeMon c) := by
  cases c with
  | none => exact honest_pure _
  | some c => exact honest_one fun r => by simp [act, Act.fatal]

/-- Dropping what is left. -/
def DropsOnly (tr : List Ev) : Prop := ∀ e ∈ tr, ∃ k c, e = ⟨.close k c, ()⟩

theorem dropsOnly_nil : DropsOnly [] := by intro e he; simp at he

theorem DropsOnly.append {t u : List Ev} (h1 : DropsOnly t) (h2 : DropsOnly u) : DropsOnly (t ++ u) := by
  intro e he
  rcases List.mem_append.mp he with he | he
  · exact h1 e he
  · exact h2 e he

theorem DropsOnly.sub {t u : List Ev} (h : DropsOnly u) (hs : ∀ e ∈ t, e ∈ u) : DropsOnly t := fun e he => h e (hs e he)

theorem DropsOnly.calm {tr : List Ev} (h : DropsOnly tr) : ¬ Failed S tr := by
  rintro ⟨a, ha, hf⟩
  obtain ⟨e, he, rfl⟩ := List.mem_map.mp ha
  obtain ⟨k, c, rfl⟩ := h e he
  exact hf

theorem dropsOnly_drops {l : List (Kind × Nat)} : DropsOnly (dropEvs l) := by
  intro e he
  simp only [dropEvs, List.mem_map] at he
  obtain ⟨x, _, rfl⟩ := he
  exact ⟨_, _, rfl⟩

/-- A fatal event, and then things are dropped. -/
def Falls (S : End → Prop) (tr : List Ev) : Prop := ∃ t u, tr = t ++ u ∧ Struck S t ∧ DropsOnly u

theorem Struck.falls {tr : List Ev} (h : Struck S tr) : Falls S tr := ⟨tr, [], by simp, h, dropsOnly_nil⟩

theorem Falls.failed {tr : List Ev} (h : Falls S tr) : Failed S tr := by
  obtain ⟨t, u, rfl, h, _⟩ := h
  exact failed_append.mpr (Or.inl h.failed)

theorem Falls.after {t tr : List Ev} (h : ¬ Failed S t) (hs : Falls S tr) : Falls S (t ++ tr) := by
  obtain ⟨u, v, rfl, h1, h2⟩ := hs
  exact ⟨t ++ u, v, by simp, h1.after h, h2⟩

theorem Falls.and {t tr : List Ev} (hs : Falls S tr) (h : DropsOnly t) : Falls S (tr ++ t) := by
  obtain ⟨u, v, rfl, h1, h2⟩ := hs
  exact ⟨u, v ++ t, by simp, h1, h2.append h⟩

/-- What follows a fatal event. -/
theorem Falls.rest {a b : List Ev} {e : Ev} (h : Falls S (a ++ e :: b)) (hf : (act e).fatal S) : DropsOnly b := by
  obtain ⟨t, u, he, ⟨t', x, rfl, h1, h2⟩, h3⟩ := h
  rw [List.append_eq_append_iff] at he
  rcases he with ⟨z, hz1, hz2⟩ | ⟨z, rfl, hz2⟩
  · -- the event is not later than the fatal one
    cases z with
    | nil =>
      simp only [List.nil_append] at hz2
      rw [← hz2] at h3
      exact h3.sub (by simp +contextual)
    | cons y z =>
      simp only [List.cons_append, List.cons.injEq] at hz2
      obtain ⟨rfl, rfl⟩ := hz2
      rcases List.eq_nil_or_concat z with rfl | ⟨z', y, rfl⟩
      · simpa using h3
      · exfalso
        rw [List.concat_eq_append, show a ++ e :: (z' ++ [y]) = (a ++ e :: z') ++ [y] by simp] at hz1
        obtain ⟨hz1, _⟩ := List.append_inj' hz1 rfl
        apply h1
        rw [hz1]
        exact failed_append.mpr (Or.inr ⟨act e, by simp [acts], hf⟩)
  · rw [hz2] at h3
    exact h3.sub (by simp +contextual)

/-- The rounds of a loop are honest about how they end it. -/
def HonestLoop {σ α : Type} (S : End → Prop) (body : σ → Prog (σ ⊕ Except MErr α)) (P : σ → Prop) : Prop :=
  ∀ s, P s → ∀ tr x, (body s).Runs tr x → match x with
    | .inl s' => P s' ∧ ¬ Failed S tr
    | .inr (.ok _) => ¬ Failed S tr
    | .inr (.error _) => Falls S tr

/-- How a loop ends. -/
def Honestly {α : Type} (S : End → Prop) (tr : List Ev) : Except MErr α → Prop
  | .ok _ => ¬ Failed S tr
  | .error _ => Falls S tr

theorem HonestLoop.runs_ok {σ α : Type} {body : σ → Prog (σ ⊕ Except MErr α)} {P : σ → Prop} (h : HonestLoop S body P) {s : σ} (hs : P s) {tr : List Ev} {r : Except MErr α}
    (hr : LoopRuns body s tr r) : Honestly S tr r := by
  induction hr with
  | @stop s tr r h1 =>
    have := h _ hs _ _ h1
    cases r <;> exact this
  | @next s s' tr tr' r h1 _ ih =>
    obtain ⟨h2, h3⟩ := h _ hs _ _ h1
    have := ih h2
    cases r with
    | ok a => show ¬ Failed S _; rw [failed_append]; rintro (h' | h') <;> contradiction
    | error e => exact Falls.after h3 this

theorem HonestLoop.runs {σ α : Type} {body : σ → Prog (σ ⊕ Except MErr α)} {P : σ → Prop} (h : HonestLoop S body P) {s : σ} (hs : P s) {tr : List Ev} {r : Except MErr α}
    (hr : LoopRuns body s tr r) : (∃ e, r = .error e) ↔ Failed S tr := by
  have := h.runs_ok hs hr
  cases r with
  | ok a => exact ⟨(by rintro ⟨e, he⟩; cases he), fun hf => absurd hf this⟩
  | error e => exact ⟨fun _ => Falls.failed this, fun _ => ⟨e, rfl⟩⟩

theorem HonestLoop.rounds {σ α : Type} {body : σ → Prog (σ ⊕ Except MErr α)} {P : σ → Prop} (h : HonestLoop S body P) {s s' : σ} (hs : P s) {tr : List Ev}
    (hr : LoopRounds body s tr s') : P s' ∧ ¬ Failed S tr := by
  induction hr with
  | nil => exact ⟨hs, failed_nil⟩
  | next h1 _ ih =>
    obtain ⟨h2, h3⟩ := h _ hs _ _ h1
    obtain ⟨h4, h5⟩ := ih h2
    exact ⟨h4, by rw [failed_append]; rintro (h' | h') <;> contradiction⟩

/-- After something fatal nothing is done any more but dropping things. -/
theorem HonestLoop.stops {σ α : Type} {body : σ → Prog (σ ⊕ Except MErr α)} {P : σ → Prop} (h : HonestLoop S body P) {s : σ} (hs : P s) {a b : List Ev} {e : Ev}
    (hr : LoopPartial body s (a ++ e :: b)) (hf : (act e).fatal S) : DropsOnly b := by
  obtain ⟨s', t1, t2, h1, h2, he⟩ := hr
  obtain ⟨h3, h4⟩ := h.rounds hs h1
  obtain ⟨t3, x, h5⟩ := h2.extend
  have h6 := h _ h3 _ _ h5
  have hfail : Failed S (t1 ++ (t2 ++ t3)) := by
    rw [← List.append_assoc, ← he]
    exact ⟨act e, by simp [acts], hf⟩
  have key : Falls S (t2 ++ t3) := by
    rw [failed_append] at hfail
    rcases x with x | (x | x)
    · exact absurd (hfail.resolve_left h4) h6.2
    · exact h6
    · exact absurd (hfail.resolve_left h4) h6
  have := key.after h4
  rw [← List.append_assoc, ← he, List.append_assoc, List.cons_append] at this
  exact (this.rest hf).sub fun x hx => List.mem_append_left _ hx

theorem relay_honest {pull : Pull} {mon : Notifications} {spy : Option Nat} {push : Push} (hp : push.Fits S) : HonestLoop S (motionBody pull mon spy push) (fun _ => True) := by
  intro n _ tr x hr
  unfold motionBody at hr
  rw [Prog.runs_bind] at hr
  obtain ⟨t1, a, t2, rfl, h1, h2⟩ := hr
  have : Honest S (do
    let r ← motionWorker pull mon [push] spy false
    let readCount := if r.read then n + 1 else n
    if r.finished then do
      closeAll [push]
      closeMon mon.read
      closeMon mon.written
      pure (Sum.inr (α := Nat) readCount)
    else pure (Sum.inl readCount) : M (Nat ⊕ Nat)) := by
    refine Honest.bind (motionWorker_honest (by simpa using hp) (by simp)) fun r => ?_
    dsimp only
    split
    · refine Honest.bind closeAll_honest fun _ => Honest.bind closeMon_honest fun _ => Honest.bind closeMon_honest fun _ => honest_pure _
    · exact honest_pure _
  have hh := this _ _ h1
  rcases a with e' | (n | n)
  · obtain ⟨rfl, rfl⟩ := h2
    rw [List.append_nil]
    exact Struck.falls hh
  · obtain ⟨rfl, rfl⟩ := h2
    simpa using hh
  · obtain ⟨rfl, rfl⟩ := h2
    simpa using hh

theorem controlPoint_calm {ctl : Option Nat} : Calm S (controlPoint ctl) := by
  cases ctl with
  | none => exact calm_pure _
  | some c =>
    refine Calm.bind (calm_req fun r => by simp [act, Act.fatal]) fun r => ?_
    cases r
    · exact Calm.bind (calm_req fun r => by simp [act, Act.fatal]) fun _ => calm_pure _
    · exact calm_pure _
    · exact calm_pure _

theorem closeControl_calm {ctl : Option Nat} : Calm S (closeControl ctl) := by
  cases ctl with
  | none => exact calm_pure _
  | some c => exact calm_req fun r => by simp [act, Act.fatal]

theorem regulator_honest {pull : Pull} {spy ctl : Option Nat} {push : Push} (hp : push.Fits S) : HonestLoop S (regulatorBody pull push spy ctl) (fun _ => True) := by
  intro n _ tr x hr
  obtain ⟨r, u1, u2, rfl, hw, h2⟩ := regulatorBody_inv hr
  have hh := (motionWorker_honest (S := S) (pull := pull) (mon := {}) (spy := spy) (b := false) (ps := [push]) (by simpa using hp) (by simp)) _ _ hw
  rcases h2 with ⟨res, rfl, hf, hc, rfl⟩ | ⟨res, rfl, hf, hc, rfl⟩ | ⟨e, rfl, rfl, rfl⟩
  · have := closeControl_calm (S := S) _ _ hc
    simp_all
  · have := controlPoint_calm (S := S) _ _ hc
    simp_all
  · rw [List.append_nil]
    exact Struck.falls hh

theorem dropPull_honest {p : Pull} : Honest S (dropPull p) := by
  cases p <;> first | exact honest_one fun r => by simp [act, Act.fatal]
                    | exact honest_pure _

theorem removeFinished_honest {fs : List (Nat × Nat)} {stdin : List (List Pull)} : Honest S (removeFinished fs stdin) := by
  induction fs generalizing stdin with
  | nil => exact honest_pure _
  | cons f fs ih =>
    obtain ⟨i, j⟩ := f
    unfold removeFinished
    split
    · split
      · exact Honest.bind dropPull_honest fun _ => ih
      · exact Honest.bind (honest_pure _) fun _ => ih
    · exact Honest.bind (honest_pure _) fun _ => ih

theorem dropAll_honest {ps : List Pull} : Honest S (dropAll ps) := by
  induction ps with
  | nil => exact honest_pure _
  | cons p ps ih => exact Honest.bind dropPull_honest fun _ => ih

theorem dropAll_drops {ps : List Pull} {tr : List Ev} {r : Except MErr Unit} (h : MRuns (dropAll ps) tr r) : DropsOnly tr := by
  induction ps generalizing tr with
  | nil => obtain ⟨rfl, _⟩ := h; exact dropsOnly_nil
  | cons p ps ih =>
    have one : ∀ {t y}, MRuns (dropPull p) t y → DropsOnly t := by
      intro t y h
      cases p with
      | receiver j c =>
        have h : MRuns (ask (.close .data c)) t y := h
        rw [mruns_ask] at h
        obtain ⟨v, rfl, _⟩ := h
        intro e he
        simp only [List.mem_singleton] at he
        subst he
        exact ⟨_, _, rfl⟩
      | none => obtain ⟨rfl, _⟩ := h; exact dropsOnly_nil
      | stream j hh => obtain ⟨rfl, _⟩ := h; exact dropsOnly_nil
    have h : MRuns (dropPull p >>= fun _ => dropAll ps) tr r := h
    rw [mruns_bind] at h
    rcases h with ⟨e', h0, h⟩ | ⟨t1, a, t2, rfl, h1, h2⟩
    · exact one h
    · exact (one h1).append (ih h2)

theorem dropAll_ok {ps : List Pull} : MErrs (fun _ => False) (dropAll ps) := by
  induction ps with
  | nil => exact merrs_pure _
  | cons p ps ih => exact MErrs.bind dropPull_errs fun _ => ih

theorem junctionLoop_honest {ps spy ins i acc} (h : ∀ p ∈ ins, ∃ j c, p = .receiver j c) (hp : ∀ p ∈ ps, p.Fits S) : Honest S (junctionLoop ps spy ins i acc) := by
  induction ins generalizing i acc with
  | nil => exact honest_pure _
  | cons q ins ih =>
    have ih' : ∀ i acc, Honest S (junctionLoop ps spy ins i acc) := fun i acc => ih (fun p hp => h p (by simp [hp]))
    unfold junctionLoop
    split
    · exact ih' _ _
    · exact Honest.bind (motionWorker_honest hp (fun _ => h q (by simp))) fun r => ih' _ _

theorem iterationLoop_honest {ps spy} {G : List (List Pull)} {i f n} (h : ∀ p ∈ G.flatten, ∃ j c, p = .receiver j c) (hp : ∀ p ∈ ps, p.Fits S) :
    Honest S (iterationLoop ps spy G i f n) := by
  induction G generalizing i f n with
  | nil => exact honest_pure _
  | cons g G ih =>
    unfold iterationLoop
    refine Honest.bind (junctionLoop_honest (fun p hp => h p (by simp [hp])) hp) fun r => ?_
    dsimp only
    split
    · exact honest_pure _
    · exact ih fun p hp => h p (by
        rw [List.flatten_cons]
        exact List.mem_append_right _ hp)

theorem wait_calm {b : BackOff} : Calm S b.wait := by
  unfold BackOff.wait
  refine Calm.bind (calm_req fun r => by simp [act, Act.fatal]) fun _ => ?_
  first | exact calm_pure _ | (split <;> exact calm_pure _)

theorem iteration_honest {ps spy} {G : List (List Pull)} {b} (h : ∀ p ∈ G.flatten, ∃ j c, p = .receiver j c) (hp : ∀ p ∈ ps, p.Fits S) :
    Honest S (iteration ps spy G b) := by
  unfold iteration
  refine Honest.bind (iterationLoop_honest h hp) ?_
  rintro ⟨f, any, n⟩
  refine Honest.bind removeFinished_honest fun s2 => ?_
  dsimp only
  split
  · exact Honest.bind closeAll_honest fun _ => honest_pure _
  · split
    · exact honest_pure _
    · exact Honest.bind (honest_lift wait_calm) fun _ => honest_pure _

theorem junction_honest {ps spy} (hp : ∀ p ∈ ps, p.Fits S) :
    HonestLoop S (junctionBody ps spy) (fun s => ∀ p ∈ s.stdin.flatten, ∃ j c, p = .receiver j c) := by
  intro s hs tr x hr
  unfold junctionBody at hr
  rw [Prog.runs_bind] at hr
  obtain ⟨t1, a, t2, rfl, h1, h2⟩ := hr
  have hh := iteration_honest (S := S) (spy := spy) (b := s.backOff) hs hp _ _ h1
  rcases a with e' | (⟨g, b, n⟩ | n)
  · rw [Prog.runs_bind] at h2
    obtain ⟨t3, y, t4, rfl, h3, rfl, rfl⟩ := h2
    rw [List.append_nil]
    exact (Struck.falls hh).and (dropAll_drops h3)
  · obtain ⟨rfl, rfl⟩ := h2
    refine ⟨fun p hp => hs p (iteration_sub h1 hp), ?_⟩
    simpa using hh
  · obtain ⟨rfl, rfl⟩ := h2
    simpa using hh

theorem exit_honest {e : PushEnd} (h : S (.chan e.chan)) : HonestLoop S (exitBody none e) (fun _ => True) := by
  intro s _ tr x hr
  unfold exitBody at hr
  rw [Prog.runs_bind] at hr
  obtain ⟨t1, a, t2, rfl, h1, h2⟩ := hr
  rw [Prog.runs_req] at h1
  subst h1
  have h0 : ¬ Failed S [⟨.status, a⟩] := by rw [failed_one]; simp [act, Act.fatal]
  cases hm : exitMessage a with
  | none =>
    rw [hm] at h2
    simp only [exitStep] at h2
    rw [Prog.runs_bind] at h2
    obtain ⟨t3, y, t4, rfl, h3, rfl, rfl⟩ := h2
    rw [Prog.runs_req] at h3
    subst h3
    refine ⟨trivial, ?_⟩
    simp only [failed_append, h0, false_or, failed_one, failed_nil, or_false]
    simp [act, Act.fatal]
  | some m =>
    rw [hm] at h2
    simp only [exitStep] at h2
    rw [Prog.runs_bind] at h2
    obtain ⟨t3, y, t4, rfl, h3, rfl, rfl⟩ := h2
    have hs : Honest S (sendExit none e m) := by
      unfold sendExit
      refine Honest.bind ?_ fun _ => Honest.bind (honest_pure _) fun _ => honest_one fun r => by simp [act, Act.fatal]
      unfold offerExit
      refine honest_ask fun r => ?_
      cases r
      · exact Or.inl ⟨by simpa [act, Act.fatal] using h, _, rfl⟩
      · exact Or.inr ⟨by simp [act, Act.fatal], honest_pure _⟩
    rw [List.append_nil]
    cases y with
    | ok y =>
      have := hs.ok h3
      show ¬ Failed S _
      rw [failed_append]
      rintro (h' | h') <;> contradiction
    | error e => exact ((hs.struck h3).after h0).falls

end Verif
