import Verif.Lemmas.Errors
/-!
# An error comes right after the event it is about
-/
namespace Verif

/-- What happened when the error came, at one of these ends. -/
def MErr.Cause (pulls : List Pull) (pushs : List Push) : MErr → Act → Prop
  | .readIO j x, a => ∃ h, .stream j h ∈ pulls ∧ a = .readErr h x
  | .closeIO j, a => ∃ h, .io j h ∈ pushs ∧ a = .flush h false
  | .writeIO j x d, a => ∃ h, .io j h ∈ pushs ∧ a = .offer (.handle h) d (.other x)
  | .outputClosed j .channelClosed d, a => ∃ c, .sender j c ∈ pushs ∧ a = .offer (.chan c) d (.closed .channelClosed)
  | .outputClosed j .brokenPipe d, a => ∃ h, .io j h ∈ pushs ∧ a = .offer (.handle h) d (.closed .brokenPipe)
  | _, _ => False

/-- Its errors come right after what they are about. -/
def MTells {α : Type} (P : MErr → Act → Prop) (p : M α) : Prop := ∀ tr e, MRuns p tr (.error e) → ∃ t ev, tr = t ++ [ev] ∧ P e (act ev)

section
variable {α β : Type} {P : MErr → Act → Prop}

theorem MTells.bind {p : M α} {f : α → M β} (hp : MTells P p) (hf : ∀ a, MTells P (f a)) : MTells P (p >>= f) := by
  intro tr e h
  rw [mruns_bind] at h
  rcases h with ⟨e', he, h⟩ | ⟨t1, a, t2, rfl, _, h2⟩
  · cases he; exact hp _ _ h
  · obtain ⟨t, ev, rfl, h⟩ := hf a _ _ h2
    exact ⟨t1 ++ t, ev, by simp, h⟩

theorem MTells.of_errs {p : M α} (h : MErrs (fun _ => False) p) : MTells P p := fun tr e hr => (h tr e hr).elim

theorem mtells_pure (a : α) : MTells P (pure a : M α) := .of_errs (merrs_pure a)

/-- A request whose answer decides whether there is an error. -/
theorem mtells_ask {q : Req} {f : q.Resp → M α} (h : ∀ v, MErrs (fun e => P e (act ⟨q, v⟩)) (f v)) (hn : ∀ v t e, MRuns (f v) t (.error e) → t = []) : MTells P (ask q >>= f) := by
  intro tr e hr
  rw [mruns_bind] at hr
  rcases hr with ⟨e', he, hr⟩ | ⟨t1, a, t2, rfl, h1, h2⟩
  · rw [mruns_ask] at hr
    obtain ⟨_, _, hr⟩ := hr
    cases hr
  · rw [mruns_ask] at h1
    obtain ⟨v, rfl, hv⟩ := h1
    cases hv
    have := hn _ _ _ h2
    subst this
    exact ⟨[], _, by simp, h _ _ _ h2⟩

variable {pulls : List Pull} {pushs : List Push}

theorem motionRead_tells {pull : Pull} {b : Bool} (h : pull ∈ pulls) (hb : b = true → ∃ j c, pull = .receiver j c) : MTells (MErr.Cause pulls pushs) (motionRead pull b) := by
  cases pull with
  | none => cases b with
    | false => exact mtells_pure _
    | true => obtain ⟨_, _, h⟩ := hb rfl; cases h
  | receiver j c =>
    cases b <;> refine MTells.of_errs (MErrs.bind (merrs_ask _) ?_) <;> intro a <;> cases a <;> exact merrs_pure _
  | stream j c =>
    cases b with
    | false =>
      refine mtells_ask ?_ ?_
      · intro a; cases a
        · exact merrs_pure _
        · exact merrs_pure _
        · exact merrs_throw ⟨_, h, rfl⟩
      · intro a t e hr; cases a <;> exact hr.1
    | true => obtain ⟨_, _, h⟩ := hb rfl; cases h

theorem motionWrite_tells {push : Push} {d : Bytes} (h : push ∈ pushs) : MTells (MErr.Cause pulls pushs) (motionWrite push d) := by
  cases push with
  | none => exact mtells_pure _
  | sender j c =>
    refine mtells_ask ?_ ?_
    · intro a; cases a
      · exact merrs_throw ⟨_, h, rfl⟩
      · exact merrs_pure _
    · intro a t e hr; cases a <;> exact hr.1
  | io j c =>
    refine mtells_ask ?_ ?_
    · intro a; cases a
      · exact merrs_pure _
      · exact merrs_throw ⟨_, h, rfl⟩
      · exact merrs_throw ⟨_, h, rfl⟩
    · intro a t e hr; cases a <;> exact hr.1

theorem motionClose_tells {push : Push} (h : push ∈ pushs) : MTells (MErr.Cause pulls pushs) (motionClose push) := by
  cases push with
  | none => exact mtells_pure _
  | sender j c => exact .of_errs (merrs_ask _)
  | io j c =>
    refine mtells_ask ?_ ?_
    · intro a; cases a
      · exact merrs_throw ⟨_, h, rfl⟩
      · exact merrs_pure _
    · intro a t e hr; cases a <;> exact hr.1

theorem writeOne_tells {x : IOW} {push : Push} {n : Nat} (h : push ∈ pushs) : MTells (MErr.Cause pulls pushs) (writeOne x push n) := by
  cases x with
  | finished => exact mtells_pure _
  | skipped => exact mtells_pure _
  | data d =>
    simp only [writeOne]
    have hw : MTells (MErr.Cause pulls pushs) (do motionWrite push d; pure n) := MTells.bind (motionWrite_tells h) fun _ => mtells_pure _
    split
    · exact hw
    · intro tr e hr
      rw [mruns_tryCatch] at hr
      rcases hr with ⟨a, he, _⟩ | ⟨t1, e', t2, rfl, h1, h2⟩
      · cases he
      · obtain ⟨rfl, rfl⟩ : t2 = [] ∧ e' = e := by
          cases e' <;> obtain ⟨h2, h3⟩ := h2 <;> first | (cases h3; exact ⟨h2, rfl⟩) | cases h3
        rw [List.append_nil]
        exact hw _ _ h1

theorem pushAll_tells {x : IOW} {ps : List Push} {n : Nat} (h : ∀ p ∈ ps, p ∈ pushs) : MTells (MErr.Cause pulls pushs) (pushAll x none ps n) := by
  induction ps generalizing n with
  | nil => exact mtells_pure _
  | cons p ps ih =>
    exact MTells.bind (writeOne_tells (h p (by simp))) fun _ => MTells.bind (mtells_pure _) fun _ => ih fun p hp => h p (by simp [hp])

theorem motionWorker_tells {pull : Pull} {ps : List Push} {b : Bool} (h : pull ∈ pulls) (hp : ∀ p ∈ ps, p ∈ pushs) (hb : b = true → ∃ j c, pull = .receiver j c) :
    MTells (MErr.Cause pulls pushs) (motionWorker pull {} ps none b) := by
  unfold motionWorker
  refine MTells.bind (motionRead_tells h hb) fun data => ?_
  split
  · exact mtells_pure _
  · refine MTells.bind (.of_errs (notifyRead_errs rfl)) fun _ => ?_
    refine MTells.bind (pushAll_tells hp) fun n => ?_
    refine MTells.bind (.of_errs (notifyWritten_errs rfl)) fun _ => ?_
    split <;> exact mtells_pure _

theorem closeAll_tells {ps : List Push} (hp : ∀ p ∈ ps, p ∈ pushs) : MTells (MErr.Cause pulls pushs) (closeAll ps) := by
  induction ps with
  | nil => exact mtells_pure _
  | cons p ps ih => exact MTells.bind (motionClose_tells (hp p (by simp))) fun _ => ih fun p h => hp p (by simp [h])

/-- The errors of a relay. -/
theorem relay_tells {pull : Pull} {push : Push} {s tr e} (hr : LoopRuns (motionBody pull {} none push) s tr (.error e)) :
    ∃ t ev, tr = t ++ [ev] ∧ MErr.Cause [pull] [push] e (act ev) := by
  obtain ⟨n, t0, t, rfl, _, hr⟩ := hr.rounds
  unfold motionBody at hr
  rw [Prog.runs_bind] at hr
  obtain ⟨t1, a, t2, rfl, h1, h2⟩ := hr
  have : MTells (MErr.Cause [pull] [push]) (do
    let r ← motionWorker pull {} [push] none false
    let readCount := if r.read then n + 1 else n
    if r.finished then do
      closeAll [push]
      closeMon ({} : Notifications).read
      closeMon ({} : Notifications).written
      pure (Sum.inr (α := Nat) readCount)
    else pure (Sum.inl readCount) : M (Nat ⊕ Nat)) := by
    refine MTells.bind (motionWorker_tells (by simp) (by simp) (by simp)) fun r => ?_
    dsimp only
    split
    · exact MTells.bind (closeAll_tells (by simp)) fun _ => MTells.bind (.of_errs closeMon_errs) fun _ => MTells.bind (.of_errs closeMon_errs) fun _ => mtells_pure _
    · exact mtells_pure _
  rcases a with e' | (n | n)
  · obtain ⟨rfl, h2⟩ := h2
    injection h2 with h2; injection h2 with h2; subst h2
    obtain ⟨t, ev, rfl, h⟩ := this _ _ h1
    exact ⟨t0 ++ t, ev, by simp, h⟩
  · obtain ⟨_, h2⟩ := h2; cases h2
  · obtain ⟨_, h2⟩ := h2; cases h2

/-- The errors of a regulator or faucet. -/
theorem regulator_tells {pull : Pull} {push : Push} {ctl : Option Nat} {s tr e} (hr : LoopRuns (regulatorBody pull push none ctl) s tr (.error e)) :
    ∃ t ev, tr = t ++ [ev] ∧ MErr.Cause [pull] [push] e (act ev) := by
  obtain ⟨n, t0, t, rfl, _, hr⟩ := hr.rounds
  unfold regulatorBody at hr
  rw [Prog.runs_bind] at hr
  obtain ⟨t1, a, t2, rfl, h1, h2⟩ := hr
  have := motionWorker_tells (pulls := [pull]) (pushs := [push]) (ps := [push]) (b := false) (List.mem_singleton.mpr rfl) (by simp) (by simp)
  have key : ∀ e', MRuns (motionWorker pull {} [push] none false) t1 (.error e') → t2 = [] → e' = e → ∃ t ev, t0 ++ (t1 ++ t2) = t ++ [ev] ∧ MErr.Cause [pull] [push] e (act ev) := by
    rintro e' h rfl rfl
    obtain ⟨t, ev, rfl, h'⟩ := this _ _ h
    exact ⟨t0 ++ t, ev, by simp, h'⟩
  cases a with
  | ok r =>
    simp only at h2
    split at h2
    · rw [Prog.runs_bind] at h2; obtain ⟨_, _, _, _, _, _, h2⟩ := h2; cases h2
    · rw [Prog.runs_bind] at h2; obtain ⟨_, _, _, _, _, _, h2⟩ := h2; cases h2
  | error e' =>
    cases e' with
    | outputClosed j why d =>
      simp only at h2
      split at h2
      · obtain ⟨h3, h2⟩ := h2; injection h2 with h2; injection h2 with h2; exact key _ h1 h3 h2.symm
      · split at h2
        · obtain ⟨_, h2⟩ := h2; cases h2
        · rw [Prog.runs_bind] at h2; obtain ⟨_, _, _, _, _, _, h2⟩ := h2; cases h2
    | _ => obtain ⟨h3, h2⟩ := h2; injection h2 with h2; injection h2 with h2; exact key _ h1 h3 h2.symm

theorem junctionLoop_tells {ps ins i acc} (h : ∀ p ∈ ins, p ∈ pulls ∧ ∃ j c, p = .receiver j c) (hp : ∀ p ∈ ps, p ∈ pushs) :
    MTells (MErr.Cause pulls pushs) (junctionLoop ps none ins i acc) := by
  induction ins generalizing i acc with
  | nil => exact mtells_pure _
  | cons q ins ih =>
    have ih' : ∀ i acc, MTells (MErr.Cause pulls pushs) (junctionLoop ps none ins i acc) := fun i acc => ih (fun p hp => h p (by simp [hp]))
    unfold junctionLoop
    split
    · exact ih' _ _
    · obtain ⟨hq, hb⟩ := h q (by simp)
      exact MTells.bind (motionWorker_tells hq hp fun _ => hb) fun r => ih' _ _

theorem iterationLoop_tells {ps} {G : List (List Pull)} {i f n} (h : ∀ p ∈ G.flatten, p ∈ pulls ∧ ∃ j c, p = .receiver j c) (hp : ∀ p ∈ ps, p ∈ pushs) :
    MTells (MErr.Cause pulls pushs) (iterationLoop ps none G i f n) := by
  induction G generalizing i f n with
  | nil => exact mtells_pure _
  | cons g G ih =>
    unfold iterationLoop
    refine MTells.bind (junctionLoop_tells (fun p hp => h p (by simp [hp])) hp) fun r => ?_
    dsimp only
    split
    · exact mtells_pure _
    · exact ih fun p hp => h p (by
        rw [List.flatten_cons]
        exact List.mem_append_right _ hp)

theorem iteration_tells {ps} {G : List (List Pull)} {b} (h : ∀ p ∈ G.flatten, p ∈ pulls ∧ ∃ j c, p = .receiver j c) (hp : ∀ p ∈ ps, p ∈ pushs) :
    MTells (MErr.Cause pulls pushs) (iteration ps none G b) := by
  unfold iteration
  refine MTells.bind (iterationLoop_tells h hp) ?_
  rintro ⟨f, any, n⟩
  refine MTells.bind (.of_errs removeFinished_errs) fun s2 => ?_
  dsimp only
  split
  · exact MTells.bind (closeAll_tells hp) fun _ => mtells_pure _
  · split
    · exact mtells_pure _
    · exact MTells.bind (.of_errs (merrs_lift _)) fun _ => mtells_pure _

theorem dropAll_closes {ps : List Pull} {t : List Ev} {r} (h : MRuns (dropAll ps) t r) : ∀ x ∈ t, ∃ c, act x = .close .data c := by
  induction ps generalizing t r with
  | nil => obtain ⟨rfl, _⟩ := h; simp
  | cons p ps ih =>
    have one : ∀ {t r}, MRuns (dropPull p) t r → ∀ x ∈ t, ∃ c, act x = .close .data c := by
      intro t r h
      cases p with
      | receiver j c =>
        obtain ⟨v, rfl, _⟩ := mruns_ask.mp h
        intro x hx
        rw [List.mem_singleton.mp hx]
        exact ⟨c, rfl⟩
      | none => obtain ⟨rfl, _⟩ := h; simp
      | stream j c => obtain ⟨rfl, _⟩ := h; simp
    unfold dropAll at h
    rw [mruns_bind] at h
    rcases h with ⟨e, _, h⟩ | ⟨t1, a, t2, rfl, h1, h2⟩
    · exact one h
    · intro x hx
      rcases List.mem_append.mp hx with hx | hx
      · exact one h1 x hx
      · exact ih h2 x hx

/-- The errors of a junction; after one it closes its inputs. -/
theorem junction_tells {ps} {s : JState} {tr e} (h : ∀ p ∈ s.stdin.flatten, p ∈ pulls ∧ ∃ j c, p = .receiver j c) (hp : ∀ p ∈ ps, p ∈ pushs)
    (hr : LoopRuns (junctionBody ps none) s tr (.error e)) :
    ∃ t ev rest, tr = t ++ ev :: rest ∧ (∀ x ∈ rest, ∃ c, act x = .close .data c) ∧ MErr.Cause pulls pushs e (act ev) := by
  generalize hx : (Except.error e : Except MErr Nat) = x at hr
  induction hr with
  | stop h1 =>
    subst hx
    unfold junctionBody at h1
    rw [Prog.runs_bind] at h1
    obtain ⟨t1, a, t2, rfl, h1, h2⟩ := h1
    rcases a with e' | (⟨_, _, _⟩ | n)
    · rw [Prog.runs_bind] at h2
      obtain ⟨t3, x, t4, rfl, h3, rfl, h2⟩ := h2
      injection h2 with h2; injection h2 with h2; subst h2
      obtain ⟨t, ev, rfl, h⟩ := iteration_tells h hp _ _ h1
      exact ⟨t, ev, t3, by simp, dropAll_closes h3, h⟩
    · obtain ⟨_, h2⟩ := h2; cases h2
    · obtain ⟨_, h2⟩ := h2; cases h2
  | next h1 _ ih =>
    have := ih ?_ hx
    · obtain ⟨t, ev, rest, rfl, h⟩ := this
      rename_i tr1 _ _ _
      exact ⟨tr1 ++ t, ev, rest, by simp, h⟩
    unfold junctionBody at h1
    rw [Prog.runs_bind] at h1
    obtain ⟨t1, a, t2, rfl, h1, h2⟩ := h1
    rcases a with e' | (⟨g, b, n⟩ | n)
    · rw [Prog.runs_bind] at h2
      obtain ⟨_, _, _, _, _, _, h2⟩ := h2
      cases h2
    · obtain ⟨_, h2⟩ := h2
      injection h2 with h2
      subst h2
      exact fun p hp => h p (iteration_sub h1 hp)
    · obtain ⟨_, h2⟩ := h2; cases h2

end
end Verif
