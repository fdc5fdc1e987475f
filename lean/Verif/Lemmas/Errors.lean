import Verif.Model.Report
import Verif.Lemmas.Loop
import Verif.Lemmas.JunctionInv
namespace Verif

/-- Every error of the program is such. -/
def MErrs {α : Type} (P : MErr → Prop) (p : M α) : Prop := ∀ tr e, MRuns p tr (.error e) → P e

section
variable {α β : Type} {P : MErr → Prop}

theorem MErrs.bind {p : M α} {f : α → M β} (hp : MErrs P p) (hf : ∀ a, MErrs P (f a)) : MErrs P (p >>= f) := by
  intro tr e h
  rw [mruns_bind] at h
  rcases h with ⟨e', he, h⟩ | ⟨t1, a, t2, rfl, _, h2⟩
  · injection he with he; subst he; exact hp _ _ h
  · exact hf a _ _ h2

theorem merrs_pure (a : α) : MErrs P (pure a : M α) := by
  rintro tr e ⟨_, h⟩; cases h

theorem merrs_throw {e : MErr} (h : P e) : MErrs P (throw e : M α) := by
  rintro tr e' ⟨_, he⟩; injection he with he; subst he; exact h

theorem merrs_lift (p : Prog α) : MErrs P (ExceptT.lift p : M α) := by
  intro tr e h
  have h : Prog.Runs (Prog.bind p (fun a => Prog.ret (Except.ok a))) tr (.error e) := h
  rw [Prog.runs_bind'] at h
  obtain ⟨_, _, _, _, _, _, h⟩ := h
  cases h

theorem merrs_ask (q : Req) : MErrs P (ask q) := merrs_lift _

theorem MErrs.tryCatch {p : M α} {h : MErr → M α} (hh : ∀ t e, MRuns p t (.error e) → MErrs P (h e)) : MErrs P (tryCatch p h) := by
  intro tr e hr
  rw [mruns_tryCatch] at hr
  rcases hr with ⟨a, he, _⟩ | ⟨t1, e', t2, rfl, h1, h2⟩
  · cases he
  · exact hh _ _ h1 _ _ h2

end

/-- The error concerns one of these pipes, as read from or as written to; and not the notifications of a buffer. -/
def MErr.Of (pulls : List PullJourney) (pushs : List Journey) : MErr → Prop
  | .readIO j _ => j ∈ pulls
  | .openIO j => j ∈ pulls
  | .closeIO j => j ∈ pushs
  | .writeIO j _ _ => j ∈ pushs
  | .send j _ => j ∈ pushs
  | .outputClosed j _ _ => j ∈ pushs
  | .monitorRead _ => False
  | .monitorWrite _ => False
  | .spyWrite m => ∃ j ∈ pushs, j.src = m.src ∧ j.dst = m.dst
  | .recv _ => False
  | .launchSpawn => False
  | .noneError => False
  | .panic => False

variable {pulls : List PullJourney} {pushs : List Journey}

theorem motionRead_errs {pull : Pull} {b : Bool} (h : ∀ j, pull.journey = some j → j ∈ pulls) (hb : b = true → ∃ j c, pull = .receiver j c) :
    MErrs (MErr.Of pulls pushs) (motionRead pull b) := by
  cases pull with
  | none => cases b with
    | false => exact merrs_pure _
    | true => obtain ⟨_, _, h⟩ := hb rfl; cases h
  | receiver j c =>
    cases b
    · refine MErrs.bind (merrs_ask _) ?_
      intro a; cases a <;> exact merrs_pure _
    · refine MErrs.bind (merrs_ask _) ?_
      intro a; cases a <;> exact merrs_pure _
  | stream j c =>
    cases b with
    | false =>
      refine MErrs.bind (merrs_ask _) ?_
      intro a; cases a
      · exact merrs_pure _
      · exact merrs_pure _
      · exact merrs_throw (h j rfl)
    | true => obtain ⟨_, _, h⟩ := hb rfl; cases h

theorem motionWrite_errs {push : Push} {d : Bytes} (h : ∀ j, push.journey = some j → j ∈ pushs) : MErrs (MErr.Of pulls pushs) (motionWrite push d) := by
  cases push with
  | none => exact merrs_pure _
  | sender j c =>
    refine MErrs.bind (merrs_ask _) ?_
    intro a; cases a
    · exact merrs_throw (h j rfl)
    · exact merrs_pure _
  | io j c =>
    refine MErrs.bind (merrs_ask _) ?_
    intro a; cases a
    · exact merrs_pure _
    · exact merrs_throw (h j rfl)
    · exact merrs_throw (h j rfl)

theorem motionClose_errs {push : Push} (h : ∀ j, push.journey = some j → j ∈ pushs) : MErrs (MErr.Of pulls pushs) (motionClose push) := by
  cases push with
  | none => exact merrs_pure _
  | sender j c => exact merrs_ask _
  | io j c =>
    refine MErrs.bind (merrs_ask _) ?_
    intro a; cases a
    · exact merrs_throw (h j rfl)
    · exact merrs_pure _

theorem writeOne_errs {x : IOW} {push : Push} {n : Nat} (h : ∀ j, push.journey = some j → j ∈ pushs) : MErrs (MErr.Of pulls pushs) (writeOne x push n) := by
  cases x with
  | finished => exact merrs_pure _
  | skipped => exact merrs_pure _
  | data d =>
    simp only [writeOne]
    have hw : MErrs (MErr.Of pulls pushs) (do motionWrite push d; pure n) := MErrs.bind (motionWrite_errs h) fun _ => merrs_pure _
    split
    · exact hw
    · refine MErrs.tryCatch fun t e he => ?_
      have := hw t e he
      cases e <;> first | exact merrs_pure _ | exact merrs_throw this

theorem spyOne_errs {x : IOW} {spy : Option Nat} {push : Push} (h : ∀ j, push.journey = some j → j ∈ pushs) :
    MErrs (MErr.Of pulls pushs) (spyOne spy x push) := by
  unfold spyOne
  split
  · rename_i hj
    refine MErrs.bind (merrs_ask _) ?_
    intro a; cases a
    · exact merrs_throw ⟨_, h _ hj, rfl, rfl⟩
    · exact merrs_pure _
  · exact merrs_pure _

theorem pushAll_errs {x : IOW} {spy : Option Nat} {ps : List Push} {n : Nat} (h : ∀ p ∈ ps, ∀ j, p.journey = some j → j ∈ pushs) :
    MErrs (MErr.Of pulls pushs) (pushAll x spy ps n) := by
  induction ps generalizing n with
  | nil => exact merrs_pure _
  | cons p ps ih =>
    exact MErrs.bind (writeOne_errs (h p (by simp))) fun _ => MErrs.bind (spyOne_errs (h p (by simp))) fun _ => ih fun p hp => h p (by simp [hp])

theorem notifyRead_errs {mon : Notifications} {pull : Pull} {P : MErr → Prop} (hm : mon.read = none) : MErrs P (notifyRead mon pull) := by
  unfold notifyRead
  rw [hm]
  exact merrs_pure _

theorem notifyWritten_errs {mon : Notifications} {pull : Pull} {P : MErr → Prop} (hm : mon.written = none) : MErrs P (notifyWritten mon pull) := by
  unfold notifyWritten
  rw [hm]
  exact merrs_pure _

theorem motionWorker_errs {pull : Pull} {mon : Notifications} {ps : List Push} {spy : Option Nat} {b : Bool}
    (h : ∀ j, pull.journey = some j → j ∈ pulls) (hp : ∀ p ∈ ps, ∀ j, p.journey = some j → j ∈ pushs)
    (hm : mon.read = none ∧ mon.written = none) (hb : b = true → ∃ j c, pull = .receiver j c) :
    MErrs (MErr.Of pulls pushs) (motionWorker pull mon ps spy b) := by
  unfold motionWorker
  refine MErrs.bind (motionRead_errs h hb) fun data => ?_
  split
  · exact merrs_pure _
  · refine MErrs.bind (notifyRead_errs hm.1) fun _ => ?_
    refine MErrs.bind (pushAll_errs hp) fun n => ?_
    refine MErrs.bind (notifyWritten_errs hm.2) fun _ => ?_
    split <;> exact merrs_pure _

theorem closeAll_errs {ps : List Push} (hp : ∀ p ∈ ps, ∀ j, p.journey = some j → j ∈ pushs) : MErrs (MErr.Of pulls pushs) (closeAll ps) := by
  induction ps with
  | nil => exact merrs_pure _
  | cons p ps ih => exact MErrs.bind (motionClose_errs (hp p (by simp))) fun _ => ih fun p h => hp p (by simp [h])

theorem closeMon_errs {c : Option Nat} {P : MErr → Prop} : MErrs P (closeMon c) := by
  cases c with
  | none => exact merrs_pure _
  | some c => exact merrs_ask _

/-- A loop whose last round ends it with an error. -/
theorem LoopRuns.last {σ ρ : Type} {body : σ → Prog (σ ⊕ ρ)} {s tr r} (h : LoopRuns body s tr r) : ∃ s' t, (body s').Runs t (.inr r) := by
  obtain ⟨s', _, t2, _, _, h⟩ := h.rounds
  exact ⟨s', t2, h⟩

/-- The errors of a relay. -/
theorem relay_errs {pull : Pull} {mon : Notifications} {spy : Option Nat} {push : Push} {s tr e}
    (h : ∀ j, pull.journey = some j → j ∈ pulls) (hp : ∀ j, push.journey = some j → j ∈ pushs)
    (hm : mon.read = none ∧ mon.written = none)
    (hr : LoopRuns (motionBody pull mon spy push) s tr (.error e)) : MErr.Of pulls pushs e := by
  obtain ⟨n, t, hr⟩ := hr.last
  unfold motionBody at hr
  rw [Prog.runs_bind] at hr
  obtain ⟨t1, a, t2, rfl, h1, h2⟩ := hr
  have hone : ∀ p ∈ [push], ∀ j, p.journey = some j → j ∈ pushs := by
    intro p hp' j hj; rw [List.mem_singleton.mp hp'] at hj; exact hp j hj
  have : MErrs (MErr.Of pulls pushs) (do
    let r ← motionWorker pull mon [push] spy false
    let readCount := if r.read then n + 1 else n
    if r.finished then do
      closeAll [push]
      closeMon mon.read
      closeMon mon.written
      pure (Sum.inr (α := Nat) readCount)
    else pure (Sum.inl readCount) : M (Nat ⊕ Nat)) := by
    refine MErrs.bind (motionWorker_errs h hone hm (by simp)) fun r => ?_
    dsimp only
    split
    · refine MErrs.bind (closeAll_errs hone) fun _ => MErrs.bind closeMon_errs fun _ => MErrs.bind closeMon_errs fun _ => merrs_pure _
    · exact merrs_pure _
  rcases a with e' | (n | n)
  · obtain ⟨_, h2⟩ := h2
    injection h2 with h2; injection h2 with h2; subst h2
    exact this _ _ h1
  · obtain ⟨_, h2⟩ := h2; cases h2
  · obtain ⟨_, h2⟩ := h2; cases h2

/-- The errors of a regulator or faucet. -/
theorem regulator_errs {pull : Pull} {push : Push} {spy ctl : Option Nat} {s tr e}
    (h : ∀ j, pull.journey = some j → j ∈ pulls) (hp : ∀ j, push.journey = some j → j ∈ pushs)
    (hr : LoopRuns (regulatorBody pull push spy ctl) s tr (.error e)) : MErr.Of pulls pushs e := by
  obtain ⟨n, t, hr⟩ := hr.last
  unfold regulatorBody at hr
  rw [Prog.runs_bind] at hr
  obtain ⟨t1, a, t2, rfl, h1, h2⟩ := hr
  have hone : ∀ p ∈ [push], ∀ j, p.journey = some j → j ∈ pushs := by
    intro p hp' j hj; rw [List.mem_singleton.mp hp'] at hj; exact hp j hj
  have := motionWorker_errs (pulls := pulls) (mon := {}) (spy := spy) (b := false) h hone (by simp) (by simp)
  cases a with
  | ok r =>
    simp only at h2
    split at h2
    · rw [Prog.runs_bind] at h2; obtain ⟨_, _, _, _, _, _, h2⟩ := h2; cases h2
    · rw [Prog.runs_bind] at h2; obtain ⟨_, _, _, _, _, _, h2⟩ := h2; cases h2
  | error e' =>
    have hw := this _ _ h1
    cases e' with
    | outputClosed j why d =>
      simp only at h2
      split at h2
      · obtain ⟨_, h2⟩ := h2; injection h2 with h2; injection h2 with h2; subst h2; exact hw
      · split at h2
        · obtain ⟨_, h2⟩ := h2; cases h2
        · rw [Prog.runs_bind] at h2; obtain ⟨_, _, _, _, _, _, h2⟩ := h2; cases h2
    | _ => obtain ⟨_, h2⟩ := h2; injection h2 with h2; injection h2 with h2; subst h2; exact hw

theorem dropPull_errs {p : Pull} {P : MErr → Prop} : MErrs P (dropPull p) := by
  cases p <;> first | exact merrs_ask _ | exact merrs_pure _

theorem removeFinished_errs {fs : List (Nat × Nat)} {stdin : List (List Pull)} {P : MErr → Prop} : MErrs P (removeFinished fs stdin) := by
  induction fs generalizing stdin with
  | nil => exact merrs_pure _
  | cons f fs ih =>
    obtain ⟨i, j⟩ := f
    unfold removeFinished
    split
    · split
      · exact MErrs.bind dropPull_errs fun _ => ih
      · exact MErrs.bind (merrs_pure _) fun _ => ih
    · exact MErrs.bind (merrs_pure _) fun _ => ih

theorem removeVecVecIndex_sub {vals : List (List Pull)} {i j : Nat} {p : Pull} (h : p ∈ (removeVecVecIndex vals i j).flatten) : p ∈ vals.flatten := by
  unfold removeVecVecIndex at h
  split at h
  · rename_i v hv
    split at h
    · obtain ⟨g, hg, hp⟩ := List.mem_flatten.mp h
      rcases List.mem_or_eq_of_mem_set hg with hg | rfl
      · exact List.mem_flatten.mpr ⟨g, hg, hp⟩
      · exact List.mem_flatten.mpr ⟨v, List.mem_of_getElem? hv, List.mem_of_mem_eraseIdx hp⟩
    · exact h
  · exact h

theorem removeFinished_sub {fs : List (Nat × Nat)} {stdin stdin' : List (List Pull)} {t : List Ev}
    (h : MRuns (removeFinished fs stdin) t (.ok stdin')) {p : Pull} (hp : p ∈ stdin'.flatten) : p ∈ stdin.flatten := by
  induction fs generalizing stdin t with
  | nil => obtain ⟨_, e⟩ := h; injection e with e; subst e; exact hp
  | cons f fs ih =>
    obtain ⟨i, j⟩ := f
    have : ∃ t', MRuns (removeFinished fs (removeVecVecIndex stdin i j)) t' (.ok stdin') := by
      unfold removeFinished at h
      split at h
      · split at h
        · rw [mruns_bind] at h
          rcases h with ⟨e, he, _⟩ | ⟨_, _, t2, _, _, h⟩
          · cases he
          · exact ⟨t2, h⟩
        · exact ⟨t, h⟩
      · exact ⟨t, h⟩
    obtain ⟨t', h'⟩ := this
    exact removeVecVecIndex_sub (ih h')

theorem iteration_sub {ps spy stdin b t stdin' b' n} (h : MRuns (iteration ps spy stdin b) t (.ok (.inl (stdin', b', n)))) {p : Pull}
    (hp : p ∈ stdin'.flatten) : p ∈ stdin.flatten := by
  unfold iteration at h
  rw [mruns_bind] at h
  rcases h with ⟨e, he, _⟩ | ⟨_, ⟨f, any, n'⟩, t2, _, _, h⟩
  · cases he
  simp only at h
  rw [mruns_bind] at h
  rcases h with ⟨e, he, _⟩ | ⟨t3, s2, t4, _, h3, h⟩
  · cases he
  have key : ∀ g, g = removeVecVec s2 → p ∈ g.flatten → p ∈ stdin.flatten := by
    rintro g rfl hp
    rw [removeVecVec_eq, flatten_filter_nonempty] at hp
    exact removeFinished_sub h3 hp
  split at h
  · rw [mruns_bind] at h
    rcases h with ⟨e, he, _⟩ | ⟨_, _, t2, _, _, h⟩
    · cases he
    · obtain ⟨_, h⟩ := h; cases h
  · split at h
    · obtain ⟨_, h⟩ := h
      injection h with h; injection h with h; injection h with h1 h2
      subst h1
      exact key _ rfl hp
    · rw [mruns_bind] at h
      rcases h with ⟨e, he, _⟩ | ⟨_, ⟨x, y⟩, t2, _, _, h⟩
      · cases he
      · obtain ⟨_, h⟩ := h
        injection h with h; injection h with h; injection h with h1 h2
        subst h1
        exact key _ rfl hp

theorem junctionLoop_errs {ps spy ins i acc} (h : ∀ p ∈ ins, ∃ j c, p = .receiver j c ∧ j ∈ pulls) (hp : ∀ p ∈ ps, ∀ j, p.journey = some j → j ∈ pushs) :
    MErrs (MErr.Of pulls pushs) (junctionLoop ps spy ins i acc) := by
  induction ins generalizing i acc with
  | nil => exact merrs_pure _
  | cons q ins ih =>
    have ih' : ∀ i acc, MErrs (MErr.Of pulls pushs) (junctionLoop ps spy ins i acc) := fun i acc => ih (fun p hp => h p (by simp [hp]))
    unfold junctionLoop
    split
    · exact ih' _ _
    · obtain ⟨j, c, rfl, hj⟩ := h q (by simp)
      refine MErrs.bind (motionWorker_errs ?_ hp (by simp) (fun _ => ⟨j, c, rfl⟩)) fun r => ih' _ _
      rintro j' e
      injection e with e; subst e; exact hj

theorem iterationLoop_errs {ps spy} {G : List (List Pull)} {i f n} (h : ∀ p ∈ G.flatten, ∃ j c, p = .receiver j c ∧ j ∈ pulls)
    (hp : ∀ p ∈ ps, ∀ j, p.journey = some j → j ∈ pushs) :
    MErrs (MErr.Of pulls pushs) (iterationLoop ps spy G i f n) := by
  induction G generalizing i f n with
  | nil => exact merrs_pure _
  | cons g G ih =>
    unfold iterationLoop
    refine MErrs.bind (junctionLoop_errs (fun p hp => h p (by simp [hp])) hp) fun r => ?_
    dsimp only
    split
    · exact merrs_pure _
    · exact ih fun p hp => h p (by
        rw [List.flatten_cons]
        exact List.mem_append_right _ hp)

theorem iteration_errs {ps spy} {G : List (List Pull)} {b} (h : ∀ p ∈ G.flatten, ∃ j c, p = .receiver j c ∧ j ∈ pulls)
    (hp : ∀ p ∈ ps, ∀ j, p.journey = some j → j ∈ pushs) : MErrs (MErr.Of pulls pushs) (iteration ps spy G b) := by
  unfold iteration
  refine MErrs.bind (iterationLoop_errs h hp) ?_
  rintro ⟨f, any, n⟩
  refine MErrs.bind removeFinished_errs fun s2 => ?_
  dsimp only
  split
  · exact MErrs.bind (closeAll_errs hp) fun _ => merrs_pure _
  · split
    · exact merrs_pure _
    · exact MErrs.bind (merrs_lift _) fun _ => merrs_pure _

/-- The errors of a junction. -/
theorem junction_errs {ps spy} {s : JState} {tr e} (h : ∀ p ∈ s.stdin.flatten, ∃ j c, p = .receiver j c ∧ j ∈ pulls)
    (hp : ∀ p ∈ ps, ∀ j, p.journey = some j → j ∈ pushs) (hr : LoopRuns (junctionBody ps spy) s tr (.error e)) : MErr.Of pulls pushs e := by
  generalize hx : (Except.error e : Except MErr Nat) = x at hr
  induction hr with
  | stop h1 =>
    subst hx
    unfold junctionBody at h1
    rw [Prog.runs_bind] at h1
    obtain ⟨t1, a, t2, rfl, h1, h2⟩ := h1
    rcases a with e' | (⟨_, _, _⟩ | n)
    · rw [Prog.runs_bind] at h2
      obtain ⟨_, _, _, _, _, _, h2⟩ := h2
      injection h2 with h2; injection h2 with h2; subst h2
      exact iteration_errs h hp _ _ h1
    · obtain ⟨_, h2⟩ := h2; cases h2
    · obtain ⟨_, h2⟩ := h2; cases h2
  | next h1 _ ih =>
    refine ih ?_ hx
    unfold junctionBody at h1
    rw [Prog.runs_bind] at h1
    obtain ⟨t1, a, t2, rfl, h1, h2⟩ := h1
    rcases a with e' | (⟨g, b, n⟩ | n)
    · rw [Prog.runs_bind] at h2
      obtain ⟨_, _, _, _, _, _, h2⟩ := h2
      cases h2
    · obtain ⟨_, h2⟩ := h2
      injection h2 with h2
      subst h2
      exact fun p hp => h p (iteration_sub h1 hp)
    · obtain ⟨_, h2⟩ := h2; cases h2

end Verif
