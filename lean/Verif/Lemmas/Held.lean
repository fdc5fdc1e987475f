import Verif.Spec.Held
import Verif.Lemmas.Attended
/-!
# When counts, managers and regulators can go on
-/
namespace Verif

/-- Whatever the program returns. -/
def Prog.Gives {α : Type} (P : α → Prop) : Prog α → Prop
  | .ret a => P a
  | .op _ k => ∀ r, Prog.Gives P (k r)

theorem Prog.Gives.bind {α β : Type} {P : α → Prop} {Q : β → Prop} {p : Prog α} {f : α → Prog β} (hp : p.Gives P) (hf : ∀ a, P a → (f a).Gives Q) : (p >>= f).Gives Q := by
  show (Prog.bind p f).Gives Q
  induction p with
  | ret a => exact hf a hp
  | op q k ih => exact fun r => ih r (hp r)

theorem Prog.gives_true {α : Type} (p : Prog α) : p.Gives fun _ => True := by
  induction p with
  | ret a => trivial
  | op q k ih => exact fun r => ih r

theorem Prog.Gives.runs {α : Type} {P : α → Prop} {p : Prog α} (hp : p.Gives P) {t : List Ev} {a : α} (h : p.Runs t a) : P a := by
  induction p generalizing t with
  | ret b => simp only [Prog.runs_ret] at h; obtain ⟨_, rfl⟩ := h; exact hp
  | op q k ih =>
    cases t with
    | nil => simp [Prog.Runs] at h
    | cons e t => obtain ⟨r, t', _, h⟩ := h; exact ih r (hp r) h

theorem Prog.Only.bindGives {α β : Type} {P : Req → Prop} {Q : α → Prop} {p : Prog α} {f : α → Prog β} (hp : p.Only P) (hg : p.Gives Q) (hf : ∀ a, Q a → (f a).Only P) :
    (p >>= f).Only P := by
  show (Prog.bind p f).Only P
  induction p with
  | ret a => exact hf a hg
  | op q k ih => exact ⟨hp.1, fun r => ih r (hp.2 r) (hg r)⟩

/-! ## Managers -/

/-- What a manager asks for. -/
def ManagerReq (ctl : Nat) (q : Req) : Prop := (∃ c, q = .tryRecv .size c) ∨ q = .send .ctl ctl () ∨ ∃ ms, q = .sleep ms

theorem look_requests (ctl : Nat) : ∀ (i : Nat) (ms : List Monitor), (look i ms).Only (ManagerReq ctl) := by
  intro i ms
  induction ms generalizing i with
  | nil => exact trivial
  | cons m ms ih =>
    refine Prog.Only.bind (p := req _) (Prog.only_req (Or.inl ⟨_, rfl⟩)) fun x => ?_
    cases x with
    | closed => exact Prog.Only.bind (ih _) fun _ => trivial
    | empty => exact Prog.Only.bind (ih _) fun _ => trivial
    | got n => exact Prog.Only.bind (ih _) fun _ => trivial

theorem pause_requests (h : Control) : h.pause.Only (ManagerReq h.chan) ∧ h.pause.Gives fun x => x.1.chan = h.chan := by
  unfold Control.pause
  constructor
  · show Prog.Only _ (if h.paused = true then _ else _)
    split
    · exact trivial
    · exact Prog.Only.bind (p := req _) (Prog.only_req (Or.inr (Or.inl rfl))) fun _ => trivial
  · show Prog.Gives _ (if h.paused = true then _ else _)
    split
    · exact rfl
    · exact Prog.Gives.bind (p := req _) (Prog.gives_true _) fun _ _ => rfl

theorem resume_requests (h : Control) : h.resume.Only (ManagerReq h.chan) ∧ h.resume.Gives fun x => x.1.chan = h.chan := by
  unfold Control.resume
  constructor
  · show Prog.Only _ (if (!h.paused) = true then _ else _)
    split
    · exact trivial
    · exact Prog.Only.bind (p := req _) (Prog.only_req (Or.inr (Or.inl rfl))) fun _ => trivial
  · show Prog.Gives _ (if (!h.paused) = true then _ else _)
    split
    · exact rfl
    · exact Prog.Gives.bind (p := req _) (Prog.gives_true _) fun _ _ => rfl

theorem pauseAbove_requests (high total : Nat) (s : Manager) :
    (pauseAbove high total s).Only (ManagerReq s.control.chan) ∧ (pauseAbove high total s).Gives fun s' => s'.control.chan = s.control.chan ∧ s'.monitors = s.monitors := by
  unfold pauseAbove
  split
  · exact ⟨Prog.Only.bind (pause_requests _).1 fun _ => trivial, Prog.Gives.bind (pause_requests _).2 fun _ h => ⟨h, rfl⟩⟩
  · exact ⟨trivial, rfl, rfl⟩

theorem resumeBelow_requests (low total : Nat) (s : Manager) :
    (resumeBelow low total s).Only (ManagerReq s.control.chan) ∧ (resumeBelow low total s).Gives fun s' => s'.control.chan = s.control.chan ∧ s'.monitors = s.monitors := by
  unfold resumeBelow
  split
  · exact ⟨Prog.Only.bind (resume_requests _).1 fun _ => trivial, Prog.Gives.bind (resume_requests _).2 fun _ h => ⟨h, rfl⟩⟩
  · exact ⟨trivial, rfl, rfl⟩

theorem manager_requests (low high : Nat) (s : Manager) :
    (managerBody low high s).Only (ManagerReq s.control.chan) ∧ (managerBody low high s).Gives fun x => ∀ s', x = .inl s' → s'.control.chan = s.control.chan := by
  unfold managerBody
  constructor
  · refine Prog.Only.bind (look_requests _ _ _) fun l => ?_
    refine Prog.Only.bindGives (pauseAbove_requests high l.total { s with monitors := l.monitors, readCount := s.readCount + l.reads }).1 (pauseAbove_requests _ _ _).2 fun s1 h1 => ?_
    rw [show s.control.chan = s1.control.chan from h1.1.symm]
    refine Prog.Only.bindGives (resumeBelow_requests _ _ s1).1 (resumeBelow_requests _ _ _).2 fun s2 h2 => ?_
    show Prog.Only _ (if _ then _ else _)
    split
    · exact trivial
    · split
      · exact Prog.Only.bind (p := BackOff.wait _) (Prog.Only.bind (Prog.only_req (Or.inr (Or.inr ⟨_, rfl⟩))) fun _ => Prog.only_pure _) fun _ => trivial
      · exact trivial
  · refine Prog.Gives.bind (Prog.gives_true _) fun l _ => ?_
    refine Prog.Gives.bind (pauseAbove_requests _ _ _).2 fun s1 h1 => ?_
    refine Prog.Gives.bind (resumeBelow_requests _ _ _).2 fun s2 h2 => ?_
    show Prog.Gives _ (if _ then _ else _)
    split
    · exact fun s' h => by cases h
    · split
      · refine Prog.Gives.bind (Prog.gives_true _) fun x _ => ?_
        obtain ⟨b, _⟩ := x
        rintro s' h
        cases h
        exact h2.1.trans h1.1
      · rintro s' h
        cases h
        exact h2.1.trans h1.1

/-- A manager's round asks for something. -/
theorem manager_speaks {low high ctl : Nat} {chans : List Nat} : ∀ s s', ¬ ((managerTask low high ctl chans).body s).Runs [] (.inl s') := by
  have : ∀ s s' : Manager, ¬ (managerBody low high s).Runs [] (.inl s') := by
    intro s s' h
    cases hm : s.monitors with
    | cons m ms =>
      unfold managerBody at h
      rw [hm] at h
      simp only [look] at h
      change (Prog.op _ _).Runs [] _ at h
      simp [Prog.Runs] at h
    | nil =>
      have : (managerBody low high s).Gives fun x => ∃ n, x = .inr n := by
        unfold managerBody
        rw [hm]
        refine Prog.Gives.bind (P := fun l => l = ({} : Look)) (show ({} : Look) = {} from rfl) ?_
        rintro l rfl
        refine Prog.Gives.bind (pauseAbove_requests _ _ _).2 fun s1 h1 => ?_
        refine Prog.Gives.bind (resumeBelow_requests _ _ _).2 fun s2 h2 => ?_
        show Prog.Gives _ (if _ then _ else _)
        have h3 : s2.monitors = [] := h2.2.trans h1.2
        rw [if_pos (by simp [removeMonitors, h3])]
        exact ⟨_, rfl⟩
      obtain ⟨n, hn⟩ := this.runs h
      cases hn
  exact this

theorem manager_chan {low high : Nat} {s s' : Manager} {t : List Ev} (h : LoopRounds (managerBody low high) s t s') : s'.control.chan = s.control.chan := by
  induction h with
  | nil => rfl
  | next hb _ ih => exact ih.trans ((manager_requests _ _ _).2.runs hb _ rfl)

section
variable {cap : Caps} {st : Store}

theorem possible_of {q : Req} (h : ¬ Impossible cap st q) : ∃ r st', exec cap st ⟨q, r⟩ = some st' := by
  refine Classical.byContradiction fun hno => h fun r => ?_
  cases hx : exec cap st ⟨q, r⟩ with
  | none => rfl
  | some st' => exact absurd ⟨r, st', hx⟩ hno

/-- A manager goes on unless a request does not fit. -/
theorem manager_goes {low high ctl : Nat} {chans : List Nat} {tr : List Ev} (h : (managerTask low high ctl chans).Partial tr) (hd : ¬ (managerTask low high ctl chans).Done tr) :
    (∃ e st', (managerTask low high ctl chans).Partial (tr ++ [e]) ∧ exec cap st e = some st') ∨
    (managerTask low high ctl chans).Awaits tr (.send .ctl ctl ()) ∧ (st .ctl ctl).closed = false ∧ ¬ hasRoom (cap .ctl ctl) (st .ctl ctl).q.length := by
  rcases h.now manager_speaks with h1 | ⟨q, hq⟩ | ⟨k, ch, h1⟩
  · exact absurd h1 hd
  · by_cases himp : Impossible cap st q
    · right
      have hm : ManagerReq ctl q := by
        obtain ⟨s, t1, t2, g1, g2, _⟩ := hq
        have g1 : LoopRounds (managerBody low high) (managerInit ctl chans) t1 s := g1
        have := (manager_requests low high s).1.awaits g2
        rw [manager_chan g1] at this
        exact this
      rcases impossible_cases himp with ⟨k, c', rfl, h1, h2⟩ | ⟨k, c', v, rfl, h1, h2⟩
      · rcases hm with ⟨_, h⟩ | h | ⟨_, h⟩ <;> cases h
      · rcases hm with ⟨_, h⟩ | h | ⟨_, h⟩
        · cases h
        · cases h
          exact ⟨hq, h1, h2⟩
        · cases h
    · obtain ⟨r, st', h2⟩ := possible_of himp
      exact Or.inl ⟨_, st', hq.step r, h2⟩
  · exact Or.inl ⟨_, _, h1, by simp [exec]; rfl⟩

/-! ## Counts -/

/-- What a count asks for. -/
def TotalReq (sender : Option Nat) (q : Req) : Prop := (∃ c, q = .tryRecv .mon c) ∨ (∃ c, q = .stat .mon c) ∨ (∃ ms, q = .sleep ms) ∨ ∃ c v, sender = some c ∧ q = .send .size c v

theorem total_requests {sender : Option Nat} {mIn mOut : Nat} (s : Total) : (totalBody sender mIn mOut s).Only (TotalReq sender) := by
  have rest : ∀ b m n l, (totalRest sender mIn mOut b m n l).Only (TotalReq sender) := by
    intro b m n l
    unfold totalRest
    refine Prog.Only.bind ?_ fun x => ?_
    · unfold reportSize
      cases sender with
      | none => exact trivial
      | some c =>
        show Prog.Only _ (if l ≠ n then _ else _)
        split
        · exact Prog.Only.bind (p := req _) (Prog.only_req (Or.inr (Or.inr (Or.inr ⟨_, _, rfl, rfl⟩)))) fun _ => trivial
        · exact trivial
    obtain ⟨x1, x2⟩ := x
    show Prog.Only _ (if x2 = false then _ else _)
    split
    · exact Prog.only_pure _
    · refine Prog.Only.bind (Prog.only_req (Or.inr (Or.inl ⟨_, rfl⟩))) fun y => ?_
      refine Prog.Only.bind ?_ fun z => ?_
      · split
        · exact Prog.only_req (Or.inr (Or.inl ⟨_, rfl⟩))
        · exact Prog.only_pure _
      · obtain ⟨z1, z2⟩ := z
        show Prog.Only _ (if (y.1 && y.2 && z1 && z2) = true then _ else _)
        split
        · exact Prog.only_pure _
        · split
          · exact Prog.only_pure _
          · exact Prog.Only.bind (Prog.Only.bind (Prog.only_req (Or.inr (Or.inr (Or.inl ⟨_, rfl⟩)))) fun _ => Prog.only_pure _) fun _ => Prog.only_pure _
  unfold totalBody
  refine Prog.Only.bind (Prog.only_req (Or.inl ⟨_, rfl⟩)) fun x => ?_
  have second : ∀ size moved, Prog.Only (TotalReq sender)
      (req (.tryRecv .mon mOut) >>= fun y => match y with
        | .got (.wrote _) => pure (.inr .wrongMessage)
        | .got (.read _) => if size = 0 then pure (.inr .underflow) else totalRest sender mIn mOut s.backOff true (size - 1) s.last
        | _ => totalRest sender mIn mOut s.backOff moved size s.last) := by
    intro size moved
    refine Prog.Only.bind (Prog.only_req (Or.inl ⟨_, rfl⟩)) fun y => ?_
    cases y with
    | got m => cases m with
      | wrote => exact Prog.only_pure _
      | read =>
        show Prog.Only _ (if size = 0 then _ else _)
        split
        · exact Prog.only_pure _
        · exact rest _ _ _ _
    | empty => exact rest _ _ _ _
    | closed => exact rest _ _ _ _
  cases x with
  | got m => cases m with
    | wrote => exact second (s.size + 1) true
    | read => exact Prog.only_pure _
  | empty => exact second s.size false
  | closed => exact second s.size false

/-- A count goes on unless a report does not fit. -/
theorem total_goes {sender : Option Nat} {mIn mOut : Nat} {tr : List Ev} (h : (totalTask sender mIn mOut).Partial tr) (hd : ¬ (totalTask sender mIn mOut).Done tr)
    (hroom : ∀ c, sender = some c → (st .size c).closed = true ∨ hasRoom (cap .size c) (st .size c).q.length) :
    ∃ e st', (totalTask sender mIn mOut).Partial (tr ++ [e]) ∧ exec cap st e = some st' := by
  rcases h.now total_speaks with h1 | ⟨q, hq⟩ | ⟨k, ch, h1⟩
  · exact absurd h1 hd
  · have himp : ¬ Impossible cap st q := by
      intro himp
      have hm : TotalReq sender q := Task.only_awaits (t := totalTask sender mIn mOut) (fun s => total_requests s) hq
      rcases impossible_cases himp with ⟨k, c', rfl, h1, h2⟩ | ⟨k, c', v, rfl, h1, h2⟩
      · rcases hm with ⟨_, h⟩ | ⟨_, h⟩ | ⟨_, h⟩ | ⟨_, _, _, h⟩ <;> cases h
      · rcases hm with ⟨_, h⟩ | ⟨_, h⟩ | ⟨_, h⟩ | ⟨_, _, hs, h⟩
        · cases h
        · cases h
        · cases h
        · cases h
          rcases hroom _ hs with h | h
          · rw [h] at h1; cases h1
          · exact h2 h
    obtain ⟨r, st', h2⟩ := possible_of himp
    exact ⟨_, st', hq.step r, h2⟩
  · exact ⟨_, _, h1, by simp [exec]; rfl⟩

end

/-! ## Regulators -/

/-- A regulator sends no requests. -/
theorem regulator_noSend {pull push spy ctl n} : (regulatorBody pull push spy ctl n).Only fun q => ∀ c v, q ≠ .send .ctl c v := by
  have within : ∀ q, Within (regulatorChans pull push spy none) q → ∀ c v, q ≠ .send .ctl c v := by
    rintro q h c v rfl
    have := h _ rfl
    simp only [regulatorChans, List.mem_append] at this
    rcases this with ((h | h) | h) | h
    · have := push_owned_data h; cases this
    · simp at h
    · simp at h
    · have := pull_owned_data h; cases this
  have point : (controlPoint ctl).Only fun q => ∀ c v, q ≠ .send .ctl c v := by
    cases ctl with
    | none => exact trivial
    | some c =>
      refine Prog.Only.bind (p := req _) (Prog.only_req (by intro c v h; cases h)) fun a => ?_
      cases a
      · exact Prog.Only.bind (p := req _) (Prog.only_req (by intro c v h; cases h)) fun _ => trivial
      · exact trivial
      · exact trivial
  have close : (closeControl ctl).Only fun q => ∀ c v, q ≠ .send .ctl c v := by
    cases ctl with
    | none => exact trivial
    | some c => exact Prog.only_req (by intro c v h; cases h)
  have h1 : ∀ kc ∈ pull.owned, kc ∈ regulatorChans pull push spy none := by intro kc h; simp [regulatorChans, h]
  have h2 : ∀ p ∈ [push], ∀ kc ∈ Push.owned p, kc ∈ regulatorChans pull push spy none := by
    intro p hp kc h; simp at hp; subst hp; simp [regulatorChans, h]
  have h3 : ∀ c, spy = some c → (Kind.spy, c) ∈ regulatorChans pull push spy none := by rintro c rfl; simp [regulatorChans]
  unfold regulatorBody
  refine Prog.Only.bind (p := ExceptT.run _) (Prog.Only.mono (motionWorker_only (mon := {}) h1 h2 h3 (by simp) (by simp)) within) ?_
  intro a
  rcases a with e | res
  · cases e with
    | outputClosed j why d =>
      dsimp only
      split
      · exact trivial
      · split
        · exact trivial
        · exact Prog.Only.bind point fun _ => trivial
    | _ => exact trivial
  · dsimp only
    split
    · exact Prog.Only.bind close fun _ => trivial
    · exact Prog.Only.bind point fun _ => trivial

end Verif
