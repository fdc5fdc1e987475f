import Verif.Model.Tasks
import Verif.Lemmas.Relay
import Verif.Lemmas.System
namespace Verif

def Act.isCtl : Act → Bool
  | .ctlTry _ _ => true
  | .ctlWait _ _ => true
  | .close _ _ => true
  | .other => true
  | _ => false

/-- Workers do not look at control channels and do not close anything. -/
theorem worker_no_ctl {pull mon pushs spy doTry tr} {r : Except MErr WorkerResult}
    (h : MRuns (motionWorker pull mon pushs spy doTry) tr r) :
    ∀ a ∈ acts tr, a.isCtl = false := by
  have rd : ∀ {t1 r}, MRuns (motionRead pull doTry) t1 r → ∀ a ∈ acts t1, a.isCtl = false := by
    intro t1 r h1 a hm
    have := motionRead_runs h1
    cases r with
    | ok x =>
      cases x with
      | data d' => obtain ⟨s', hs, ha⟩ := this; rw [ha] at hm; simp at hm; subst hm; simp [Act.isCtl]
      | finished =>
        rcases this with ⟨_, ha⟩ | ⟨s', hs, ha⟩ <;> rw [ha] at hm <;> simp at hm
        subst hm; simp [Act.isCtl]
      | skipped => obtain ⟨s', hs, ha⟩ := this; rw [ha] at hm; simp at hm; subst hm; simp [Act.isCtl]
    | error e =>
      cases e <;> simp [ReadSees] at this
      · obtain ⟨_, _, ha⟩ := this; rw [ha] at hm; simp at hm; subst hm; simp [Act.isCtl]
      · rw [this] at hm; simp at hm
  have nr : ∀ {t r}, MRuns (notifyRead mon pull) t r → ∀ a ∈ acts t, a.isCtl = false := by
    intro t r h1 a hm
    rcases notifyRead_runs h1 with ⟨_, rfl, _⟩ | ⟨c, b, _, ha, _⟩
    · simp at hm
    · rw [ha] at hm; simp at hm; subst hm; simp [Act.isCtl]
  have nw : ∀ {t r}, MRuns (notifyWritten mon pull) t r → ∀ a ∈ acts t, a.isCtl = false := by
    intro t r h1 a hm
    rcases notifyWritten_runs h1 with ⟨_, rfl, _⟩ | ⟨c, b, _, ha, _⟩
    · simp at hm
    · rw [ha] at hm; simp at hm; subst hm; simp [Act.isCtl]
  have pq : ∀ {x t r}, MRuns (pushAll x spy pushs pushs.length) t r → ∀ a ∈ acts t, a.isCtl = false := by
    intro x t r h1 a hm
    have := pushAll_quiet h1 _ hm
    cases a <;> simp [Act.isQuiet] at this <;> simp [Act.isCtl]
  intro a hm
  rcases motionWorker_inv h with ⟨e, rfl, h1⟩ | ⟨h1, hr⟩ | ⟨x, t1, t2, rfl, hx, h1, h2⟩
  · exact rd h1 a hm
  · exact rd h1 a hm
  · rw [acts_append, List.mem_append] at hm
    rcases hm with hm | hm
    · exact rd h1 a hm
    · rcases h2 with ⟨e, h0, h3⟩ | ⟨t3, t4, rfl, h3, h4⟩
      · exact nr h3 a hm
      · rw [acts_append, List.mem_append] at hm
        rcases hm with hm | hm
        · exact nr h3 a hm
        · rcases h4 with ⟨e, h0, h5⟩ | ⟨m, t5, t6, rfl, h5, h6⟩
          · exact pq h5 a hm
          · rw [acts_append, List.mem_append] at hm
            rcases hm with hm | hm
            · exact pq h5 a hm
            · rcases h6 with ⟨e, h0, h7⟩ | ⟨h7, hr⟩ <;> exact nw h7 a hm

/-- A worker reports a closed output as an error only for the variation T. -/
theorem worker_closed_terminate {pull mon push spy doTry tr j why d}
    (h : MRuns (motionWorker pull mon [push] spy doTry) tr (.error (.outputClosed j why d))) :
    push.breakable = .terminate := by
  rcases motionWorker_inv h with ⟨e, h0, h1⟩ | ⟨h1, hr⟩ | ⟨x, t1, t2, rfl, hx, h1, h2⟩
  · simp at h0; subst h0
    have := motionRead_runs h1
    simp [ReadSees] at this
  · simp at hr
  · rcases h2 with ⟨e, h0, h3⟩ | ⟨t3, t4, rfl, h3, h4⟩
    · simp at h0; subst h0
      rcases notifyRead_runs h3 with ⟨_, _, h'⟩ | ⟨c, b, _, ha, h'⟩
      · simp at h'
      · cases b <;> simp at h'
        split at h' <;> simp at h'
    · rcases h4 with ⟨e, h0, h5⟩ | ⟨m, t5, t6, rfl, h5, h6⟩
      · simp at h0; subst h0
        cases x with
        | data d' =>
          have := (pushAll_data (by simp) h5).2.1
          cases this with
          | closed hm hb hj ht hO hf =>
            have : ∀ {ws : List WOut} {y : Push × WOut}, y ∈ outcomes [push] ws → y.1 = push := by
              intro ws y hy
              cases push with
              | none => simp [outcomes] at hy; rw [hy]
              | sender => cases ws <;> simp [outcomes] at hy; rw [hy]
              | io => cases ws <;> simp [outcomes] at hy; rw [hy]
            rw [← this hm]; exact hb
        | finished =>
          have := (pushAll_nodata (by simp) h5).2
          simp at this
        | skipped => exact absurd rfl hx
      · rcases h6 with ⟨e, h0, h7⟩ | ⟨h7, hr⟩
        · simp at h0; subst h0
          rcases notifyWritten_runs h7 with ⟨_, _, h'⟩ | ⟨c, b, _, ha, h'⟩
          · simp at h'
          · cases b <;> simp at h'
            split at h' <;> simp at h'
        · simp at hr

theorem controlPoint_acts {ctl : Option Nat} {tr : List Ev} {u : Unit} (h : (controlPoint ctl).Runs tr u) :
    match ctl with
    | none => acts tr = []
    | some c => acts tr = [.ctlTry c .empty] ∨ acts tr = [.ctlTry c .closed] ∨
        ∃ r, acts tr = [.ctlTry c (.got ()), .ctlWait c r] := by
  cases ctl with
  | none => obtain ⟨rfl, _⟩ := h; rfl
  | some c =>
    simp only [controlPoint] at h
    rw [Prog.runs_bind] at h
    obtain ⟨t1, r, t2, rfl, h1, h2⟩ := h
    rw [Prog.runs_req] at h1
    subst h1
    cases r with
    | empty => simp at h2; subst h2; left; rfl
    | closed => simp at h2; subst h2; right; left; rfl
    | got v =>
      simp only [] at h2
      rw [Prog.runs_bind] at h2
      obtain ⟨t1, r, t3, rfl, h1, h2⟩ := h2
      rw [Prog.runs_req] at h1
      subst h1
      simp at h2; subst h2
      right; right; exact ⟨r, rfl⟩

theorem closeControl_acts {ctl : Option Nat} {tr : List Ev} {u : Unit} (h : (closeControl ctl).Runs tr u) :
    acts tr = (ctl.map (Act.close .ctl)).toList := by
  cases ctl with
  | none => obtain ⟨rfl, _⟩ := h; rfl
  | some c =>
    have h : (req (.close .ctl c)).Runs tr u := h
    rw [Prog.runs_req] at h
    subst h; rfl

/-- One round of a regulator. -/
theorem regulatorBody_inv {pull push spy ctl n tr x} (h : (regulatorBody pull push spy ctl n).Runs tr x) :
    ∃ r t1 t2, tr = t1 ++ t2 ∧ MRuns (motionWorker pull {} [push] spy false) t1 r ∧
      ((∃ res, r = .ok res ∧ res.finished = true ∧ (closeControl ctl).Runs t2 () ∧ x = .inr (.ok n)) ∨
       (∃ res, r = .ok res ∧ res.finished = false ∧ (controlPoint ctl).Runs t2 () ∧ x = .inl (n + 1)) ∨
       (∃ e, r = .error e ∧ t2 = [] ∧ x = .inr (.error e))) := by
  unfold regulatorBody at h
  rw [Prog.runs_bind] at h
  obtain ⟨t1, r, t2, rfl, h1, h2⟩ := h
  refine ⟨r, t1, t2, rfl, h1, ?_⟩
  cases r with
  | ok res =>
    simp only [] at h2
    split at h2
    · rename_i hf
      rw [Prog.runs_bind] at h2
      obtain ⟨t3, u, t4, rfl, h3, h4⟩ := h2
      simp at h4
      obtain ⟨rfl, rfl⟩ := h4
      exact Or.inl ⟨res, rfl, hf, by simpa using h3, rfl⟩
    · rename_i hf
      rw [Prog.runs_bind] at h2
      obtain ⟨t3, u, t4, rfl, h3, h4⟩ := h2
      simp at h4
      obtain ⟨rfl, rfl⟩ := h4
      exact Or.inr (Or.inl ⟨res, rfl, by simpa using hf, by simpa using h3, rfl⟩)
  | error e =>
    right; right
    refine ⟨e, rfl, ?_⟩
    cases e with
    | outputClosed j why d =>
      have hb := worker_closed_terminate h1
      simp [hb] at h2
      exact h2
    | _ => simp at h2; exact h2

/-- Where a controlled regulator is, as far as control goes. -/
inductive Phase where
  /-- nothing written since the last look at the control channel -/
  | fresh
  | wrote
  /-- a pause request was taken -/
  | waiting
  /-- something was closed -/
  | over
  deriving DecidableEq, Repr

/-- The discipline a controlled regulator keeps to: at most one write between two looks at its control
channel, and after having taken a request nothing but waiting for the next one. -/
def Phase.step : Phase → Act → Option Phase
  | .waiting, .ctlWait _ _ => some .fresh
  | .waiting, _ => none
  | .over, .close _ _ => some .over
  | .over, _ => none
  | .fresh, .offer _ _ _ => some .wrote
  | .wrote, .offer _ _ _ => none
  | _, .ctlTry _ (.got _) => some .waiting
  | _, .ctlTry _ _ => some .fresh
  | _, .ctlWait _ _ => none
  | _, .close _ _ => some .over
  | _, .other => none
  | p, _ => some p

def Phase.run : Phase → List Act → Option Phase
  | p, [] => some p
  | p, a :: as => match p.step a with
    | none => none
    | some p' => p'.run as

theorem Phase.run_append (p : Phase) (a b : List Act) : p.run (a ++ b) = (p.run a).bind fun p' => p'.run b := by
  induction a generalizing p with
  | nil => rfl
  | cons x a ih =>
    simp only [List.cons_append, Phase.run]
    cases p.step x with
    | none => rfl
    | some p' => exact ih p'

def offersA (A : List Act) : List Offer := A.filterMap fun | .offer t d w => some ⟨t, d, w⟩ | _ => none

theorem offers_eq (tr : List Ev) : offers tr = offersA (acts tr) := rfl

/-- At most one write and no control. -/
theorem Phase.run_round {A : List Act} (hc : ∀ a ∈ A, a.isCtl = false) (ho : (offersA A).length ≤ 1) :
    (Phase.run .fresh A = some .fresh ∨ Phase.run .fresh A = some .wrote) := by
  have aux : ∀ {A : List Act}, (∀ a ∈ A, a.isCtl = false) → offersA A = [] → Phase.run .wrote A = some .wrote := by
    intro A
    induction A with
    | nil => intros; rfl
    | cons a A ih =>
      intro hc ho
      have hca := hc a (by simp)
      have ih := ih (fun a ha => hc a (by simp [ha]))
      cases a with
      | offer => simp [offersA] at ho
      | ctlTry => simp [Act.isCtl] at hca
      | ctlWait => simp [Act.isCtl] at hca
      | close => simp [Act.isCtl] at hca
      | other => simp [Act.isCtl] at hca
      | _ => exact ih ho
  induction A with
  | nil => left; rfl
  | cons a A ih =>
    have hca := hc a (by simp)
    have ih := ih (fun a ha => hc a (by simp [ha]))
    cases a with
    | offer t d w =>
      right
      simp only [Phase.run, Phase.step]
      apply aux (fun a ha => hc a (by simp [ha]))
      simp only [offersA, List.filterMap_cons, List.length_cons] at ho
      exact List.eq_nil_of_length_eq_zero (by simp only [offersA]; omega)
    | ctlTry => simp [Act.isCtl] at hca
    | ctlWait => simp [Act.isCtl] at hca
    | close => simp [Act.isCtl] at hca
    | other => simp [Act.isCtl] at hca
    | _ => exact ih ho

theorem worker_phase {pull push spy tr t} {r : Except MErr WorkerResult}
    (h : MRuns (motionWorker pull {} [push] spy false) tr r) (hp : pull ≠ .none) (ht : t <+: tr) :
    (Phase.run .fresh (acts t) = some .fresh ∨ Phase.run .fresh (acts t) = some .wrote) := by
  apply Phase.run_round
  · intro a ha; exact worker_no_ctl h a ((prefix_acts ht).subset ha)
  · have rs := round_seen h hp (by simp [Notifications.Apart]) ht
    have h1 := rs.one
    have h2 := rs.written.length_le
    unfold heard at h1
    rw [← offers_eq]; simp at h2; omega

theorem Phase.run_control {p : Phase} {c t} (hp : p = .fresh ∨ p = .wrote)
    (h : t = [.ctlTry c .empty] ∨ t = [.ctlTry c .closed] ∨ ∃ r, t = [.ctlTry c (.got ()), .ctlWait c r]) :
    Phase.run p t = some .fresh := by
  rcases hp with rfl | rfl <;> rcases h with rfl | rfl | ⟨r, rfl⟩ <;> rfl

theorem run_prefix {p q : Phase} {a b : List Act} (h : p.run b = some q) (ht : a <+: b) : ∃ q', p.run a = some q' := by
  obtain ⟨c, rfl⟩ := ht
  rw [Phase.run_append] at h
  cases hx : p.run a with
  | none => simp [hx] at h
  | some q' => exact ⟨q', rfl⟩

theorem round_phase {pull push spy c n tr x} (h : (regulatorBody pull push spy (some c) n).Runs tr x) (hp : pull ≠ .none) :
    ∃ q, Phase.run .fresh (acts tr) = some q ∧ q ≠ .waiting ∧ ∀ n', x = .inl n' → q = .fresh := by
  obtain ⟨r, t1, t2, rfl, hw, h2⟩ := regulatorBody_inv h
  rw [acts_append, Phase.run_append]
  have hw' := worker_phase hw hp List.prefix_rfl
  obtain ⟨q, hq, hq'⟩ : ∃ q, Phase.run .fresh (acts t1) = some q ∧ (q = .fresh ∨ q = .wrote) := by
    rcases hw' with h | h <;> exact ⟨_, h, by simp⟩
  rw [hq]
  rcases h2 with ⟨res, rfl, hf, hc, rfl⟩ | ⟨res, rfl, hf, hc, rfl⟩ | ⟨e, rfl, rfl, rfl⟩
  · rw [closeControl_acts hc]
    refine ⟨.over, ?_, by simp, by simp⟩
    rcases hq' with rfl | rfl <;> rfl
  · exact ⟨.fresh, Phase.run_control hq' (controlPoint_acts hc), by simp, by simp⟩
  · exact ⟨q, rfl, by rcases hq' with rfl | rfl <;> simp, by simp⟩

/-- A controlled regulator always keeps to the discipline. -/
theorem regulator_phase {pull push spy c n tr} (h : LoopPartial (regulatorBody pull push spy (some c)) n tr)
    (hp : pull ≠ .none) : ∃ q, Phase.run .fresh (acts tr) = some q := by
  obtain ⟨n', t1, t2, h1, h2, rfl⟩ := h
  have hr : Phase.run .fresh (acts t1) = some .fresh := by
    clear h2
    induction h1 with
    | nil => rfl
    | next hb _ ih =>
      rw [acts_append, Phase.run_append]
      obtain ⟨q, hq, _, hf⟩ := round_phase hb hp
      rw [hq, hf _ rfl]; exact ih
  obtain ⟨t3, x, h3⟩ := h2.extend
  obtain ⟨q, hq, _⟩ := round_phase h3 hp
  rw [acts_append, Phase.run_append, hr]
  exact run_prefix hq (prefix_acts ⟨t3, rfl⟩)

theorem regulator_phase_end {pull push spy c n tr x} (h : LoopRuns (regulatorBody pull push spy (some c)) n tr x)
    (hp : pull ≠ .none) : ∃ q, Phase.run .fresh (acts tr) = some q ∧ q ≠ .waiting := by
  induction h with
  | stop h => obtain ⟨q, hq, hw, _⟩ := round_phase h hp; exact ⟨q, hq, hw⟩
  | next hb _ ih =>
    rw [acts_append, Phase.run_append]
    obtain ⟨q, hq, _, hf⟩ := round_phase hb hp
    rw [hq, hf _ rfl]; exact ih

theorem Phase.run_closes {q : Phase} (hq : q ≠ .waiting) {l : List (Kind × Nat)} :
    ∃ q', Phase.run q (acts (dropEvs l)) = some q' := by
  induction l generalizing q with
  | nil => exact ⟨q, rfl⟩
  | cons x l ih =>
    obtain ⟨q', h⟩ := ih (q := .over) (by simp)
    exact ⟨q', by cases q <;> first | exact absurd rfl hq | exact h⟩

theorem regTask_phase {pull push spy c tr} (h : (regulatorTask pull push spy (some c)).Partial tr)
    (hp : pull ≠ .none) : ∃ q, Phase.run .fresh (acts tr) = some q := by
  rcases h with h | ⟨r, t1, t2, h1, h2, rfl⟩
  · exact regulator_phase h hp
  · obtain ⟨q, hq, hw⟩ := regulator_phase_end h1 hp
    obtain ⟨q', hq'⟩ := Phase.run_closes hw (l := (regulatorTask pull push spy (some c)).drops)
    obtain ⟨q'', h⟩ := run_prefix hq' (prefix_acts h2)
    exact ⟨q'', by rw [acts_append, Phase.run_append, hq]; exact h⟩

/-- A regulator looks at no control channel but its own. -/
theorem regulator_ctl {pull push spy c n tr x} (h : (regulatorBody pull push spy (some c) n).Runs tr x) :
    ∀ a ∈ acts tr, (∀ c' r, a = .ctlTry c' r → c' = c) ∧ (∀ c' r, a = .ctlWait c' r → c' = c) := by
  obtain ⟨r, t1, t2, rfl, hw, h2⟩ := regulatorBody_inv h
  intro a ha
  rw [acts_append, List.mem_append] at ha
  rcases ha with ha | ha
  · have := worker_no_ctl hw a ha
    cases a <;> simp [Act.isCtl] at this <;> simp
  · rcases h2 with ⟨res, rfl, hf, hc, rfl⟩ | ⟨res, rfl, hf, hc, rfl⟩ | ⟨e, rfl, rfl, rfl⟩
    · rw [closeControl_acts hc] at ha; simp at ha; subst ha; simp
    · rcases controlPoint_acts hc with h | h | ⟨r, h⟩ <;> rw [h] at ha <;> simp at ha
      · subst ha; simp
      · subst ha; simp
      · rcases ha with rfl | rfl <;> simp
    · simp at ha

theorem regTask_ctl {pull push spy c tr} (h : (regulatorTask pull push spy (some c)).Partial tr) :
    ∀ a ∈ acts tr, (∀ c' r, a = .ctlTry c' r → c' = c) ∧ (∀ c' r, a = .ctlWait c' r → c' = c) := by
  have rounds : ∀ {n t n'}, LoopRounds (regulatorBody pull push spy (some c)) n t n' →
      ∀ a ∈ acts t, (∀ c' r, a = .ctlTry c' r → c' = c) ∧ (∀ c' r, a = .ctlWait c' r → c' = c) := by
    intro n t n' h
    induction h with
    | nil => simp
    | next hb _ ih =>
      intro a ha
      rw [acts_append, List.mem_append] at ha
      rcases ha with ha | ha
      · exact regulator_ctl hb a ha
      · exact ih a ha
  intro a ha
  rcases h with ⟨n', t1, t2, h1, h2, rfl⟩ | ⟨r, t1, t2, h1, h2, rfl⟩
  · rw [acts_append, List.mem_append] at ha
    rcases ha with ha | ha
    · exact rounds h1 a ha
    · obtain ⟨t3, x, h3⟩ := h2.extend
      exact regulator_ctl h3 a (by simp [ha])
  · rw [acts_append, List.mem_append] at ha
    rcases ha with ha | ha
    · obtain ⟨_, u1, u2, rfl, h3, h4⟩ := h1.rounds
      rw [acts_append, List.mem_append] at ha
      rcases ha with ha | ha
      · exact rounds h3 a ha
      · exact regulator_ctl h4 a ha
    · have := (prefix_acts h2).subset ha
      simp [acts, dropEvs] at this
      obtain ⟨k, c', _, rfl⟩ := this
      simp [act]

theorem act_ctlTry {e : Ev} {c r} (h : act e = .ctlTry c r) : e = ⟨.tryRecv .ctl c, r⟩ := by
  obtain ⟨q, r'⟩ := e
  cases q with
  | tryRecv k c' =>
    cases k with
    | ctl =>
      have h : Act.ctlTry c' r' = Act.ctlTry c r := h
      cases h; rfl
    | data => cases r' <;> simp [act] at h
    | _ => simp [act] at h
  | recv k c' => cases k <;> cases r' <;> simp [act] at h
  | send k c' => cases k <;> simp [act] at h
  | streamRead => cases r' <;> simp [act] at h
  | ioWrite => cases r' <;> simp [act] at h
  | _ => simp [act] at h

theorem act_ctlWait {e : Ev} {c r} (h : act e = .ctlWait c r) : e = ⟨.recv .ctl c, r⟩ := by
  obtain ⟨q, r'⟩ := e
  cases q with
  | recv k c' =>
    cases k with
    | ctl =>
      have h : Act.ctlWait c' r' = Act.ctlWait c r := h
      cases h; rfl
    | data => cases r' <;> simp [act] at h
    | _ => simp [act] at h
  | tryRecv k c' => cases k <;> cases r' <;> simp [act] at h
  | send k c' => cases k <;> simp [act] at h
  | streamRead => cases r' <;> simp [act] at h
  | ioWrite => cases r' <;> simp [act] at h
  | _ => simp [act] at h

/-- Events that are neither control, nor closing, nor unclassified leave control channels alone. -/
theorem exec_ctl_same {cap st st' e} (h : exec cap st e = some st') (ha : (act e).isCtl = false) (c : Nat) :
    st' .ctl c = st .ctl c := by
  obtain ⟨h1, h2, _⟩ := exec_chan h .ctl c
  have hs : sentOf .ctl c e = none := by
    obtain ⟨q, r⟩ := e
    cases q with
    | send k' c' v => cases r <;> cases k' <;> simp [sentOf] <;> simp [act, Act.isCtl] at ha
    | _ => rfl
  have hg : gotOf .ctl c e = none := by
    obtain ⟨q, r⟩ := e
    cases q with
    | recv k' c' => cases r <;> cases k' <;> simp [gotOf] <;> simp [act, Act.isCtl] at ha
    | tryRecv k' c' => cases r <;> cases k' <;> simp [gotOf] <;> simp [act, Act.isCtl] at ha
    | _ => rfl
  have hc : closesChan .ctl c e = false := by
    obtain ⟨q, r⟩ := e
    cases q with
    | close k' c' => simp [act, Act.isCtl] at ha
    | _ => rfl
  simp [hs, hg, hc] at h1 h2
  cases hx : st' .ctl c; cases hy : st .ctl c
  simp [hx, hy] at h1 h2
  rw [h1, h2]

end Verif
