import Verif.Lemmas.Held
import Verif.Lemmas.Manager
import Verif.Lemmas.History
import Verif.Lemmas.Standstill
/-!
# How much counts and managers can do
-/
namespace Verif

/-! ## Counts -/

/-- A notification has been taken. -/
def isHeard : Ev → Bool
  | ⟨.tryRecv .mon _, .got _⟩ => true
  | _ => false

/-- A size has been reported, in vain or not. -/
def isReport : Ev → Bool
  | ⟨.send .size _ _, _⟩ => true
  | _ => false

def isClose : Ev → Bool
  | ⟨.close _ _, _⟩ => true
  | _ => false

section
variable {sender : Option Nat} {mIn mOut : Nat}

/-- There have been no more reports than notifications; fewer when about to report. -/
def ReportAsks (tr : List Ev) (q : Req) : Prop :=
  tr.countP isReport ≤ tr.countP isHeard ∧ ∀ c v, q = .send .size c v → tr.countP isReport < tr.countP isHeard

def ReportHas (sender : Option Nat) (tr : List Ev) (s : Total) : Prop :=
  tr.countP isReport ≤ tr.countP isHeard ∧ (sender ≠ none → s.last = s.size)

theorem report_rest {b : BackOff} {moved : Bool} {size last : Nat} {tr : List Ev} (h1 : tr.countP isReport ≤ tr.countP isHeard)
    (h2 : sender ≠ none → last ≠ size → tr.countP isReport < tr.countP isHeard) :
    (totalRest sender mIn mOut b moved size last).Keeps ReportAsks (Onward (ReportHas sender) (fun tr (_ : TotalEnd) => tr.countP isReport ≤ tr.countP isHeard)) tr := by
  have fin : ∀ {tr : List Ev} {last}, tr.countP isReport ≤ tr.countP isHeard → (sender ≠ none → last = size) →
      ((if moved then pure (.inl ⟨size, last, b.reset.1⟩)
        else do
          let (b, _) ← b.wait
          pure (.inl ⟨size, last, b⟩)) : Prog (Total ⊕ TotalEnd)).Keeps
        ReportAsks (Onward (ReportHas sender) (fun tr (_ : TotalEnd) => tr.countP isReport ≤ tr.countP isHeard)) tr := by
    intro tr last h1 h2
    cases moved with
    | true => exact ⟨h1, h2⟩
    | false =>
      refine ⟨⟨h1, by simp⟩, fun r => ?_⟩
      exact ⟨by simpa [isReport, isHeard] using h1, h2⟩
  have rest : ∀ {tr : List Ev} {last}, tr.countP isReport ≤ tr.countP isHeard → (sender ≠ none → last = size) →
      ((do
        let (e, c) ← req (.stat .mon mIn)
        let (e', c') ← (if e && c then req (.stat .mon mOut) else pure (false, false) : Prog (Bool × Bool))
        if e && c && e' && c' then pure (.inr (.done size))
        else if moved then pure (.inl ⟨size, last, b.reset.1⟩)
        else do
          let (b, _) ← b.wait
          pure (.inl ⟨size, last, b⟩)) : Prog (Total ⊕ TotalEnd)).Keeps
        ReportAsks (Onward (ReportHas sender) (fun tr (_ : TotalEnd) => tr.countP isReport ≤ tr.countP isHeard)) tr := by
    intro tr last h1 h2
    refine ⟨⟨h1, by simp⟩, ?_⟩
    rintro ⟨e, c⟩
    have k1 : (tr ++ [(⟨.stat .mon mIn, (e, c)⟩ : Ev)]).countP isReport ≤ (tr ++ [(⟨.stat .mon mIn, (e, c)⟩ : Ev)]).countP isHeard := by
      simpa [isReport, isHeard] using h1
    by_cases hec : (e && c) = true
    · have he : e = true := by cases e <;> simp_all
      have hc : c = true := by cases c <;> simp_all
      subst he hc
      refine ⟨⟨k1, by simp⟩, ?_⟩
      rintro ⟨e', c'⟩
      have l1 : (tr ++ [(⟨.stat .mon mIn, (true, true)⟩ : Ev)] ++ [(⟨.stat .mon mOut, (e', c')⟩ : Ev)]).countP isReport ≤
          (tr ++ [(⟨.stat .mon mIn, (true, true)⟩ : Ev)] ++ [(⟨.stat .mon mOut, (e', c')⟩ : Ev)]).countP isHeard := by
        simpa [isReport, isHeard] using h1
      have := fin l1 h2
      cases e' <;> cases c' <;> first | exact this | exact l1
    · have := fin k1 h2
      cases e <;> cases c <;> first | exact this | simp at hec
  unfold totalRest reportSize
  cases hs : sender with
  | none =>
    rw [hs] at rest
    exact rest h1 (by simp)
  | some c =>
    have h2 := h2 (by simp [hs])
    rw [hs] at rest
    by_cases hl : last ≠ size
    · simp only [hl, if_true, ne_eq, not_false_eq_true]
      refine ⟨⟨h1, fun _ _ _ => h2 hl⟩, fun r => ?_⟩
      have h3 := h2 hl
      have k1 : (tr ++ [(⟨.send .size c size, r⟩ : Ev)]).countP isReport ≤ (tr ++ [(⟨.send .size c size, r⟩ : Ev)]).countP isHeard := by
        simp [isReport, isHeard]; omega
      cases r with
      | false => exact k1
      | true => exact rest k1 (by simp)
    · have : last = size := by simpa using hl
      subst this
      simp only [ne_eq, not_true_eq_false, if_false]
      exact rest h1 (by simp)

theorem report_keeps (tr : List Ev) (s : Total) (h : ReportHas sender tr s) :
    (totalBody sender mIn mOut s).Keeps ReportAsks (Onward (ReportHas sender) (fun tr (_ : TotalEnd) => tr.countP isReport ≤ tr.countP isHeard)) tr := by
  obtain ⟨h1, h2⟩ := h
  rw [total_tree]
  have second : ∀ {tr : List Ev} {size moved}, tr.countP isReport ≤ tr.countP isHeard → (sender ≠ none → s.last ≠ size → tr.countP isReport < tr.countP isHeard) →
      (countSecond sender mIn mOut s size moved).Keeps ReportAsks (Onward (ReportHas sender) (fun tr (_ : TotalEnd) => tr.countP isReport ≤ tr.countP isHeard)) tr := by
    intro tr size moved h1 h2
    refine ⟨⟨h1, by simp⟩, fun r => ?_⟩
    cases r with
    | got m =>
      have k1 : (tr ++ [(⟨.tryRecv .mon mOut, .got m⟩ : Ev)]).countP isReport < (tr ++ [(⟨.tryRecv .mon mOut, .got m⟩ : Ev)]).countP isHeard := by
        simp [isReport, isHeard]; omega
      cases m with
      | wrote m => exact Nat.le_of_lt k1
      | read m =>
        show Prog.Keeps _ _ (if size = 0 then _ else _) _
        split
        · exact Nat.le_of_lt k1
        · exact report_rest (Nat.le_of_lt k1) fun _ _ => k1
    | empty => exact report_rest (by simpa [isReport, isHeard] using h1) (by simpa [isReport, isHeard] using h2)
    | closed => exact report_rest (by simpa [isReport, isHeard] using h1) (by simpa [isReport, isHeard] using h2)
  refine ⟨⟨h1, by simp⟩, fun r => ?_⟩
  cases r with
  | got m =>
    have k1 : (tr ++ [(⟨.tryRecv .mon mIn, .got m⟩ : Ev)]).countP isReport < (tr ++ [(⟨.tryRecv .mon mIn, .got m⟩ : Ev)]).countP isHeard := by
      simp [isReport, isHeard]; omega
    cases m with
    | wrote m => exact second (Nat.le_of_lt k1) fun _ _ => k1
    | read m => exact Nat.le_of_lt k1
  | empty => exact second (by simpa [isReport, isHeard] using h1) (fun hs hl => absurd (h2 hs) hl)
  | closed => exact second (by simpa [isReport, isHeard] using h1) (fun hs hl => absurd (h2 hs) hl)

/-- A count makes no more reports than it takes notifications. -/
theorem reports_heard {tr : List Ev} (h : (totalTask sender mIn mOut).Partial tr) : tr.countP isReport ≤ tr.countP isHeard := by
  rcases List.eq_nil_or_concat tr with rfl | ⟨u, e, rfl⟩
  · simp
  · rw [List.concat_eq_append] at h ⊢
    have ih := reports_heard (tr := u) h.prefix
    rw [List.countP_append, List.countP_append]
    by_cases he : isReport e = true
    · rcases Task.keeps_request (t := totalTask sender mIn mOut) (I := ReportHas sender) (fun tr s hs => report_keeps tr s hs) ⟨by simp, fun _ => rfl⟩ h with h1 | ⟨k, c, rfl⟩
      · obtain ⟨q, r⟩ := e
        have : ∃ c v, q = .send .size c v := by
          cases q with
          | send k c v => cases k <;> first | exact ⟨_, _, rfl⟩ | simp [isReport] at he
          | _ => simp [isReport] at he
        obtain ⟨c, v, rfl⟩ := this
        have := h1.2 c v rfl
        simp [isReport]; omega
      · simp [isReport] at he
    · simp [he]; omega
termination_by tr.length
decreasing_by simp_all

/-- A task closes channels only at its end. -/
theorem closes_le {t : Task} {P : Req → Prop} (ho : ∀ s, (t.body s).Only P) (hP : ∀ k c, ¬ P (.close k c)) {tr : List Ev} (h : t.Partial tr) : tr.countP isClose ≤ t.drops.length := by
  have loop : ∀ {u : List Ev}, LoopPartial t.body t.init u → u.countP isClose = 0 := by
    intro u hu
    rw [List.countP_eq_zero]
    intro e he hc
    have := Task.only (t := { t with drops := [] }) (P := P) ho (by simp) (Or.inl hu) e he
    obtain ⟨q, r⟩ := e
    cases q with
    | close k c => exact hP _ _ this
    | _ => simp [isClose] at hc
  rcases h with h | ⟨r, t1, t2, h1, h2, rfl⟩
  · rw [loop h]; exact Nat.zero_le _
  · rw [List.countP_append, loop (LoopRuns.toPartial h1), Nat.zero_add]
    refine Nat.le_trans List.countP_le_length (Nat.le_trans h2.length_le ?_)
    simp [dropEvs]

/-- What a count does other than looking in vain is limited by the notifications it gets. -/
theorem total_length {tr : List Ev} (h : (totalTask sender mIn mOut).Partial tr) :
    tr.countP (fun e => !tellsNothing e) ≤ 2 * ((gotOn .mon mIn tr).length + (gotOn .mon mOut tr).length) + 3 := by
  have h1 := reports_heard h
  have h2 := closes_le (t := totalTask sender mIn mOut) (fun s => total_requests s) (by
    rintro k c (⟨_, h⟩ | ⟨_, h⟩ | ⟨_, h⟩ | ⟨_, _, _, h⟩) <;> cases h) h
  have h3 : (totalTask sender mIn mOut).drops.length ≤ 3 := by cases sender <;> simp [totalTask]
  have h4 : ∀ e ∈ tr, (TotalReq sender e.q ∨ ∃ k c, e.q = .close k c) ∧ (CountReq mIn mOut e.q ∨ ∃ k c, e.q = .close k c) := by
    intro e he
    exact ⟨Task.only (P := fun q => TotalReq sender q ∨ ∃ k c, q = .close k c) (fun s => (total_requests s).mono fun q h => Or.inl h) (fun kc _ => Or.inr ⟨_, _, rfl⟩) h e he,
      Task.only (P := fun q => CountReq mIn mOut q ∨ ∃ k c, q = .close k c) (fun s => (count_only s).mono fun q h => Or.inl h) (fun kc _ => Or.inr ⟨_, _, rfl⟩) h e he⟩
  clear h
  have h5 : tr.countP (fun e => !tellsNothing e) ≤ tr.countP isHeard + tr.countP isReport + tr.countP isClose ∧
      tr.countP isHeard ≤ (gotOn .mon mIn tr).length + (gotOn .mon mOut tr).length := by
    clear h1 h2 h3
    induction tr with
    | nil => simp
    | cons e tr ih =>
      obtain ⟨i1, i2⟩ := ih fun x hx => h4 x (by simp [hx])
      obtain ⟨a1, a2⟩ := h4 e (by simp)
      rw [gotOn_cons, gotOn_cons]
      simp only [List.countP_cons, List.length_append]
      generalize List.countP (fun e => !tellsNothing e) tr = n1 at *
      generalize List.countP isHeard tr = n2 at *
      generalize List.countP isReport tr = n3 at *
      generalize List.countP isClose tr = n4 at *
      obtain ⟨q, r⟩ := e
      rcases a1 with (⟨c, rfl⟩ | ⟨c, rfl⟩ | ⟨ms, rfl⟩ | ⟨c, v, _, rfl⟩) | ⟨k, c, rfl⟩
      · have hc : c = mIn ∨ c = mOut := by
          rcases a2 with (h | h | ⟨size, h, _⟩) | ⟨_, _, h⟩
          · cases h; exact Or.inl rfl
          · cases h; exact Or.inr rfl
          · exact absurd rfl (h _ _).1
          · cases h
        cases r with
        | got v =>
          have : 1 ≤ (gotOf .mon mIn ⟨.tryRecv .mon c, .got v⟩).toList.length + (gotOf .mon mOut ⟨.tryRecv .mon c, .got v⟩).toList.length := by
            rcases hc with rfl | rfl <;> simp [gotOf]
          simp [tellsNothing, isHeard, isReport, isClose]
          omega
        | empty => simp [tellsNothing, isHeard, isReport, isClose, gotOf]; omega
        | closed => simp [tellsNothing, isHeard, isReport, isClose, gotOf]; omega
      · simp [tellsNothing, isHeard, isReport, isClose, gotOf]; omega
      · simp [tellsNothing, isHeard, isReport, isClose, gotOf]; omega
      · simp [tellsNothing, isHeard, isReport, isClose, gotOf]; omega
      · simp [tellsNothing, isHeard, isReport, isClose, gotOf]; omega
  omega

/-- How many sizes a count reports. -/
theorem reports_length {c : Nat} {tr : List Ev} (h : (totalTask sender mIn mOut).Partial tr) :
    (sentOn .size c tr).length ≤ tr.countP (fun e => !tellsNothing e) := by
  clear h
  induction tr with
  | nil => simp [sentOn]
  | cons e tr ih =>
    rw [sentOn_cons, List.length_append, List.countP_cons]
    have : (sentOf .size c e).toList.length ≤ if (!tellsNothing e) = true then 1 else 0 := by
      obtain ⟨q, r⟩ := e
      cases q with
      | send k c v => cases hs : sentOf .size _ ⟨.send k c v, r⟩ <;> simp [tellsNothing]
      | _ => simp [sentOf]
    omega

end

/-! ## Managers -/

/-- What a manager has learnt: sizes, and ends of channels. -/
def learnt (chans : List Nat) (tr : List Ev) : Nat := (chans.map fun c => (gotOn .size c tr).length + (ended c tr).toNat).sum

theorem learnt_mono {chans : List Nat} {a b : List Ev} : learnt chans a ≤ learnt chans (a ++ b) := by
  unfold learnt
  induction chans with
  | nil => simp
  | cons c chans ih =>
    simp only [List.map_cons, List.sum_cons]
    rw [gotOn_append .size c, ended_append c, List.length_append]
    have : (ended c a).toNat ≤ (ended c a || ended c b).toNat := by cases ended c a <;> simp
    omega

/-- What is known to be there changes only by learning. -/
theorem learnt_lt {chans : List Nat} {a b : List Ev} (h : occupancy chans (a ++ b) ≠ occupancy chans a) : learnt chans a < learnt chans (a ++ b) := by
  unfold learnt occupancy at *
  induction chans with
  | nil => simp at h
  | cons c chans ih =>
    simp only [List.map_cons, List.sum_cons] at h ⊢
    have mono := learnt_mono (chans := chans) (a := a) (b := b)
    unfold learnt at mono
    have one : (gotOn .size c a).length + (ended c a).toNat ≤ (gotOn .size c (a ++ b)).length + (ended c (a ++ b)).toNat := by
      have := learnt_mono (chans := [c]) (a := a) (b := b)
      simpa [learnt] using this
    by_cases hc : holds c (a ++ b) = holds c a
    · have := ih (by omega)
      omega
    · have : (gotOn .size c a).length + (ended c a).toNat < (gotOn .size c (a ++ b)).length + (ended c (a ++ b)).toNat := by
        refine Nat.lt_of_le_of_ne one fun he => hc ?_
        rw [gotOn_append, ended_append, List.length_append] at he
        have h1 : (ended c a).toNat ≤ (ended c a || ended c b).toNat := by cases ended c a <;> simp
        have h2 : gotOn .size c b = [] := List.eq_nil_of_length_eq_zero (by omega)
        have h3 : ended c (a ++ b) = ended c a := by
          rw [ended_append]
          cases hx : ended c a <;> cases hy : ended c b <;> simp [hx, hy] at he ⊢
          omega
        unfold holds
        rw [h3]
        unfold reported
        rw [gotOn_append, h2, List.append_nil]
      omega

theorem learnt_le {chans : List Nat} {tr : List Ev} : learnt chans tr ≤ (chans.map fun c => (gotOn .size c tr).length).sum + chans.length := by
  unfold learnt
  induction chans with
  | nil => simp
  | cons c chans ih =>
    simp only [List.map_cons, List.sum_cons, List.length_cons]
    have : (ended c tr).toNat ≤ 1 := by cases ended c tr <;> simp
    omega

section
variable {low high ctl : Nat} {chans : List Nat}

theorem settled_start (hlh : low < high) : Settled low high ctl chans [] := by
  have : occupancy chans [] = 0 := by
    unfold occupancy
    induction chans with
    | nil => rfl
    | cons c chans ih => simpa [holds, ended, reported, gotOn] using ih
  refine ⟨fun h => by simp [requests] at h, fun _ => Or.inl ?_⟩
  rw [this]; omega

theorem requests_round (hlh : low < high) {u t : List Ev} {s : Manager} {x : Manager ⊕ Nat} (h : (managerBody low high s).Runs t x) (hi : MInv ctl chans u s)
    (hs : Settled low high ctl chans u) (hn : chans.Nodup) (hr : requests ctl u ≤ learnt chans u) : requests ctl (u ++ t) ≤ learnt chans (u ++ t) := by
  have ro := (round_ok h hi hn).amount
  rw [requests_append, ro]
  have hm := learnt_mono (chans := chans) (a := u) (b := t)
  have hp := hi.parity
  have hl := learnt_lt (chans := chans) (a := u) (b := t)
  obtain ⟨s1, s2⟩ := hs
  cases hsh : s.shut with
  | false =>
    rw [hsh] at hp
    have h2 := s2 (by simpa using hp)
    by_cases ho : high ≤ occupancy chans (u ++ t)
    · have := hl (by omega)
      rw [if_pos ⟨rfl, ho⟩, if_neg (by omega)]; omega
    · rw [if_neg (by simp [ho]), if_neg (by simp [ho])]; omega
  | true =>
    rw [hsh] at hp
    have h1 := s1 (by simpa using hp)
    rw [if_neg (by simp)]
    by_cases ho : occupancy chans (u ++ t) ≤ low
    · have := hl (by omega)
      rw [if_pos ⟨Or.inl rfl, ho⟩]; omega
    · rw [if_neg (by simp [ho])]; omega

theorem requests_rounds (hlh : low < high) {u t : List Ev} {s s' : Manager} (h : LoopRounds (managerBody low high) s t s') (hi : MInv ctl chans u s)
    (hs : Settled low high ctl chans u) (hn : chans.Nodup) (hr : requests ctl u ≤ learnt chans u) :
    requests ctl (u ++ t) ≤ learnt chans (u ++ t) ∧ MInv ctl chans (u ++ t) s' ∧ Settled low high ctl chans (u ++ t) := by
  induction h generalizing u with
  | nil => simp only [List.append_nil]; exact ⟨hr, hi, hs⟩
  | @next s s1 s2 t1 t2 hb _ ih =>
    have ro := round_ok hb hi hn
    have := ih (ro.next _ rfl) ro.settled (requests_round hlh hb hi hs hn hr)
    rwa [List.append_assoc] at this

/-- A manager with its bounds apart makes hardly more requests than it learns. -/
theorem requests_learnt (hlh : low < high) (hn : chans.Nodup) {tr : List Ev} (h : (managerTask low high ctl chans).Partial tr) : requests ctl tr ≤ learnt chans tr + 1 := by
  have loop : ∀ {t : List Ev}, LoopPartial (managerBody low high) (managerInit ctl chans) t → requests ctl t ≤ learnt chans t + 1 := by
    rintro t ⟨s, t1, t2, h1, h2, rfl⟩
    obtain ⟨k1, k2, k3⟩ := requests_rounds hlh h1 (minv_init ctl chans) (settled_start hlh) hn (by simp [requests])
    simp only [List.nil_append] at k1 k2 k3
    obtain ⟨t3, x, h3⟩ := h2.extend
    have ro := (round_ok h3 k2 hn).amount
    have hm := learnt_mono (chans := chans) (a := t1) (b := t2)
    have : requests ctl t2 ≤ 1 := by
      have h4 : requests ctl t2 ≤ requests ctl (t2 ++ t3) := by rw [requests_append]; omega
      have h5 : requests ctl (t2 ++ t3) ≤ 1 := by
        rw [ro]
        split <;> split <;> omega
      omega
    rw [requests_append]; omega
  rcases h with h | ⟨r, t1, t2, h1, h2, rfl⟩
  · exact loop h
  · have h3 := loop (LoopRuns.toPartial h1)
    have h4 : requests ctl t2 = 0 := by
      unfold requests
      rw [List.countP_eq_zero]
      intro e he
      obtain ⟨k, c, _, rfl⟩ := mem_dropEvs h2 e he
      simp [isRequest]
    have := learnt_mono (chans := chans) (a := t1) (b := t2)
    rw [requests_append]; omega

/-- What a manager asks for in a round. -/
def RoundReq (ctl : Nat) (ms : List Monitor) (q : Req) : Prop := (∃ m ∈ ms, q = .tryRecv .size m.chan) ∨ q = .send .ctl ctl () ∨ ∃ ms, q = .sleep ms

theorem look_round (ctl : Nat) : ∀ (i : Nat) (ms all : List Monitor), (∀ m ∈ ms, m ∈ all) → (look i ms).Only (RoundReq ctl all) := by
  intro i ms all hall
  induction ms generalizing i with
  | nil => exact trivial
  | cons m ms ih =>
    have ih := fun i => ih i fun m hm => hall m (by simp [hm])
    refine Prog.Only.bind (p := req _) (Prog.only_req (Or.inl ⟨m, hall m (by simp), rfl⟩)) fun x => ?_
    cases x with
    | closed => exact Prog.Only.bind (ih _) fun _ => trivial
    | empty => exact Prog.Only.bind (ih _) fun _ => trivial
    | got n => exact Prog.Only.bind (ih _) fun _ => trivial

theorem pauseAbove_round (high total : Nat) (s : Manager) (all : List Monitor) : (pauseAbove high total s).Only (RoundReq s.control.chan all) := by
  unfold pauseAbove
  split
  · refine Prog.Only.bind ?_ fun _ => trivial
    unfold Control.pause
    show Prog.Only _ (if s.control.paused = true then _ else _)
    split
    · exact trivial
    · exact Prog.Only.bind (p := req _) (Prog.only_req (Or.inr (Or.inl rfl))) fun _ => trivial
  · exact trivial

theorem resumeBelow_round (low total : Nat) (s : Manager) (all : List Monitor) : (resumeBelow low total s).Only (RoundReq s.control.chan all) := by
  unfold resumeBelow
  split
  · refine Prog.Only.bind ?_ fun _ => trivial
    unfold Control.resume
    show Prog.Only _ (if (!s.control.paused) = true then _ else _)
    split
    · exact trivial
    · exact Prog.Only.bind (p := req _) (Prog.only_req (Or.inr (Or.inl rfl))) fun _ => trivial
  · exact trivial

theorem manager_round (s : Manager) : (managerBody low high s).Only (RoundReq s.control.chan s.monitors) := by
  unfold managerBody
  refine Prog.Only.bind (look_round _ _ _ _ fun m hm => hm) fun l => ?_
  refine Prog.Only.bindGives (pauseAbove_round high l.total { s with monitors := l.monitors, readCount := s.readCount + l.reads } s.monitors) (pauseAbove_requests _ _ _).2 fun s1 h1 => ?_
  rw [show s.control.chan = s1.control.chan from h1.1.symm]
  refine Prog.Only.bind (resumeBelow_round _ _ s1 _) fun s2 => ?_
  show Prog.Only _ (if _ then _ else _)
  split
  · exact trivial
  · split
    · exact Prog.Only.bind (p := BackOff.wait _) (Prog.Only.bind (Prog.only_req (Or.inr (Or.inr ⟨_, rfl⟩))) fun _ => Prog.only_pure _) fun _ => trivial
    · exact trivial

/-- A manager looks at its own channels only, and makes requests to its own regulator. -/
theorem manager_looks (hn : chans.Nodup) {tr : List Ev} (h : (managerTask low high ctl chans).Partial tr) :
    ∀ e ∈ tr, (∃ c ∈ chans, e.q = .tryRecv .size c) ∨ e.q = .send .ctl ctl () ∨ (∃ ms, e.q = .sleep ms) ∨ ∃ k c, e.q = .close k c ∧ (k, c) ∈ (managerTask low high ctl chans).drops := by
  have loop : ∀ {t : List Ev}, LoopPartial (managerBody low high) (managerInit ctl chans) t →
      ∀ e ∈ t, (∃ c ∈ chans, e.q = .tryRecv .size c) ∨ e.q = .send .ctl ctl () ∨ (∃ ms, e.q = .sleep ms) ∨ ∃ k c, e.q = .close k c ∧ (k, c) ∈ (managerTask low high ctl chans).drops := by
    have one : ∀ {u s q}, MInv ctl chans u s → RoundReq s.control.chan s.monitors q →
        (∃ c ∈ chans, q = .tryRecv .size c) ∨ q = .send .ctl ctl () ∨ (∃ ms, q = .sleep ms) ∨ ∃ k c, q = .close k c ∧ (k, c) ∈ (managerTask low high ctl chans).drops := by
      rintro u s q hi (⟨m, hm, rfl⟩ | rfl | ⟨ms, rfl⟩)
      · rw [hi.monitors, List.mem_map] at hm
        obtain ⟨c, hc, rfl⟩ := hm
        exact Or.inl ⟨c, (List.mem_filter.mp hc).1, rfl⟩
      · rw [hi.chan]; exact Or.inr (Or.inl rfl)
      · exact Or.inr (Or.inr (Or.inl ⟨ms, rfl⟩))
    have rounds : ∀ {s t s'}, LoopRounds (managerBody low high) s t s' → ∀ {u}, MInv ctl chans u s →
        ∀ e ∈ t, (∃ c ∈ chans, e.q = .tryRecv .size c) ∨ e.q = .send .ctl ctl () ∨ (∃ ms, e.q = .sleep ms) ∨ ∃ k c, e.q = .close k c ∧ (k, c) ∈ (managerTask low high ctl chans).drops := by
      intro s t s' hr
      induction hr with
      | nil => intro u _ e he; simp at he
      | @next s s1 s2 t1 t2 hb _ ih =>
        intro u hi e he
        rcases List.mem_append.mp he with he | he
        · exact one hi ((manager_round s).partial (Prog.runs_partial hb) e he)
        · exact ih ((round_ok hb hi hn).next _ rfl) e he
    rintro t ⟨s, t1, t2, h1, h2, rfl⟩ e he
    rcases List.mem_append.mp he with he | he
    · exact rounds h1 (minv_init ctl chans) e he
    · exact one (rounds_ok h1 (minv_init ctl chans) hn).2.1 ((manager_round s).partial h2 e he)
  rcases h with h | ⟨r, t1, t2, h1, h2, rfl⟩
  · exact loop h
  · intro e he
    rcases List.mem_append.mp he with he | he
    · exact loop (LoopRuns.toPartial h1) e he
    · obtain ⟨k, c, hm, rfl⟩ := mem_dropEvs h2 e he
      exact Or.inr (Or.inr (Or.inr ⟨k, c, rfl, hm⟩))

/-- What a manager does other than looking in vain is limited by the reports it gets. -/
theorem manager_length (hlh : low < high) (hn : chans.Nodup) {tr : List Ev} (h : (managerTask low high ctl chans).Partial tr) :
    tr.countP (fun e => !tellsNothing e) ≤ 2 * (chans.map fun c => (gotOn .size c tr).length).sum + 2 * chans.length + 2 := by
  have h1 := requests_learnt hlh hn h
  have h2 := closes_le (t := managerTask low high ctl chans) (P := fun q => ∀ k c, q ≠ .close k c) (fun s => (manager_round s).mono (by
    rintro q (⟨m, _, rfl⟩ | rfl | ⟨ms, rfl⟩) k c h <;> cases h)) (fun k c h => h k c rfl) h
  have h3 : (managerTask low high ctl chans).drops.length = chans.length + 1 := by simp [managerTask]
  have h4 := learnt_le (chans := chans) (tr := tr)
  have h5 := manager_looks hn h
  clear h
  have h6 : tr.countP (fun e => !tellsNothing e) ≤ (chans.map fun c => (gotOn .size c tr).length).sum + requests ctl tr + tr.countP isClose := by
    clear h1 h2 h3 h4
    unfold requests
    induction tr with
    | nil => simp
    | cons e tr ih =>
      have ih := ih fun x hx => h5 x (by simp [hx])
      have a := h5 e (by simp)
      have hsum : ∀ l : List Nat, (l.map fun c => (gotOn .size c (e :: tr)).length).sum = (l.map fun c => (gotOf .size c e).toList.length).sum + (l.map fun c => (gotOn .size c tr).length).sum := by
        intro l
        induction l with
        | nil => rfl
        | cons c l ih =>
          simp only [List.map_cons, List.sum_cons, ih]
          rw [gotOn_cons, List.length_append]; omega
      rw [hsum]
      simp only [List.countP_cons]
      generalize List.countP (fun e => !tellsNothing e) tr = n1 at *
      generalize List.countP (isRequest ctl) tr = n2 at *
      generalize List.countP isClose tr = n3 at *
      generalize (chans.map fun c => (gotOn .size c tr).length).sum = n4 at *
      obtain ⟨q, r⟩ := e
      rcases a with ⟨c, hc, rfl⟩ | rfl | ⟨ms, rfl⟩ | ⟨k, c, rfl, _⟩
      · cases r with
        | got v =>
          have : ∀ l : List Nat, c ∈ l → 1 ≤ (l.map fun c' => (gotOf .size c' ⟨.tryRecv .size c, .got v⟩).toList.length).sum := by
            intro l hc
            induction l with
            | nil => cases hc
            | cons d l ihl =>
              simp only [List.map_cons, List.sum_cons]
              rcases List.mem_cons.mp hc with rfl | hc
              · have : (gotOf .size c ⟨.tryRecv .size c, .got v⟩).toList.length = 1 := by simp [gotOf]
                omega
              · have := ihl hc
                omega
          have := this chans hc
          simp [tellsNothing, isRequest, isClose]
          omega
        | empty => simp [tellsNothing, isRequest, isClose]; omega
        | closed => simp [tellsNothing, isRequest, isClose]; omega
      · simp [tellsNothing, isRequest, isClose]; omega
      · simp [tellsNothing, isRequest, isClose]; omega
      · simp [tellsNothing, isRequest, isClose]; omega
  omega

end

end Verif
