import Verif.Model.System
import Verif.Spec.Chan
namespace Verif

theorem Store.set_same (st : Store) (k c) (x : Chan k) : st.set k c x k c = x := by simp [Store.set]

theorem Store.set_other (st : Store) {k c k' c'} (x : Chan k) (h : ¬ (k' = k ∧ c' = c)) :
    st.set k c x k' c' = st k' c' := by simp only [Store.set, dif_neg h]

@[simp] theorem sentOn_nil (k c) : sentOn k c [] = [] := rfl
@[simp] theorem gotOn_nil (k c) : gotOn k c [] = [] := rfl
@[simp] theorem sentOn_append (k c) (a b : List Ev) : sentOn k c (a ++ b) = sentOn k c a ++ sentOn k c b := by
  simp [sentOn]
@[simp] theorem gotOn_append (k c) (a b : List Ev) : gotOn k c (a ++ b) = gotOn k c a ++ gotOn k c b := by
  simp [gotOn]

theorem execAll_append (cap : Caps) (st : Store) (a b : List Ev) :
    execAll cap st (a ++ b) = (execAll cap st a).bind fun st' => execAll cap st' b := by
  induction a generalizing st with
  | nil => rfl
  | cons e a ih =>
    simp only [List.cons_append, execAll]
    cases exec cap st e with
    | none => rfl
    | some st' => exact ih st'

/-- What one event does to one channel. -/
theorem exec_chan {cap : Caps} {st st' : Store} {e : Ev} (h : exec cap st e = some st') (k : Kind) (c : Nat) :
    (st k c).q ++ (sentOf k c e).toList = (gotOf k c e).toList ++ (st' k c).q ∧
    ((st' k c).closed = ((st k c).closed || closesChan k c e)) ∧
    (∀ v, sentOf k c e = some v → (st k c).closed = false ∧ hasRoom (cap k c) (st k c).q.length) := by
  obtain ⟨q, r⟩ := e
  have upd : ∀ {k' c'} {x : Chan k'}, (st.set k' c' x) k c = if h : k = k' ∧ c = c' then h.1 ▸ x else st k c := by
    intros; rfl
  cases q with
  | recv k' c' =>
    cases r with
    | none =>
      simp only [exec] at h
      split at h <;> simp at h
      subst h; simp [sentOf, gotOf, closesChan]
    | some v =>
      simp only [exec] at h
      split at h
      · simp at h
      · rename_i w q hq
        split at h <;> simp at h
        rename_i hv; subst hv; subst h
        by_cases hk : k' = k ∧ c' = c
        · obtain ⟨rfl, rfl⟩ := hk
          simp [sentOf, gotOf, closesChan, Store.set_same, hq]
        · have hk' : ¬ (k = k' ∧ c = c') := fun ⟨a, b⟩ => hk ⟨a.symm, b.symm⟩
          simp only [sentOf, gotOf, closesChan, Store.set_other _ _ hk', dif_neg hk]; simp
  | tryRecv k' c' =>
    cases r with
    | empty =>
      simp only [exec] at h
      split at h <;> simp at h
      subst h; simp [sentOf, gotOf, closesChan]
    | closed =>
      simp only [exec] at h
      split at h <;> simp at h
      subst h; simp [sentOf, gotOf, closesChan]
    | got v =>
      simp only [exec] at h
      split at h
      · simp at h
      · rename_i w q hq
        split at h <;> simp at h
        rename_i hv; subst hv; subst h
        by_cases hk : k' = k ∧ c' = c
        · obtain ⟨rfl, rfl⟩ := hk
          simp [sentOf, gotOf, closesChan, Store.set_same, hq]
        · have hk' : ¬ (k = k' ∧ c = c') := fun ⟨a, b⟩ => hk ⟨a.symm, b.symm⟩
          simp only [sentOf, gotOf, closesChan, Store.set_other _ _ hk', dif_neg hk]; simp
  | send k' c' v =>
    cases r with
    | false =>
      simp only [exec] at h
      split at h <;> simp at h
      subst h; simp [sentOf, gotOf, closesChan]
    | true =>
      simp only [exec] at h
      split at h <;> simp at h
      rename_i hc; subst h
      by_cases hk : k' = k ∧ c' = c
      · obtain ⟨rfl, rfl⟩ := hk
        simp [sentOf, gotOf, closesChan, Store.set_same, hc]
      · have hk' : ¬ (k = k' ∧ c = c') := fun ⟨a, b⟩ => hk ⟨a.symm, b.symm⟩
        simp only [sentOf, gotOf, closesChan, Store.set_other _ _ hk', dif_neg hk]; simp
  | close k' c' =>
    simp only [exec, Option.some.injEq] at h
    subst h
    by_cases hk : k' = k ∧ c' = c
    · obtain ⟨rfl, rfl⟩ := hk
      simp [sentOf, gotOf, closesChan, Store.set_same]
    · have hk' : ¬ (k = k' ∧ c = c') := fun ⟨a, b⟩ => hk ⟨a.symm, b.symm⟩
      simp [sentOf, gotOf, closesChan, Store.set_other _ _ hk', hk]
  | stat k' c' =>
    obtain ⟨a, b⟩ := r
    simp only [exec] at h
    split at h <;> simp at h
    subst h; simp [sentOf, gotOf, closesChan]
  | streamRead => simp [exec] at h; subst h; simp [sentOf, gotOf, closesChan]
  | ioWrite => simp [exec] at h; subst h; simp [sentOf, gotOf, closesChan]
  | ioFlush => simp [exec] at h; subst h; simp [sentOf, gotOf, closesChan]
  | sleep => simp [exec] at h; subst h; simp [sentOf, gotOf, closesChan]
  | status => simp [exec] at h; subst h; simp [sentOf, gotOf, closesChan]

/-- A channel is a queue: what it held and accepted is what was taken out followed by what it holds. -/
theorem fifo {cap : Caps} {st st' : Store} {es : List Ev} (h : execAll cap st es = some st') (k : Kind) (c : Nat) :
    (st k c).q ++ sentOn k c es = gotOn k c es ++ (st' k c).q := by
  induction es generalizing st with
  | nil => simp [execAll] at h; subst h; simp
  | cons e es ih =>
    simp only [execAll] at h
    split at h
    · simp at h
    · rename_i st1 he
      have h1 := (exec_chan he k c).1
      have h2 := ih h
      have e1 : sentOn k c (e :: es) = (sentOf k c e).toList ++ sentOn k c es := by
        simp only [sentOn, List.filterMap_cons]; cases sentOf k c e <;> rfl
      have e2 : gotOn k c (e :: es) = (gotOf k c e).toList ++ gotOn k c es := by
        simp only [gotOn, List.filterMap_cons]; cases gotOf k c e <;> rfl
      rw [e1, e2, ← List.append_assoc, h1, List.append_assoc, h2, List.append_assoc]

theorem closed_iff {cap : Caps} {st st' : Store} {es : List Ev} (h : execAll cap st es = some st') (k : Kind) (c : Nat) :
    (st' k c).closed = true ↔ (st k c).closed = true ∨ closedIn k c es := by
  induction es generalizing st with
  | nil => simp [execAll] at h; subst h; simp [closedIn]
  | cons e es ih =>
    simp only [execAll] at h
    split at h
    · simp at h
    · rename_i st1 he
      rw [ih h, (exec_chan he k c).2.1]
      simp [closedIn, or_assoc]

theorem room_le {cap : Caps} {st st' : Store} {es : List Ev} (h : execAll cap st es = some st') (k : Kind) (c : Nat)
    {n : Nat} (hc : cap k c = some n) (h0 : (st k c).q.length ≤ n) : (st' k c).q.length ≤ n := by
  induction es generalizing st with
  | nil => simp [execAll] at h; subst h; exact h0
  | cons e es ih =>
    simp only [execAll] at h
    split at h
    · simp at h
    · rename_i st1 he
      apply ih h
      obtain ⟨h1, _, h3⟩ := exec_chan he k c
      have hl := congrArg List.length h1
      cases hs : sentOf k c e with
      | none => simp [hs] at hl; omega
      | some v =>
        have := (h3 v hs).2
        simp [hc, hasRoom] at this
        simp [hs] at hl; omega

end Verif

namespace Verif

theorem on_of_sent {k c e v} (h : sentOf k c e = some v) : e.q.on = some (k, c) := by
  obtain ⟨q, r⟩ := e
  cases q with
  | send k' c' w =>
    cases r with
    | false => simp [sentOf] at h
    | true =>
      simp only [sentOf] at h
      split at h
      · rename_i hk; obtain ⟨rfl, rfl⟩ := hk; rfl
      · simp at h
  | _ => simp [sentOf] at h

theorem on_of_got {k c e v} (h : gotOf k c e = some v) : e.q.on = some (k, c) := by
  obtain ⟨q, r⟩ := e
  cases q with
  | recv k' c' =>
    cases r with
    | none => simp [gotOf] at h
    | some w =>
      simp only [gotOf] at h
      split at h
      · rename_i hk; obtain ⟨rfl, rfl⟩ := hk; rfl
      · simp at h
  | tryRecv k' c' =>
    cases r with
    | got w =>
      simp only [gotOf] at h
      split at h
      · rename_i hk; obtain ⟨rfl, rfl⟩ := hk; rfl
      · simp at h
    | _ => simp [gotOf] at h
  | _ => simp [gotOf] at h

theorem on_of_closes {k c e} (h : closesChan k c e = true) : e.q.on = some (k, c) := by
  obtain ⟨q, r⟩ := e
  cases q with
  | close k' c' => simp [closesChan] at h; simp [Req.on, h]
  | _ => simp [closesChan] at h

/-- An event that does not concern a channel leaves it alone. -/
theorem exec_other {cap st st' e k c} (h : exec cap st e = some st') (ho : e.q.on ≠ some (k, c)) :
    st' k c = st k c := by
  obtain ⟨h1, h2, _⟩ := exec_chan h k c
  have hs : sentOf k c e = none := by
    cases hx : sentOf k c e with
    | none => rfl
    | some v => exact absurd (on_of_sent hx) ho
  have hg : gotOf k c e = none := by
    cases hx : gotOf k c e with
    | none => rfl
    | some v => exact absurd (on_of_got hx) ho
  have hc : closesChan k c e = false := by
    cases hx : closesChan k c e with
    | false => rfl
    | true => exact absurd (on_of_closes hx) ho
  simp [hs, hg, hc] at h1 h2
  cases hx : st' k c; cases hy : st k c
  simp [hx, hy] at h1 h2
  rw [h1, h2]

section proj
variable {ι : Type} [DecidableEq ι]

@[simp] theorem proj_nil (i : ι) : proj i [] = [] := rfl
@[simp] theorem proj_append (i : ι) (a b : List (ι × Ev)) : proj i (a ++ b) = proj i a ++ proj i b := by
  simp [proj]
theorem proj_cons_self (i : ι) (e : Ev) (τ : List (ι × Ev)) : proj i ((i, e) :: τ) = e :: proj i τ := by
  simp [proj]
theorem proj_cons_ne {i j : ι} (h : j ≠ i) (e : Ev) (τ : List (ι × Ev)) : proj i ((j, e) :: τ) = proj i τ := by
  simp [proj, h]

theorem mem_proj {i : ι} {e : Ev} {τ : List (ι × Ev)} : e ∈ proj i τ ↔ (i, e) ∈ τ := by
  induction τ with
  | nil => simp
  | cons x τ ih =>
    obtain ⟨j, e'⟩ := x
    by_cases hj : j = i
    · subst hj; rw [proj_cons_self]; simp [ih]
    · rw [proj_cons_ne hj]
      have : ¬ i = j := fun h => hj h.symm
      simp [ih, this]

/-- If only one task takes from a channel, the channel's takings are those of the task. -/
theorem gotOn_proj {i : ι} {k c} {τ : List (ι × Ev)} (h : ∀ x ∈ τ, gotOf k c x.2 ≠ none → x.1 = i) :
    gotOn k c (τ.map Prod.snd) = gotOn k c (proj i τ) := by
  induction τ with
  | nil => rfl
  | cons x τ ih =>
    have ih := ih (fun y hy => h y (by simp [hy]))
    obtain ⟨j, e⟩ := x
    by_cases hj : j = i
    · subst hj; rw [proj_cons_self]
      simp only [gotOn, List.map_cons, List.filterMap_cons] at ih ⊢
      rw [ih]
    · rw [proj_cons_ne hj, ← ih]
      have : gotOf k c e = none := by
        cases hx : gotOf k c e with
        | none => rfl
        | some v => exact absurd (h (j, e) (by simp) (by simp [hx])) hj
      simp [gotOn, this]

theorem sentOn_proj {i : ι} {k c} {τ : List (ι × Ev)} (h : ∀ x ∈ τ, sentOf k c x.2 ≠ none → x.1 = i) :
    sentOn k c (τ.map Prod.snd) = sentOn k c (proj i τ) := by
  induction τ with
  | nil => rfl
  | cons x τ ih =>
    have ih := ih (fun y hy => h y (by simp [hy]))
    obtain ⟨j, e⟩ := x
    by_cases hj : j = i
    · subst hj; rw [proj_cons_self]
      simp only [sentOn, List.map_cons, List.filterMap_cons] at ih ⊢
      rw [ih]
    · rw [proj_cons_ne hj, ← ih]
      have : sentOf k c e = none := by
        cases hx : sentOf k c e with
        | none => rfl
        | some v => exact absurd (h (j, e) (by simp) (by simp [hx])) hj
      simp [sentOn, this]

end proj

/-- Splitting an execution's channel history. -/
theorem execAll_split {cap st a b st'} (h : execAll cap st (a ++ b) = some st') :
    ∃ st1, execAll cap st a = some st1 ∧ execAll cap st1 b = some st' := by
  rw [execAll_append] at h
  cases hx : execAll cap st a with
  | none => simp [hx] at h
  | some st1 => exact ⟨st1, rfl, by simpa [hx] using h⟩

theorem execAll_cons {cap st e b st'} (h : execAll cap st (e :: b) = some st') :
    ∃ st1, exec cap st e = some st1 ∧ execAll cap st1 b = some st' := by
  simp only [execAll] at h
  split at h
  · simp at h
  · rename_i st1 he; exact ⟨st1, he, h⟩

end Verif

namespace Verif

theorem exec_try_empty {cap st st' k c} (h : exec cap st ⟨.tryRecv k c, .empty⟩ = some st') :
    (st k c).q = [] ∧ (st k c).closed = false ∧ st' = st := by
  simp only [exec] at h
  split at h
  · rename_i hc; simp at h; exact ⟨by simpa using hc.1, hc.2, h.symm⟩
  · simp at h

theorem exec_try_closed {cap st st' k c} (h : exec cap st ⟨.tryRecv k c, .closed⟩ = some st') :
    (st k c).q = [] ∧ (st k c).closed = true ∧ st' = st := by
  simp only [exec] at h
  split at h
  · rename_i hc; simp at h; exact ⟨by simpa using hc.1, hc.2, h.symm⟩
  · simp at h

theorem exec_recv_none {cap st st' k c} (h : exec cap st ⟨.recv k c, none⟩ = some st') :
    (st k c).q = [] ∧ (st k c).closed = true ∧ st' = st := by
  simp only [exec] at h
  split at h
  · rename_i hc; simp at h; exact ⟨by simpa using hc.1, hc.2, h.symm⟩
  · simp at h

/-- Taking something out. -/
theorem exec_got {cap st st' k c e v} (h : exec cap st e = some st') (hg : gotOf k c e = some v) :
    (st k c).q = v :: (st' k c).q ∧ (st' k c).closed = (st k c).closed := by
  obtain ⟨h1, h2, _⟩ := exec_chan h k c
  have hs : sentOf k c e = none := by
    obtain ⟨q, r⟩ := e
    cases q with
    | send => simp [gotOf] at hg
    | _ => rfl
  have hc : closesChan k c e = false := by
    obtain ⟨q, r⟩ := e
    cases q with
    | close => simp [gotOf] at hg
    | _ => rfl
  rw [hs, hg] at h1
  rw [hc] at h2
  simp only [Option.toList_none, List.append_nil, Option.toList_some, List.singleton_append] at h1
  exact ⟨h1, by simpa using h2⟩

theorem exec_send {cap st st' k c} {v : k.Payload} (h : exec cap st ⟨.send k c v, true⟩ = some st') :
    (st k c).closed = false ∧ hasRoom (cap k c) (st k c).q.length ∧ (st' k c).q = (st k c).q ++ [v] ∧
    (st' k c).closed = false := by
  simp only [exec] at h
  split at h
  · rename_i hc; simp only [Option.some.injEq] at h; subst h
    rw [Store.set_same]; exact ⟨hc.1, hc.2, rfl, hc.1⟩
  · simp at h

theorem exec_send_false {cap st st' k c} {v : k.Payload} (h : exec cap st ⟨.send k c v, false⟩ = some st') :
    (st k c).closed = true ∧ st' = st := by
  simp only [exec] at h
  split at h
  · rename_i hc; simp at h; exact ⟨hc, h.symm⟩
  · simp at h


/-- While a channel is open, nothing was refused on it and nobody saw its end. -/
theorem open_history {cap es st k c} (h : execAll cap Store.init es = some st) (ho : (st k c).closed = false) :
    (∀ v, (⟨.send k c v, false⟩ : Ev) ∉ es) ∧ (⟨.recv k c, none⟩ : Ev) ∉ es ∧ (⟨.tryRecv k c, .closed⟩ : Ev) ∉ es := by
  have key : ∀ e, e ∈ es → ∃ s1 s2, (s1 k c).closed = false ∧ exec cap s1 e = some s2 := by
    intro e he
    obtain ⟨a, b, rfl⟩ := List.append_of_mem he
    obtain ⟨s1, g1, h2⟩ := execAll_split h
    obtain ⟨s2, g2, _⟩ := execAll_cons h2
    refine ⟨s1, s2, ?_, g2⟩
    cases hc : (s1 k c).closed with
    | false => rfl
    | true => rw [(closed_iff h2 k c).mpr (Or.inl hc)] at ho; simp at ho
  refine ⟨fun v hv => ?_, fun hv => ?_, fun hv => ?_⟩
  · obtain ⟨s1, s2, h1, h2⟩ := key _ hv
    have := (exec_send_false h2).1
    rw [h1] at this; simp at this
  · obtain ⟨s1, s2, h1, h2⟩ := key _ hv
    have := (exec_recv_none h2).2.1
    rw [h1] at this; simp at this
  · obtain ⟨s1, s2, h1, h2⟩ := key _ hv
    have := (exec_try_closed h2).2.1
    rw [h1] at this; simp at this

end Verif
