import Verif.Lemmas.Regulator
namespace Verif

/-- How many more writes a regulator may make before it next looks at its control channel. -/
def Phase.credit : Phase → Nat
  | .fresh => 1
  | _ => 0

/-- The regulator knows, or will find out at its next look, that it is paused. -/
def PauseInv (x : Chan .ctl) : Phase → Prop
  | .fresh => x.q = [()] ∧ x.closed = false
  | .wrote => x.q = [()] ∧ x.closed = false
  | .waiting => x.q = [] ∧ x.closed = false
  | .over => True

theorem over_offers {A : List Act} {q : Phase} (h : Phase.run .over A = some q) : offersA A = [] := by
  induction A with
  | nil => rfl
  | cons a A ih =>
    cases a <;> simp [Phase.run, Phase.step] at h
    exact ih h

theorem pause_credit {ι : Type} [DecidableEq ι] {cap : Caps} {r : ι} {c : Nat} {τ : List (ι × Ev)} {st st' : Store} {p q : Phase}
    (hst : execAll cap st (τ.map Prod.snd) = some st') (hq : p.run (acts (proj r τ)) = some q)
    (hctl : ∀ a ∈ acts (proj r τ), (∀ c' r, a = .ctlTry c' r → c' = c) ∧ (∀ c' r, a = .ctlWait c' r → c' = c))
    (quiet : ∀ x ∈ τ, x.1 ≠ r → x.2.q.on ≠ some (.ctl, c))
    (hinv : PauseInv (st .ctl c) p) : (offers (proj r τ)).length ≤ p.credit := by
  induction τ generalizing st p with
  | nil => simp
  | cons x τ ih =>
    obtain ⟨i, e⟩ := x
    rw [List.map_cons] at hst
    obtain ⟨st1, he, hst⟩ := execAll_cons hst
    by_cases hi : i = r
    · subst hi
      rw [proj_cons_self] at hq hctl ⊢
      have hce := hctl (act e) (by simp [acts])
      have hctl' := fun a ha => hctl a (by rw [show acts (e :: proj i τ) = act e :: acts (proj i τ) from rfl]; exact List.mem_cons_of_mem _ ha)
      have quiet' := fun x hx => quiet x (List.mem_cons_of_mem _ hx)
      rw [show acts (e :: proj i τ) = act e :: acts (proj i τ) from rfl] at hq
      rw [offers_eq, show acts (e :: proj i τ) = act e :: acts (proj i τ) from rfl]
      have same := fun h => exec_ctl_same he h c
      have cont : ∀ {p' : Phase}, p'.run (acts (proj i τ)) = some q → PauseInv (st1 .ctl c) p' →
          (offersA (acts (proj i τ))).length ≤ p'.credit := fun h1 h2 => by
        rw [← offers_eq]; exact ih hst h1 hctl' quiet' h2
      by_cases hov : p = .over
      · subst hov
        have := over_offers hq
        rw [this]; simp
      cases ha : act e with
      | ctlTry c' res =>
        obtain rfl := (hce).1 c' res ha
        have hev := act_ctlTry ha
        subst hev
        rw [ha] at hq
        have hno : ∀ q', q' ≠ Phase.waiting → (p = .fresh ∨ p = .wrote) → res = .got () := by
          intro q' _ hp
          have hinv : (st .ctl c').q = [()] ∧ (st .ctl c').closed = false := by
            rcases hp with rfl | rfl <;> exact hinv
          cases res with
          | got v => rfl
          | empty => have := (exec_try_empty he).1; rw [hinv.1] at this; exact absurd this (List.cons_ne_nil _ _)
          | closed => have := (exec_try_closed he).1; rw [hinv.1] at this; exact absurd this (List.cons_ne_nil _ _)
        cases p with
        | over => exact absurd rfl hov
        | waiting => simp [Phase.run, Phase.step] at hq
        | _ =>
          obtain rfl := hno .fresh (by simp) (by simp)
          have : PauseInv (st1 .ctl c') .waiting := by
            obtain ⟨h1, h2⟩ := exec_got (k := .ctl) (c := c') (v := ()) he (by simp [gotOf])
            obtain ⟨i1, i2⟩ := hinv
            rw [i1] at h1; rw [i2] at h2
            exact ⟨(List.cons.inj h1).2.symm, h2⟩
          have := cont (p' := .waiting) hq this
          exact Nat.le_trans this (Nat.zero_le _)
      | ctlWait c' res =>
        obtain rfl := (hce).2 c' res ha
        have hev := act_ctlWait ha
        subst hev
        rw [ha] at hq
        cases p with
        | over => exact absurd rfl hov
        | waiting =>
          obtain ⟨i1, i2⟩ := hinv
          cases res with
          | none => have := (exec_recv_none he).2.1; rw [i2] at this; simp at this
          | some v =>
            have := (exec_got (k := .ctl) (c := c') (v := v) he (by simp [gotOf])).1
            rw [i1] at this; exact absurd this.symm (List.cons_ne_nil _ _)
        | _ => simp [Phase.run, Phase.step] at hq
      | close k c' =>
        rw [ha] at hq
        cases p with
        | over => exact absurd rfl hov
        | waiting => simp [Phase.run, Phase.step] at hq
        | _ =>
          have := cont (p' := .over) hq trivial
          exact Nat.le_trans this (Nat.zero_le _)
      | other =>
        rw [ha] at hq
        cases p <;> simp [Phase.run, Phase.step] at hq
      | offer t d w =>
        rw [ha] at hq
        have hs := same (by rw [ha]; rfl)
        cases p with
        | fresh =>
          have := cont (p' := .wrote) hq (by rw [hs]; exact hinv)
          simp [Phase.credit] at this
          rw [show offersA (Act.offer t d w :: acts (proj i τ)) = ⟨t, d, w⟩ :: offersA (acts (proj i τ)) from rfl, this]
          simp [Phase.credit]
        | over => exact absurd rfl hov
        | _ => simp [Phase.run, Phase.step] at hq
      | _ =>
        rw [ha] at hq
        have hs := same (by rw [ha]; rfl)
        cases p with
        | fresh => exact cont (p' := .fresh) hq (by rw [hs]; exact hinv)
        | wrote => exact cont (p' := .wrote) hq (by rw [hs]; exact hinv)
        | over => exact absurd rfl hov
        | waiting => simp [Phase.run, Phase.step] at hq
    · rw [proj_cons_ne hi] at hq hctl ⊢
      have hs := exec_other he (quiet (i, e) (by simp) hi)
      exact ih hst hq hctl (fun x hx => quiet x (List.mem_cons_of_mem _ hx)) (by rw [hs]; exact hinv)

/-- While its control channel is open, a regulator is waiting iff it has taken an odd number of requests. -/
theorem phase_parity {c : Nat} {t : List Ev} {p q : Phase} (h : p.run (acts t) = some q)
    (hctl : ∀ a ∈ acts t, (∀ c' r, a = .ctlTry c' r → c' = c) ∧ (∀ c' r, a = .ctlWait c' r → c' = c))
    (hopen : ∀ a ∈ acts t, a ≠ .ctlWait c none) (hov : q ≠ .over) :
    ((gotOn .ctl c t).length + (if p = .waiting then 1 else 0)) % 2 = (if q = .waiting then 1 else 0) := by
  induction t generalizing p with
  | nil => simp [acts, Phase.run] at h; subst h; cases p <;> simp
  | cons e t ih =>
    rw [show acts (e :: t) = act e :: acts t from rfl] at h hctl hopen
    simp only [Phase.run] at h
    split at h
    · simp at h
    · rename_i p' hp'
      have ih := ih h (fun a ha => hctl a (List.mem_cons_of_mem _ ha)) (fun a ha => hopen a (List.mem_cons_of_mem _ ha))
      rw [← ih]
      have e2 : gotOn .ctl c (e :: t) = (gotOf .ctl c e).toList ++ gotOn .ctl c t := by
        simp only [gotOn, List.filterMap_cons]; cases gotOf .ctl c e <;> rfl
      rw [e2, List.length_append]
      have ng : (act e).isCtl = false ∨ (∃ k c, act e = .close k c) → gotOf .ctl c e = none := by
        intro ha
        cases hx : gotOf .ctl c e with
        | none => rfl
        | some v =>
          exfalso
          obtain ⟨q, r⟩ := e
          cases q with
          | recv k' c' => cases r <;> cases k' <;> simp [gotOf] at hx <;> simp [act, Act.isCtl] at ha
          | tryRecv k' c' => cases r <;> cases k' <;> simp [gotOf] at hx <;> simp [act, Act.isCtl] at ha
          | _ => simp [gotOf] at hx
      have hce := hctl (act e) (by simp)
      have hoe := hopen (act e) (by simp)
      cases ha : act e with
      | ctlTry c' res =>
        obtain rfl := hce.1 c' res ha
        obtain rfl := act_ctlTry ha
        rw [ha] at hp'
        cases res with
        | got v =>
          have hg : gotOf .ctl c' ⟨.tryRecv .ctl c', .got v⟩ = some v := by simp [gotOf]
          rw [hg]
          cases p <;> simp [Phase.step] at hp' <;> subst hp' <;> simp <;> omega
        | _ =>
          have hg : ∀ res, (∀ v, res ≠ TryRes.got v) → gotOf .ctl c' ⟨.tryRecv .ctl c', res⟩ = none := by
            intro res h; cases res with
            | got v => exact absurd rfl (h v)
            | _ => rfl
          rw [hg _ (by simp)]
          cases p <;> simp [Phase.step] at hp' <;> subst hp' <;> simp
      | ctlWait c' res =>
        obtain rfl := hce.2 c' res ha
        obtain rfl := act_ctlWait ha
        rw [ha] at hp'
        cases res with
        | none => exact absurd ha hoe
        | some v =>
          have hg : gotOf .ctl c' ⟨.recv .ctl c', some v⟩ = some v := by simp [gotOf]
          rw [hg]
          cases p <;> simp [Phase.step] at hp' <;> subst hp' <;> simp <;> omega
      | close k c' =>
        rw [ng (Or.inr ⟨k, c', ha⟩)]
        rw [ha] at hp'
        cases p <;> simp [Phase.step] at hp' <;> subst hp' <;> simp
      | other => rw [ha] at hp'; cases p <;> simp [Phase.step] at hp'
      | offer t d w =>
        rw [ng (Or.inl (by rw [ha]; rfl))]
        rw [ha] at hp'
        cases p <;> simp [Phase.step] at hp' <;> subst hp' <;> simp
      | _ =>
        rw [ng (Or.inl (by rw [ha]; rfl))]
        rw [ha] at hp'
        cases p <;> simp [Phase.step] at hp' <;> subst hp' <;> simp

/-- In phase `over` something has been closed. -/
theorem phase_over {A : List Act} {p : Phase} (h : p.run A = some .over) (hp : p ≠ .over) : ∃ k c, Act.close k c ∈ A := by
  induction A generalizing p with
  | nil => simp [Phase.run] at h; exact absurd h hp
  | cons a A ih =>
    simp only [Phase.run] at h
    split at h
    · simp at h
    · rename_i p' hp'
      by_cases ho : p' = .over
      · subst ho
        cases a with
        | close k c => exact ⟨k, c, by simp⟩
        | ctlTry c r => cases p <;> cases r <;> simp [Phase.step] at hp'
        | _ => cases p <;> simp [Phase.step] at hp' <;> exact absurd rfl hp
      · obtain ⟨k, c, hm⟩ := ih h ho
        exact ⟨k, c, by simp [hm]⟩


theorem no_other {p q : Phase} {A : List Act} (h : p.run A = some q) : Act.other ∉ A := by
  induction A generalizing p with
  | nil => simp
  | cons a A ih =>
    simp only [Phase.run] at h
    split at h
    · simp at h
    · rename_i p' hp'
      intro hm
      rcases List.mem_cons.mp hm with rfl | hm
      · cases p <;> simp [Phase.step] at hp'
      · exact ih h hm

end Verif
