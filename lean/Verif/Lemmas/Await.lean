import Verif.Lemmas.Det
import Verif.Lemmas.System
namespace Verif

theorem Prog.Awaits.partial {α : Type} {p : Prog α} {t : List Ev} {q : Req} (h : p.Awaits t q) : p.Partial t := by
  induction p generalizing t with
  | ret _ => exact absurd h (by simp [Prog.Awaits])
  | op q' k ih =>
    cases t with
    | nil => trivial
    | cons e t => obtain ⟨r, rfl, h⟩ := h; exact ⟨r, rfl, ih r h⟩

theorem Prog.Awaits.next {α : Type} {p : Prog α} {t u : List Ev} {q : Req} {e : Ev} (h : p.Awaits t q) (h' : p.Partial (t ++ e :: u)) :
    e.q = q := by
  induction p generalizing t with
  | ret _ => exact absurd h (by simp [Prog.Awaits])
  | op q' k ih =>
    cases t with
    | nil => obtain ⟨r, rfl, _⟩ := h'; exact h
    | cons e' t =>
      obtain ⟨r, rfl, h⟩ := h
      obtain ⟨r', e, h'⟩ := h'
      simp at e; subst e
      exact ih _ h h'

theorem Prog.Awaits.next_runs {α : Type} {p : Prog α} {t u v x : List Ev} {q : Req} {e : Ev} {a : α} (h : p.Awaits t q)
    (h' : p.Runs v a) (he : t ++ e :: u = v ++ x) : e.q = q := by
  induction p generalizing t v with
  | ret _ => exact absurd h (by simp [Prog.Awaits])
  | op q' k ih =>
    obtain ⟨r', v', rfl, h'⟩ := h'
    cases t with
    | nil => simp at he; rw [he.1]; exact h
    | cons e' t =>
      obtain ⟨r, rfl, h⟩ := h
      simp at he
      obtain ⟨rfl, he⟩ := he
      exact ih _ h h' he

/-- A program that has gone through `t` has returned or awaits something. -/
theorem Prog.Partial.cases {α : Type} {p : Prog α} {t : List Ev} (h : p.Partial t) : (∃ a, p.Runs t a) ∨ ∃ q, p.Awaits t q := by
  induction p generalizing t with
  | ret a => rw [Prog.partial_ret] at h; subst h; exact Or.inl ⟨a, rfl, rfl⟩
  | op q k ih =>
    cases t with
    | nil => exact Or.inr ⟨q, rfl⟩
    | cons e t =>
      obtain ⟨r, rfl, h⟩ := h
      rcases ih r h with ⟨a, h⟩ | ⟨q', h⟩
      · exact Or.inl ⟨a, r, t, rfl, h⟩
      · exact Or.inr ⟨q', r, rfl, h⟩

theorem Prog.Awaits.step {α : Type} {p : Prog α} {t : List Ev} {q : Req} (h : p.Awaits t q) (r : q.Resp) : p.Partial (t ++ [⟨q, r⟩]) := by
  induction p generalizing t with
  | ret _ => exact absurd h (by simp [Prog.Awaits])
  | op q' k ih =>
    cases t with
    | nil =>
      have h : q' = q := h
      subst h
      exact ⟨r, rfl, Prog.partial_nil _⟩
    | cons e' t => obtain ⟨r', rfl, h⟩ := h; exact ⟨r', rfl, ih _ h⟩

/-- Only the awaited request can come next. -/
theorem Task.Awaits.next {t : Task} {tr u : List Ev} {q : Req} {e : Ev} (h : t.Awaits tr q) (h' : t.Partial (tr ++ e :: u)) : e.q = q := by
  obtain ⟨s', t1, t2, h1, h2, rfl⟩ := h
  have key : ∀ {s t1 s'} (_ : LoopRounds t.body s t1 s') (_ : (t.body s').Awaits t2 q),
      (LoopPartial t.body s (t1 ++ t2 ++ e :: u) → e.q = q) ∧
      (∀ {v w : List Ev} {r}, LoopRuns t.body s v r → t1 ++ t2 ++ e :: u = v ++ w → e.q = q) := by
    intro s t1 s' h1 h2
    induction h1 with
    | nil =>
      constructor
      · rintro ⟨s1, u1, u2, k1, k2, ke⟩
        cases k1 with
        | nil => simp at ke; rw [← ke] at k2; exact h2.next k2
        | next hb _ => rw [List.append_assoc] at ke; exact h2.next_runs hb (by simpa using ke)
      · intro v w r k ke
        cases k with
        | stop hb => exact h2.next_runs hb (by simpa using ke)
        | next hb _ => rw [List.append_assoc] at ke; exact h2.next_runs hb (by simpa using ke)
    | next hb _ ih =>
      obtain ⟨i1, i2⟩ := ih h2
      constructor
      · rintro ⟨s1, u1, u2, k1, k2, ke⟩
        cases k1 with
        | nil =>
          simp at ke; rw [← ke] at k2
          have := Prog.runs_stops hb k2
          simp at this
        | next hb' k1 =>
          simp only [List.append_assoc] at ke
          obtain ⟨rfl, h⟩ := Prog.runs_det hb hb' ke
          simp at h; subst h
          exact i1 ⟨_, _, _, k1, k2, by simpa using ke⟩
      · intro v w r k ke
        cases k with
        | stop hb' =>
          simp only [List.append_assoc] at ke
          have := (Prog.runs_det hb hb' ke).2; simp at this
        | next hb' k =>
          simp only [List.append_assoc] at ke
          obtain ⟨rfl, h⟩ := Prog.runs_det hb hb' ke
          simp at h; subst h
          exact i2 k (by simpa using ke)
  rcases h' with h' | ⟨r, v, w, k1, k2, ke⟩
  · exact (key h1 h2).1 h'
  · exact (key h1 h2).2 k1 ke

theorem Task.Awaits.partial {t : Task} {tr : List Ev} {q : Req} (h : t.Awaits tr q) : t.Partial tr := by
  obtain ⟨s', t1, t2, h1, h2, rfl⟩ := h
  exact Or.inl ⟨s', t1, t2, h1, h2.partial, rfl⟩

theorem Task.Awaits.step {t : Task} {tr : List Ev} {q : Req} (h : t.Awaits tr q) (r : q.Resp) : t.Partial (tr ++ [⟨q, r⟩]) := by
  obtain ⟨s', t1, t2, h1, h2, rfl⟩ := h
  exact Or.inl ⟨s', t1, t2 ++ [⟨q, r⟩], h1, h2.step r, by simp⟩

/-- A task that has ended does nothing more. -/
theorem Task.Done.stops {t : Task} {tr : List Ev} {e : Ev} {u : List Ev} (h : t.Done tr) : ¬ t.Partial (tr ++ e :: u) := by
  obtain ⟨r, t1, h1, rfl⟩ := h
  intro h'
  rw [List.append_assoc] at h'
  have := Task.after h1 h'
  have := this.length_le
  simp at this
  omega

theorem Task.Partial.prefix {t : Task} {a b : List Ev} (h : t.Partial (a ++ b)) : t.Partial a := by
  have pp : ∀ {α : Type} {p : Prog α} {a b : List Ev}, p.Partial (a ++ b) → p.Partial a := by
    intro α p
    induction p with
    | ret x => intro a b h; simp at h; simp [h.1]
    | op q k ih =>
      intro a b h
      cases a with
      | nil => trivial
      | cons e a => obtain ⟨r, rfl, h⟩ := h; exact ⟨r, rfl, ih r h⟩
  have lp : ∀ {s t1 s' t2} (_ : LoopRounds t.body s t1 s') (_ : (t.body s').Partial t2) {a b : List Ev},
      t1 ++ t2 = a ++ b → LoopPartial t.body s a := by
    intro s t1 s' t2 h1 h2
    induction h1 with
    | nil => intro a b e; simp at e; subst e; exact ⟨_, [], a, .nil, pp h2, rfl⟩
    | @next s s1 s2 u1 u2 hb hr ih =>
      intro a b e
      rw [List.append_assoc] at e
      rcases List.append_eq_append_iff.mp e with ⟨v, rfl, e2⟩ | ⟨v, rfl, e2⟩
      · obtain ⟨s3, w1, w2, k1, k2, rfl⟩ := ih h2 e2
        exact ⟨s3, u1 ++ w1, w2, .next hb k1, k2, by simp⟩
      · exact ⟨_, [], a, .nil, pp (Prog.runs_partial hb), rfl⟩
  rcases h with ⟨s', t1, t2, h1, h2, e⟩ | ⟨r, t1, t2, h1, h2, e⟩
  · exact Or.inl (lp h1 h2 e.symm)
  · rcases List.append_eq_append_iff.mp e with ⟨v, rfl, e2⟩ | ⟨v, rfl, e2⟩
    · obtain ⟨s', u1, u2, k1, k2, ke⟩ := h1.toPartial
      exact Or.inl (lp k1 k2 (ke.symm.trans rfl))
    · exact Or.inr ⟨r, t1, v, h1, (List.prefix_append v b).trans (by rw [← e2]; exact h2), rfl⟩

/-- The event of a frozen channel does not depend on the rest. -/
theorem impossible_same {cap : Caps} {st st' : Store} {q : Req} {k : Kind} {c : Nat} (hq : q.on = some (k, c))
    (hs : st' k c = st k c) (h : Impossible cap st q) : Impossible cap st' q := by
  intro r
  have h := h r
  cases q with
  | recv k' c' =>
    simp [Req.on] at hq; obtain ⟨rfl, rfl⟩ := hq
    cases r <;> simp only [exec, hs] at h ⊢
    · split at h <;> simp_all
    · split at h
      · rfl
      · split at h
        · simp at h
        · next hne => rw [if_neg hne]
  | tryRecv k' c' =>
    simp [Req.on] at hq; obtain ⟨rfl, rfl⟩ := hq
    cases r <;> simp only [exec, hs] at h ⊢
    · split at h
      · rfl
      · split at h
        · simp at h
        · next hne => rw [if_neg hne]
    · split at h <;> simp_all
    · split at h <;> simp_all
  | send k' c' v =>
    simp [Req.on] at hq; obtain ⟨rfl, rfl⟩ := hq
    cases r <;> simp only [exec, hs] at h ⊢ <;> split at h <;> simp_all
  | close k' c' => simp [exec] at h
  | stat k' c' =>
    simp [Req.on] at hq; obtain ⟨rfl, rfl⟩ := hq
    obtain ⟨a, b⟩ := r
    simp only [exec, hs] at h ⊢
    split at h <;> simp_all
  | _ => simp [Req.on] at hq

section
variable {ι : Type} [DecidableEq ι]

/-- Some tasks wait for each other, and the others leave their channels alone: nothing happens to them any more. -/
theorem frozen {cap : Caps} {sys : ι → Option Task} {τ τ' : List (ι × Ev)} {st : Store} (stuck : ι → Option (Req × Kind × Nat))
    (hst : execAll cap Store.init (τ.map Prod.snd) = some st)
    (haw : ∀ i q k c, stuck i = some (q, k, c) → (∃ t, sys i = some t ∧ t.Awaits (proj i τ) q) ∧ q.on = some (k, c) ∧ Impossible cap st q)
    (hE : Execution cap sys (τ ++ τ'))
    (others : ∀ x ∈ τ', stuck x.1 = none → ∀ i q k c, stuck i = some (q, k, c) → x.2.q.on ≠ some (k, c)) :
    (∀ x ∈ τ', stuck x.1 = none) ∧ ∃ st', execAll cap st (τ'.map Prod.snd) = some st' ∧
      ∀ i q k c, stuck i = some (q, k, c) → st' k c = st k c := by
  obtain ⟨st', hst'⟩ := Option.isSome_iff_exists.mp hE.chans
  rw [List.map_append] at hst'
  obtain ⟨s1, e1, e2⟩ := execAll_split hst'
  rw [hst] at e1; simp at e1; subst e1
  have key : ∀ (ρ σ : List (ι × Ev)), τ' = ρ ++ σ → ∃ s, execAll cap st (ρ.map Prod.snd) = some s ∧
      (∀ x ∈ ρ, stuck x.1 = none) ∧ (∀ i q k c, stuck i = some (q, k, c) → s k c = st k c) := by
    intro ρ
    induction hn : ρ.length generalizing ρ with
    | zero =>
      intro σ _
      have := List.eq_nil_of_length_eq_zero hn
      subst this
      exact ⟨st, rfl, by simp, fun _ _ _ _ _ => rfl⟩
    | succ n ih =>
      intro σ hσ
      obtain ⟨ρ0, x, rfl⟩ : ∃ ρ0 x, ρ = ρ0 ++ [x] := by
        rcases List.eq_nil_or_concat ρ with h | ⟨a, b, h⟩
        · subst h; simp at hn
        · exact ⟨a, b, by simpa using h⟩
      obtain ⟨s, hs1, hs2, hs3⟩ := ih ρ0 (by simpa using hn) (x :: σ) (by simpa using hσ)
      have hx : x ∈ τ' := by rw [hσ]; simp
      rw [hσ, List.map_append, List.map_append] at e2
      obtain ⟨s4, g1, g2⟩ := execAll_split e2
      obtain ⟨s5, g3, g4⟩ := execAll_split g1
      rw [hs1] at g3; simp at g3; subst g3
      have hex : exec cap s x.2 = some s4 := by
        simp only [List.map_cons, List.map_nil] at g4
        obtain ⟨s6, g5, g6⟩ := execAll_cons g4
        simp [execAll] at g6; rw [← g6]; exact g5
      have hnone : stuck x.1 = none := by
        cases hsx : stuck x.1 with
        | none => rfl
        | some qkc =>
          exfalso
          obtain ⟨q, k, c⟩ := qkc
          obtain ⟨⟨t, ht1, ht2⟩, hon, himp⟩ := haw x.1 q k c hsx
          have hp0 : proj x.1 ρ0 = [] := by
            unfold proj
            rw [List.filterMap_eq_nil_iff]
            intro y hy
            by_cases hyx : y.1 = x.1
            · have := hs2 y hy; rw [hyx, hsx] at this; simp at this
            · simp [hyx]
          have htask := hE.tasks x.1 t ht1
          rw [hσ, proj_append, proj_append, proj_append, hp0] at htask
          have hpx : proj x.1 [x] = [x.2] := by simp [proj]
          rw [hpx] at htask
          have htask : t.Partial (proj x.1 τ ++ x.2 :: proj x.1 σ) := by simpa using htask
          have hq := ht2.next htask
          have himp' := impossible_same (st' := s) hon (hs3 x.1 q k c hsx) himp
          obtain ⟨i, q', r'⟩ := x
          simp only [] at hq
          subst hq
          rw [himp' r'] at hex; simp at hex
      refine ⟨s4, ?_, ?_, ?_⟩
      · rw [List.map_append]; exact g1
      · intro y hy
        simp at hy
        rcases hy with hy | rfl
        · exact hs2 y hy
        · exact hnone
      · intro i q k c hi
        rw [exec_other hex (others x hx hnone i q k c hi)]
        exact hs3 i q k c hi
  obtain ⟨s, a, b, c⟩ := key τ' [] (by simp)
  exact ⟨b, s, a, c⟩

end

theorem Execution.prefix {ι : Type} [DecidableEq ι] {cap : Caps} {sys : ι → Option Task} {τ τ' : List (ι × Ev)}
    (h : Execution cap sys (τ ++ τ')) : Execution cap sys τ := by
  refine ⟨?_, fun i t hi => ?_⟩
  · have h := h.chans
    rw [List.map_append] at h
    obtain ⟨st, hst⟩ := Option.isSome_iff_exists.mp h
    obtain ⟨s1, h1, _⟩ := execAll_split hst
    simp [h1]
  · have := h.tasks i t hi
    rw [proj_append] at this
    exact this.prefix

end Verif
