import Verif.Lemmas.BufferCount
/-!
# Reasoning about programs with their history
-/
namespace Verif

/-- With `tr` behind it, the program makes only requests `q` for which `P tr q` holds for the history `tr` at that
point, and ends with a history and a result in `Q`. -/
def Prog.Keeps {α : Type} (P : List Ev → Req → Prop) (Q : List Ev → α → Prop) : Prog α → List Ev → Prop
  | .ret a, tr => Q tr a
  | .op q k, tr => P tr q ∧ ∀ r, (k r).Keeps P Q (tr ++ [⟨q, r⟩])

theorem keeps_runs {α : Type} {P : List Ev → Req → Prop} {Q : List Ev → α → Prop} {p : Prog α} {tr t : List Ev} {a : α}
    (h : p.Keeps P Q tr) (hr : p.Runs t a) : Q (tr ++ t) a := by
  induction p generalizing tr t with
  | ret b => obtain ⟨rfl, rfl⟩ := hr; rw [List.append_nil]; exact h
  | op q k ih =>
    obtain ⟨r, t, rfl, hr⟩ := hr
    have := ih r (h.2 r) hr
    simpa using this

theorem keeps_partial {α : Type} {P : List Ev → Req → Prop} {Q : List Ev → α → Prop} {p : Prog α} {tr t : List Ev} {e : Ev}
    (h : p.Keeps P Q tr) (hr : p.Partial (t ++ [e])) : P (tr ++ t) e.q := by
  induction p generalizing tr t with
  | ret b => simp at hr
  | op q k ih =>
    cases t with
    | nil => obtain ⟨r, rfl, _⟩ := hr; simpa using h.1
    | cons x t =>
      obtain ⟨r, rfl, hr⟩ := hr
      have := ih r (h.2 r) hr
      simpa using this

theorem keeps_mono {α : Type} {P P' : List Ev → Req → Prop} {Q Q' : List Ev → α → Prop} {p : Prog α} {tr : List Ev}
    (h : p.Keeps P Q tr) (hP : ∀ tr q, P tr q → P' tr q) (hQ : ∀ tr a, Q tr a → Q' tr a) : p.Keeps P' Q' tr := by
  induction p generalizing tr with
  | ret b => exact hQ _ _ h
  | op q k ih => exact ⟨hP _ _ h.1, fun r => ih r (h.2 r)⟩

theorem keeps_bind {α β : Type} {P : List Ev → Req → Prop} {Q : List Ev → β → Prop} {p : Prog α} {f : α → Prog β} {tr : List Ev}
    (h : p.Keeps P (fun tr a => (f a).Keeps P Q tr) tr) : (p >>= f).Keeps P Q tr := by
  induction p generalizing tr with
  | ret b => exact h
  | op q k ih => exact ⟨h.1, fun r => ih r (h.2 r)⟩

section
variable {σ ρ : Type} {body : σ → Prog (σ ⊕ ρ)} {I : List Ev → σ → Prop} {P : List Ev → Req → Prop} {Q : List Ev → ρ → Prop}

/-- What a round leads to: the invariant, or the end. -/
def Onward (I : List Ev → σ → Prop) (Q : List Ev → ρ → Prop) (tr : List Ev) : σ ⊕ ρ → Prop
  | .inl s => I tr s
  | .inr r => Q tr r

theorem keeps_rounds (h : ∀ tr s, I tr s → (body s).Keeps P (Onward I Q) tr) {s s' : σ} {t tr : List Ev}
    (hr : LoopRounds body s t s') (hi : I tr s) : I (tr ++ t) s' := by
  induction hr generalizing tr with
  | nil => simpa using hi
  | next hb _ ih =>
    have := keeps_runs (h _ _ hi) hb
    simpa using ih this

/-- The result of a loop. -/
theorem keeps_loop (h : ∀ tr s, I tr s → (body s).Keeps P (Onward I Q) tr) {s : σ} {t : List Ev} {r : ρ}
    (hr : LoopRuns body s t r) (hi : I [] s) : Q t r := by
  obtain ⟨y, u1, u2, rfl, h1, h2⟩ := hr.rounds
  have := keeps_rounds h h1 hi
  exact keeps_runs (Q := Onward I Q) (h _ _ this) h2

/-- The requests of a loop. -/
theorem keeps_request (h : ∀ tr s, I tr s → (body s).Keeps P (Onward I Q) tr) {s : σ} {t : List Ev} {e : Ev}
    (hr : LoopPartial body s (t ++ [e])) (hi : I [] s) : P t e.q := by
  obtain ⟨y, u1, u2, h1, h2, he⟩ := hr
  rcases List.eq_nil_or_concat u2 with rfl | ⟨u, x, rfl⟩
  · -- the last event belongs to a finished round
    have aux : ∀ {s u1 y}, LoopRounds body s u1 y → ∀ {tr t e}, I tr s → t ++ [e] = u1 → P (tr ++ t) e.q := by
      intro s u1 y h1
      induction h1 with
      | nil => intro tr t e _ he; simp at he
      | @next s s1 s2 v1 v2 hb hr ih =>
        intro tr t e hi he
        rcases List.eq_nil_or_concat v2 with rfl | ⟨v, x, rfl⟩
        · rw [List.append_nil] at he
          subst he
          exact keeps_partial (h _ _ hi) (Prog.runs_partial hb)
        · rw [List.concat_eq_append, ← List.append_assoc] at he
          obtain ⟨rfl, he⟩ := List.append_inj' he rfl
          simp at he; subst he
          have := ih (keeps_runs (Q := Onward I Q) (h _ _ hi) hb) (List.concat_eq_append ..).symm
          simpa using this
    rw [List.append_nil] at he
    simpa using aux h1 hi he
  · have hi := keeps_rounds h h1 hi
    rw [List.concat_eq_append, ← List.append_assoc] at he
    obtain ⟨rfl, he⟩ := List.append_inj' he rfl
    simp at he; subst he
    exact keeps_partial (h _ _ hi) (by rwa [List.concat_eq_append] at h2)
end

/-- The requests of a task other than dropping its channels at the end. -/
theorem Task.keeps_request {t : Task} {I : List Ev → t.σ → Prop} {P : List Ev → Req → Prop} {Q : List Ev → t.ρ → Prop}
    (h : ∀ tr s, I tr s → (t.body s).Keeps P (Onward I Q) tr) (hi : I [] t.init) {tr : List Ev} {e : Ev} (hp : t.Partial (tr ++ [e])) :
    P tr e.q ∨ ∃ k c, e = ⟨.close k c, ()⟩ := by
  rcases hp with hp | ⟨r, t1, t2, h1, h2, he⟩
  · exact Or.inl (Verif.keeps_request h hp hi)
  · rcases List.eq_nil_or_concat t2 with rfl | ⟨u, x, rfl⟩
    · rw [List.append_nil] at he
      subst he
      exact Or.inl (Verif.keeps_request h h1.toPartial hi)
    · rw [List.concat_eq_append, ← List.append_assoc] at he
      obtain ⟨rfl, he⟩ := List.append_inj' he rfl
      simp at he; subst he
      obtain ⟨k, c, _, he⟩ := mem_dropEvs h2 e (by simp [List.concat_eq_append])
      exact Or.inr ⟨k, c, he⟩

end Verif
