import Verif.Lemmas.Await
/-!
# The last event of an unfinished run was the answer to a request
-/
namespace Verif

theorem Prog.Partial.last {α : Type} {p : Prog α} {u : List Ev} {e : Ev} (h : p.Partial (u ++ [e])) : p.Awaits u e.q := by
  induction p generalizing u with
  | ret a => rw [Prog.partial_ret] at h; simp at h
  | op q k ih =>
    cases u with
    | nil => obtain ⟨r, rfl, _⟩ := h; rfl
    | cons e' u => obtain ⟨r, rfl, h⟩ := h; exact ⟨r, rfl, ih r h⟩

theorem snoc_inj {α : Type} {a b : List α} {x y : α} (h : a ++ [x] = b ++ [y]) : a = b ∧ x = y := by
  have := List.append_inj' h rfl
  simpa using this

theorem LoopRounds.last {σ ρ : Type} {body : σ → Prog (σ ⊕ ρ)} {s t s'} {u : List Ev} {e : Ev} (h : LoopRounds body s t s') (he : t = u ++ [e]) :
    ∃ s₁ t1 t2, LoopRounds body s t1 s₁ ∧ (body s₁).Awaits t2 e.q ∧ u = t1 ++ t2 := by
  induction h generalizing u with
  | nil => simp at he
  | @next s s1 s2 a b hr hrest ih =>
    rcases List.eq_nil_or_concat b with rfl | ⟨b', x, rfl⟩
    · rw [List.append_nil] at he
      subst he
      exact ⟨s, [], u, .nil, (Prog.runs_partial hr).last, rfl⟩
    · rw [List.concat_eq_append, ← List.append_assoc] at he
      obtain ⟨rfl, rfl⟩ := snoc_inj he
      obtain ⟨s₁, t1, t2, h1, h2, rfl⟩ := ih (u := b') (by simp)
      exact ⟨s₁, a ++ t1, t2, .next hr h1, h2, by simp⟩

/-- The last event of a task answered what the task was waiting for, or the task has ended and was dropping its channel ends. -/
theorem Task.Partial.last {t : Task} {u : List Ev} {e : Ev} (h : t.Partial (u ++ [e])) :
    t.Awaits u e.q ∨ ∃ r t1 t2, LoopRuns t.body t.init t1 r ∧ u = t1 ++ t2 ∧ (t2 ++ [e]) <+: dropEvs t.drops := by
  have lp : LoopPartial t.body t.init (u ++ [e]) → t.Awaits u e.q := by
    rintro ⟨s, t1, t2, h1, h2, he⟩
    rcases List.eq_nil_or_concat t2 with rfl | ⟨b', x, rfl⟩
    · rw [List.append_nil] at he
      obtain ⟨s₁, t1, t2, h1, h2, rfl⟩ := h1.last he.symm
      exact ⟨s₁, t1, t2, h1, h2, rfl⟩
    · rw [List.concat_eq_append, ← List.append_assoc] at he
      obtain ⟨rfl, rfl⟩ := snoc_inj he
      rw [List.concat_eq_append] at h2
      exact ⟨s, t1, b', h1, h2.last, rfl⟩
  rcases h with h | ⟨r, t1, t2, h1, h2, he⟩
  · exact Or.inl (lp h)
  · rcases List.eq_nil_or_concat t2 with rfl | ⟨b', x, rfl⟩
    · rw [List.append_nil] at he
      subst he
      exact Or.inl (lp h1.toPartial)
    · rw [List.concat_eq_append, ← List.append_assoc] at he
      obtain ⟨rfl, rfl⟩ := snoc_inj he
      exact Or.inr ⟨r, t1, b', h1, rfl, by simpa using h2⟩

end Verif
