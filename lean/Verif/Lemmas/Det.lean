import Verif.Lemmas.Loop
import Verif.Model.System
namespace Verif

/-! The responses determine what a program does. -/

theorem Prog.runs_det {α : Type} {p : Prog α} {t t' u u' : List Ev} {a a' : α} (h : p.Runs t a) (h' : p.Runs t' a')
    (e : t ++ u = t' ++ u') : t = t' ∧ a = a' := by
  induction p generalizing t t' with
  | ret x => obtain ⟨rfl, rfl⟩ := h; obtain ⟨rfl, rfl⟩ := h'; exact ⟨rfl, rfl⟩
  | op q k ih =>
    obtain ⟨r, t1, rfl, h⟩ := h
    obtain ⟨r', t1', rfl, h'⟩ := h'
    simp at e
    obtain ⟨rfl, e⟩ := e
    obtain ⟨rfl, h⟩ := ih r h h' e
    exact ⟨rfl, h⟩

theorem Prog.runs_stops {α : Type} {p : Prog α} {t u : List Ev} {a : α} (h : p.Runs t a) (h' : p.Partial (t ++ u)) : u = [] := by
  induction p generalizing t with
  | ret x => obtain ⟨rfl, rfl⟩ := h; simpa using h'
  | op q k ih =>
    obtain ⟨r, t1, rfl, h⟩ := h
    obtain ⟨r', e, h'⟩ := h'
    simp at e
    subst e
    exact ih r h h'

theorem LoopRuns.stops {σ ρ : Type} {body : σ → Prog (σ ⊕ ρ)} {s t u r} (h : LoopRuns body s t r)
    (h' : LoopPartial body s (t ++ u)) : u = [] := by
  induction h with
  | stop hb =>
    obtain ⟨s', t1, t2, h1, h2, e⟩ := h'
    cases h1 with
    | nil => simp at e; rw [← e] at h2; exact Prog.runs_stops hb h2
    | next hb' _ =>
      rw [List.append_assoc] at e
      have := (Prog.runs_det hb hb' e).2; simp at this
  | next hb _ ih =>
    obtain ⟨s', t1, t2, h1, h2, e⟩ := h'
    cases h1 with
    | nil =>
      simp at e; rw [← e] at h2
      have := Prog.runs_stops hb h2
      simp at this; exact this.2
    | next hb' hr =>
      rw [List.append_assoc, List.append_assoc] at e
      obtain ⟨rfl, h⟩ := Prog.runs_det hb hb' e
      simp at h; subst h
      exact ih ⟨_, _, _, hr, h2, by simpa using e⟩

theorem LoopRuns.det {σ ρ : Type} {body : σ → Prog (σ ⊕ ρ)} {s t t' u u' r r'} (h : LoopRuns body s t r)
    (h' : LoopRuns body s t' r') (e : t ++ u = t' ++ u') : t = t' ∧ r = r' := by
  induction h generalizing t' with
  | stop hb =>
    cases h' with
    | stop hb' => have := Prog.runs_det hb hb' e; simpa using this
    | next hb' _ =>
      rw [List.append_assoc] at e
      have := (Prog.runs_det hb hb' e).2; simp at this
  | next hb _ ih =>
    cases h' with
    | stop hb' =>
      rw [List.append_assoc] at e
      have := (Prog.runs_det hb hb' e).2; simp at this
    | next hb' hr =>
      rw [List.append_assoc, List.append_assoc] at e
      obtain ⟨rfl, h⟩ := Prog.runs_det hb hb' e
      simp at h; subst h
      obtain ⟨rfl, h⟩ := ih hr (by simpa using e)
      exact ⟨rfl, h⟩

/-- After its loop has ended, a task only drops things. -/
theorem Task.after {t : Task} {t1 t2 : List Ev} {r : t.ρ} (h : LoopRuns t.body t.init t1 r) (h' : t.Partial (t1 ++ t2)) :
    t2 <+: dropEvs t.drops := by
  rcases h' with h' | ⟨r', t1', t2', h1, h2, e⟩
  · rw [h.stops h']; exact List.nil_prefix
  · obtain ⟨rfl, rfl⟩ := h.det h1 e
    simp at e; subst e; exact h2

theorem mem_dropEvs {l : List (Kind × Nat)} {t : List Ev} (h : t <+: dropEvs l) : ∀ e ∈ t, ∃ k c, (k, c) ∈ l ∧ e = ⟨.close k c, ()⟩ := by
  intro e he
  have := h.subset he
  simp only [dropEvs, List.mem_map] at this
  obtain ⟨x, hx, rfl⟩ := this
  exact ⟨x.1, x.2, hx, rfl⟩

end Verif
