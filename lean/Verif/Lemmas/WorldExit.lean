import Verif.Lemmas.World
import Verif.Props.Launch
/-!
# What a program ends with
-/
namespace Verif
section
variable {w : Waiter} {cs : List Capture} {cap : Caps} {room : Nat} {prog : Str → Program} {T : List Happening}

/-- A program does nothing after it has ended. -/
theorem Waiter.WorldRun.final (h : w.WorldRun cs cap room prog T) {x : Str} {k : Option Int} (hx : .exit k ∈ historyOf x T) : ∃ l, historyOf x T = l ++ [.exit k] ∧ ¬ Exited l := by
  induction h with
  | start => cases hx
  | @next T a hT ha ih =>
    cases ha with
    | @prog y e h1 h2 h3 h4 =>
      simp only [historyOf_append, historyOf_prog] at hx ⊢
      by_cases e' : y = x
      · subst e'
        simp only [if_true, List.mem_append, List.mem_singleton] at hx ⊢
        rcases hx with hx | rfl
        · exact absurd ⟨k, hx⟩ h2
        · exact ⟨_, rfl, h2⟩
      · simp only [e', if_false, List.append_nil] at hx ⊢
        exact ih hx
    | _ => simp only [historyOf_append, historyOf_core, historyOf_feed, historyOf_draw, List.append_nil] at hx ⊢; exact ih hx

/-- The exit status that is told is the program's. -/
theorem Waiter.WorldRun.status (h : w.WorldRun cs cap room prog T) {x : Str} {s : StatusRes} (hs : (Who.part (.launch, x) .exit, (⟨.status, s⟩ : Ev)) ∈ coreOf T) :
    ∃ k, .exit k ∈ historyOf x T ∧ s = statusOf k := by
  induction h with
  | start => cases hs
  | @next T a hT ha ih =>
    rw [coreOf_append, List.mem_append] at hs
    rcases hs with hs | hs
    · obtain ⟨k, h1, h2⟩ := ih hs
      exact ⟨k, by rw [historyOf_append]; exact List.mem_append_left _ h1, h2⟩
    · cases ha with
      | core _ hA =>
        rw [coreOf_core, List.mem_singleton, Prod.mk.injEq] at hs
        obtain ⟨k, h1, h2⟩ := hA.status x s hs.1.symm hs.2.symm
        exact ⟨k, by rw [historyOf_append]; exact List.mem_append_left _ h1, h2⟩
      | _ => cases hs

theorem mem_statuses {i : Who} {τ : List (Who × Ev)} {s : StatusRes} (h : s ∈ statuses (proj i τ)) : (i, (⟨.status, s⟩ : Ev)) ∈ τ := by
  unfold statuses at h
  rw [List.mem_filterMap] at h
  obtain ⟨e, he, h⟩ := h
  split at h
  · cases h
    exact mem_proj.mp he
  · cases h

end
end Verif
