import Verif.Lemmas.Network
/-!
# Waiting for something that never comes
-/
namespace Verif

theorem runs_first {α : Type} {p : Prog α} {q : Req} {k : q.Resp → Prog α} (hp : p = .op q k) {tr : List Ev} {a : α} (h : p.Runs tr a) :
    ∃ r tr', tr = ⟨q, r⟩ :: tr' := by
  subst hp
  obtain ⟨r, tr', h1, _⟩ := h
  exact ⟨r, tr', h1⟩

theorem partial_first {α : Type} {p : Prog α} {q : Req} {k : q.Resp → Prog α} (hp : p = .op q k) {e : Ev} {tr : List Ev} (h : p.Partial (e :: tr)) :
    e.q = q := by
  subst hp
  obtain ⟨r, h1, _⟩ := h
  rw [h1]

theorem loop_first {σ ρ : Type} {body : σ → Prog (σ ⊕ ρ)} {s : σ} {q : Req} {k : q.Resp → Prog (σ ⊕ ρ)} (hp : body s = .op q k) {tr : List Ev} {a : ρ}
    (h : LoopRuns body s tr a) : ∃ r tr', tr = ⟨q, r⟩ :: tr' := by
  cases h with
  | stop h => exact runs_first hp h
  | next h _ => obtain ⟨r, tr', rfl⟩ := runs_first hp h; exact ⟨r, _, rfl⟩

/-- The first thing a task does. -/
theorem task_first {t : Task} {q : Req} {k : q.Resp → Prog (t.σ ⊕ t.ρ)} (hp : t.body t.init = .op q k) {e : Ev} {tr : List Ev} (h : t.Partial (e :: tr)) :
    e.q = q := by
  rcases h with ⟨s', t1, t2, h1, h2, h3⟩ | ⟨r, t1, t2, h1, _, h3⟩
  · cases h1 with
    | nil =>
      simp only [List.nil_append] at h3
      rw [← h3] at h2
      exact partial_first hp h2
    | next h _ =>
      obtain ⟨r, tr', rfl⟩ := runs_first hp h
      simp only [List.cons_append, List.cons.injEq] at h3
      rw [h3.1]
  · obtain ⟨r, tr', rfl⟩ := loop_first hp h1
    simp only [List.cons_append, List.cons.injEq] at h3
    rw [h3.1]

theorem task_not_done {t : Task} {q : Req} {k : q.Resp → Prog (t.σ ⊕ t.ρ)} (hp : t.body t.init = .op q k) : ¬ t.Done [] := by
  rintro ⟨r, t1, h1, h2⟩
  obtain ⟨r, tr', rfl⟩ := loop_first hp h1
  simp at h2

/-- A channel that nobody has touched. -/
theorem channel_untouched {cap : Caps} {k : Kind} {c : Nat} {es : List Ev} {st st' : Store} (h : execAll cap st es = some st') (ho : ∀ e ∈ es, e.q.on ≠ some (k, c)) :
    st' k c = st k c := by
  induction es generalizing st with
  | nil => simp only [execAll, Option.some.injEq] at h; rw [h]
  | cons e es ih =>
    simp only [execAll] at h
    cases hx : exec cap st e with
    | none => rw [hx] at h; cases h
    | some s1 =>
      rw [hx] at h
      rw [ih h fun e he => ho e (List.mem_cons_of_mem _ he), exec_other hx (ho e (by simp))]

/-- What begins by receiving from a channel that only it touches never does anything. -/
theorem starved {ι : Type} [DecidableEq ι] {cap : Caps} {τ : List (ι × Ev)} {c : Nat} {b : ι} {t : Task} {k : (Req.recv .data c).Resp → Prog (t.σ ⊕ t.ρ)}
    (hp : t.body t.init = .op (.recv .data c) k) (hch : (execAll cap Store.init (τ.map Prod.snd)).isSome = true) (ht : t.Partial (proj b τ))
    (hon : ∀ x ∈ τ, x.2.q.on = some (.data, c) → x.1 = b) : proj b τ = [] := by
  cases hpr : proj b τ with
  | nil => rfl
  | cons e tr =>
    exfalso
    rw [hpr] at ht
    have hq := task_first hp ht
    obtain ⟨τ1, τ2, rfl, h1, _⟩ := proj_split (u := []) (by rw [hpr]; rfl)
    rw [List.map_append, execAll_append] at hch
    cases hs : execAll cap Store.init (τ1.map Prod.snd) with
    | none => rw [hs] at hch; simp at hch
    | some st =>
      rw [hs] at hch
      simp only [Option.bind_some, List.map_cons, execAll] at hch
      have hst : st .data c = {} := channel_untouched hs (by
        intro e' he' ho
        obtain ⟨x, hx, rfl⟩ := List.mem_map.mp he'
        have hb := hon x (List.mem_append_left _ hx) ho
        have : x.2 ∈ proj b τ1 := mem_proj.mpr (by rw [← hb]; exact hx)
        rw [h1] at this; simp at this)
      obtain ⟨q, r⟩ := e
      simp only at hq
      subst hq
      cases r <;> simp [exec, hst] at hch

end Verif
