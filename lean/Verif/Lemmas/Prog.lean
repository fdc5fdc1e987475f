import Verif.Model.Motion
namespace Verif
namespace Prog

variable {α β : Type}

@[simp] theorem runs_pure (a b : α) (tr : List Ev) : (pure a : Prog α).Runs tr b ↔ tr = [] ∧ b = a := Iff.rfl
@[simp] theorem runs_ret (a b : α) (tr : List Ev) : (ret a : Prog α).Runs tr b ↔ tr = [] ∧ b = a := Iff.rfl
theorem runs_op (q : Req) (k : q.Resp → Prog α) (tr : List Ev) (b : α) :
    (op q k).Runs tr b ↔ ∃ r tr', tr = ⟨q, r⟩ :: tr' ∧ (k r).Runs tr' b := Iff.rfl

theorem runs_bind' (p : Prog α) (f : α → Prog β) (tr : List Ev) (b : β) :
    (p.bind f).Runs tr b ↔ ∃ t1 a t2, tr = t1 ++ t2 ∧ p.Runs t1 a ∧ (f a).Runs t2 b := by
  induction p generalizing tr with
  | ret a =>
    simp only [bind, runs_ret]
    constructor
    · intro h; exact ⟨[], a, tr, by simp, ⟨rfl, rfl⟩, h⟩
    · rintro ⟨_, _, _, rfl, ⟨rfl, rfl⟩, h⟩; exact h
  | op q k ih =>
    simp only [bind, runs_op]
    constructor
    · rintro ⟨r, tr', rfl, h⟩
      obtain ⟨t1, a, t2, rfl, h1, h2⟩ := (ih r tr').mp h
      exact ⟨⟨q, r⟩ :: t1, a, t2, by simp, ⟨r, t1, rfl, h1⟩, h2⟩
    · rintro ⟨_, a, t2, rfl, ⟨r, t1, rfl, h1⟩, h2⟩
      exact ⟨r, t1 ++ t2, by simp, (ih r _).mpr ⟨t1, a, t2, rfl, h1, h2⟩⟩

theorem runs_bind (p : Prog α) (f : α → Prog β) (tr : List Ev) (b : β) :
    (p >>= f).Runs tr b ↔ ∃ t1 a t2, tr = t1 ++ t2 ∧ p.Runs t1 a ∧ (f a).Runs t2 b :=
  runs_bind' p f tr b

theorem partial_nil (p : Prog α) : p.Partial [] := by cases p <;> trivial

@[simp] theorem partial_ret (a : α) (tr : List Ev) : (ret a : Prog α).Partial tr ↔ tr = [] := by
  cases tr <;> simp [Partial]
@[simp] theorem partial_pure (a : α) (tr : List Ev) : (pure a : Prog α).Partial tr ↔ tr = [] := partial_ret a tr

theorem partial_op (q : Req) (k : q.Resp → Prog α) (tr : List Ev) :
    (op q k).Partial tr ↔ tr = [] ∨ ∃ r tr', tr = ⟨q, r⟩ :: tr' ∧ (k r).Partial tr' := by
  cases tr with
  | nil => simp [Partial]
  | cons e tr =>
    simp only [Partial]
    constructor
    · rintro ⟨r, rfl, h⟩; exact Or.inr ⟨r, tr, rfl, h⟩
    · rintro (h | ⟨r, tr', h, h2⟩)
      · simp at h
      · simp at h; obtain ⟨rfl, rfl⟩ := h; exact ⟨r, rfl, h2⟩

theorem runs_partial {p : Prog α} {tr : List Ev} {a : α} (h : p.Runs tr a) : p.Partial tr := by
  induction p generalizing tr with
  | ret a => exact (partial_ret _ _).mpr h.1
  | op q k ih =>
    obtain ⟨r, tr', rfl, h⟩ := h
    exact ⟨r, rfl, ih r h⟩

theorem partial_bind (p : Prog α) (f : α → Prog β) (tr : List Ev) :
    (p >>= f).Partial tr ↔ p.Partial tr ∨ ∃ t1 a t2, tr = t1 ++ t2 ∧ p.Runs t1 a ∧ (f a).Partial t2 := by
  show (p.bind f).Partial tr ↔ _
  induction p generalizing tr with
  | ret a =>
    simp only [bind, runs_ret, partial_ret]
    constructor
    · intro h; exact Or.inr ⟨[], a, tr, by simp, ⟨rfl, rfl⟩, h⟩
    · rintro (rfl | ⟨_, _, _, rfl, ⟨rfl, rfl⟩, h⟩)
      · exact partial_nil _
      · exact h
  | op q k ih =>
    simp only [bind, partial_op, runs_op]
    constructor
    · rintro (rfl | ⟨r, tr', rfl, h⟩)
      · exact Or.inl (Or.inl rfl)
      · rcases (ih r tr').mp h with h | ⟨t1, a, t2, rfl, h1, h2⟩
        · exact Or.inl (Or.inr ⟨r, tr', rfl, h⟩)
        · exact Or.inr ⟨⟨q, r⟩ :: t1, a, t2, by simp, ⟨r, t1, rfl, h1⟩, h2⟩
    · rintro ((rfl | ⟨r, tr', rfl, h⟩) | ⟨_, a, t2, rfl, ⟨r, t1, rfl, h1⟩, h2⟩)
      · exact Or.inl rfl
      · exact Or.inr ⟨r, tr', rfl, (ih r tr').mpr (Or.inl h)⟩
      · exact Or.inr ⟨r, t1 ++ t2, by simp, (ih r _).mpr (Or.inr ⟨t1, a, t2, rfl, h1, h2⟩)⟩

@[simp] theorem runs_req (q : Req) (tr : List Ev) (r : q.Resp) :
    (req q).Runs tr r ↔ tr = [⟨q, r⟩] := by
  simp only [req, runs_op, runs_ret]
  constructor
  · rintro ⟨r', _, rfl, rfl, rfl⟩; rfl
  · rintro rfl; exact ⟨r, [], rfl, rfl, rfl⟩

@[simp] theorem partial_req (q : Req) (tr : List Ev) :
    (req q).Partial tr ↔ tr = [] ∨ ∃ r, tr = [⟨q, r⟩] := by
  simp only [req, partial_op, partial_ret]
  constructor
  · rintro (h | ⟨r, _, rfl, rfl⟩)
    · exact Or.inl h
    · exact Or.inr ⟨r, rfl⟩
  · rintro (h | ⟨r, rfl⟩)
    · exact Or.inl h
    · exact Or.inr ⟨r, [], rfl, rfl⟩

end Prog

/-! ## The same for `M` -/

section
variable {α β : Type}

@[simp] theorem mruns_pure (a : α) (tr : List Ev) (r : Except MErr α) :
    MRuns (pure a : M α) tr r ↔ tr = [] ∧ r = .ok a := Iff.rfl

@[simp] theorem mruns_throw (e : MErr) (tr : List Ev) (r : Except MErr α) :
    MRuns (throw e : M α) tr r ↔ tr = [] ∧ r = .error e := Iff.rfl

theorem mruns_ask {q : Req} {tr : List Ev} {r : Except MErr q.Resp} :
    MRuns (ask q) tr r ↔ ∃ v, tr = [⟨q, v⟩] ∧ r = .ok v := by
  show Prog.Runs (Prog.bind (req q) _) _ _ ↔ _
  rw [Prog.runs_bind']
  constructor
  · rintro ⟨t1, a, t2, rfl, h1, h2⟩
    rw [Prog.runs_req] at h1
    subst h1
    obtain ⟨rfl, rfl⟩ := h2
    exact ⟨a, rfl, rfl⟩
  · rintro ⟨v, rfl, rfl⟩
    exact ⟨[⟨q, v⟩], v, [], rfl, (Prog.runs_req _ _ _).mpr rfl, rfl, rfl⟩

theorem mruns_bind {p : M α} {f : α → M β} {tr : List Ev} {r : Except MErr β} :
    MRuns (p >>= f) tr r ↔
      (∃ e, r = .error e ∧ MRuns p tr (.error e)) ∨
      ∃ t1 a t2, tr = t1 ++ t2 ∧ MRuns p t1 (.ok a) ∧ MRuns (f a) t2 r := by
  show Prog.Runs (Prog.bind p.run (ExceptT.bindCont f)) tr r ↔ _
  rw [Prog.runs_bind']
  constructor
  · rintro ⟨t1, a, t2, rfl, h1, h2⟩
    cases a with
    | ok a => exact Or.inr ⟨t1, a, t2, rfl, h1, h2⟩
    | error e =>
      obtain ⟨rfl, rfl⟩ := h2
      exact Or.inl ⟨e, rfl, by rw [List.append_nil]; exact h1⟩
  · rintro (⟨e, rfl, h⟩ | ⟨t1, a, t2, rfl, h1, h2⟩)
    · exact ⟨tr, .error e, [], by simp, h, rfl, rfl⟩
    · exact ⟨t1, .ok a, t2, rfl, h1, h2⟩

theorem mruns_tryCatch {p : M α} {h : MErr → M α} {tr : List Ev} {r : Except MErr α} :
    MRuns (tryCatch p h) tr r ↔
      (∃ a, r = .ok a ∧ MRuns p tr (.ok a)) ∨
      ∃ t1 e t2, tr = t1 ++ t2 ∧ MRuns p t1 (.error e) ∧ MRuns (h e) t2 r := by
  show Prog.Runs (Prog.bind p.run _) tr r ↔ _
  rw [Prog.runs_bind']
  constructor
  · rintro ⟨t1, a, t2, rfl, h1, h2⟩
    cases a with
    | ok a =>
      obtain ⟨rfl, rfl⟩ := h2
      exact Or.inl ⟨a, rfl, by rw [List.append_nil]; exact h1⟩
    | error e => exact Or.inr ⟨t1, e, t2, rfl, h1, h2⟩
  · rintro (⟨e, rfl, h⟩ | ⟨t1, a, t2, rfl, h1, h2⟩)
    · exact ⟨tr, .ok e, [], by simp, h, rfl, rfl⟩
    · exact ⟨t1, .error a, t2, rfl, h1, h2⟩

@[simp] theorem mpartial_pure (a : α) (tr : List Ev) : MPartial (pure a : M α) tr ↔ tr = [] :=
  Prog.partial_ret _ _

@[simp] theorem mpartial_throw (e : MErr) (tr : List Ev) : MPartial (throw e : M α) tr ↔ tr = [] :=
  Prog.partial_ret _ _

theorem mpartial_ask {q : Req} {tr : List Ev} :
    MPartial (ask q) tr ↔ tr = [] ∨ ∃ v, tr = [⟨q, v⟩] := by
  show Prog.Partial (req q >>= _) _ ↔ _
  rw [Prog.partial_bind, Prog.partial_req]
  constructor
  · rintro (h | ⟨t1, a, t2, rfl, h1, h2⟩)
    · exact h
    · rw [Prog.runs_req] at h1
      subst h1
      have h2 := (Prog.partial_ret _ _).mp h2
      subst h2
      exact Or.inr ⟨a, rfl⟩
  · intro h; exact Or.inl h

theorem mpartial_bind {p : M α} {f : α → M β} {tr : List Ev} :
    MPartial (p >>= f) tr ↔ MPartial p tr ∨
      ∃ t1 a t2, tr = t1 ++ t2 ∧ MRuns p t1 (.ok a) ∧ MPartial (f a) t2 := by
  show Prog.Partial (p.run >>= (ExceptT.bindCont f)) tr ↔ _
  rw [Prog.partial_bind]
  constructor
  · rintro (h | ⟨t1, a, t2, rfl, h1, h2⟩)
    · exact Or.inl h
    · cases a with
      | ok a => exact Or.inr ⟨t1, a, t2, rfl, h1, h2⟩
      | error e =>
        have h2 := (Prog.partial_ret _ _).mp h2
        subst h2
        left
        rw [List.append_nil]; exact Prog.runs_partial h1
  · rintro (h | ⟨t1, a, t2, rfl, h1, h2⟩)
    · exact Or.inl h
    · exact Or.inr ⟨t1, .ok a, t2, rfl, h1, h2⟩

theorem mpartial_tryCatch {p : M α} {h : MErr → M α} {tr : List Ev} :
    MPartial (tryCatch p h) tr ↔ MPartial p tr ∨
      ∃ t1 e t2, tr = t1 ++ t2 ∧ MRuns p t1 (.error e) ∧ MPartial (h e) t2 := by
  show Prog.Partial (p.run >>= _) tr ↔ _
  rw [Prog.partial_bind]
  constructor
  · rintro (h | ⟨t1, a, t2, rfl, h1, h2⟩)
    · exact Or.inl h
    · cases a with
      | error a => exact Or.inr ⟨t1, a, t2, rfl, h1, h2⟩
      | ok e =>
        have h2 := (Prog.partial_ret _ _).mp h2
        subst h2
        left
        rw [List.append_nil]; exact Prog.runs_partial h1
  · rintro (h | ⟨t1, a, t2, rfl, h1, h2⟩)
    · exact Or.inl h
    · exact Or.inr ⟨t1, .error a, t2, rfl, h1, h2⟩

theorem mruns_partial {p : M α} {tr : List Ev} {r : Except MErr α} (h : MRuns p tr r) : MPartial p tr :=
  Prog.runs_partial h

end
end Verif
