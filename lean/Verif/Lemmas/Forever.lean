import Verif.Lemmas.Last
import Verif.Lemmas.Progress
/-!
# Going on for ever

A task that goes on for ever without ever closing anything goes round its loop again and again.
-/
namespace Verif

/-- What grows but stays below a bound stops growing. -/
theorem settles {f : Nat → Nat} {K : Nat} (hm : ∀ n, f n ≤ f (n + 1)) (hb : ∀ n, f n ≤ K) : ∃ n, ∀ m, n ≤ m → f m = f n := by
  refine Classical.byContradiction fun hno => ?_
  have mono : ∀ {n m}, n ≤ m → f n ≤ f m := by
    intro n m h
    induction h with
    | refl => exact Nat.le_refl _
    | step _ ih => exact Nat.le_trans ih (hm _)
  have : ∀ k, ∃ n, k ≤ f n := by
    intro k
    induction k with
    | zero => exact ⟨0, Nat.zero_le _⟩
    | succ k ih =>
      obtain ⟨n, hn⟩ := ih
      refine Classical.byContradiction fun h => hno ⟨n, fun m hnm => ?_⟩
      have h1 := mono hnm
      have h2 : f m < k + 1 := Nat.lt_of_not_le fun h' => h ⟨m, h'⟩
      omega
  obtain ⟨n, hn⟩ := this (K + 1)
  have := hb n
  omega

/-- The first events. -/
def first {α : Type} (g : Nat → α) (k : Nat) : List α := (List.range k).map g

@[simp] theorem first_zero {α : Type} (g : Nat → α) : first g 0 = [] := rfl

theorem first_succ {α : Type} (g : Nat → α) (k : Nat) : first g (k + 1) = first g k ++ [g k] := by simp [first, List.range_succ]

theorem first_add {α : Type} (g : Nat → α) (a b : Nat) : first g (a + b) = first g a ++ first (fun i => g (a + i)) b := by
  induction b with
  | zero => simp
  | succ b ih => rw [Nat.add_succ, first_succ, ih, first_succ, List.append_assoc]

theorem first_cons {α : Type} (g : Nat → α) (k : Nat) : first g (k + 1) = g 0 :: first (fun i => g (i + 1)) k := by
  have := first_add g 1 k
  rw [Nat.add_comm 1 k] at this
  rw [this, first_succ]
  simp [Nat.add_comm]

theorem mem_first {α : Type} {g : Nat → α} {k : Nat} {e : α} : e ∈ first g k ↔ ∃ i, i < k ∧ g i = e := by simp [first]

/-- Events that come one by one and never stop coming can be numbered. -/
theorem numbered {T : Nat → List Ev} (h1 : ∀ n, T (n + 1) = T n ∨ ∃ e, T (n + 1) = T n ++ [e]) (hinf : ∀ n, ∃ m, n ≤ m ∧ (T (m + 1)).length = (T m).length + 1) :
    ∃ g : Nat → Ev, ∀ k, ∃ n, T n = T 0 ++ first g k := by
  have mono : ∀ {n m}, n ≤ m → T n <+: T m := by
    intro n m h
    induction h with
    | refl => exact List.prefix_refl _
    | @step m _ ih =>
      rcases h1 m with h | ⟨e, h⟩ <;> rw [Nat.succ_eq_add_one, h]
      · exact ih
      · exact ih.trans (List.prefix_append _ _)
  have more : ∀ n, ∃ m e, n ≤ m ∧ T m = T n ++ [e] := by
    intro n
    obtain ⟨m, hm, hl⟩ := hinf n
    have key : ∀ d m, m = n + d → (T (m + 1)).length ≠ (T n).length → ∃ m e, n ≤ m ∧ T m = T n ++ [e] := by
      intro d
      induction d with
      | zero =>
        intro m hm' hne
        rw [Nat.add_zero] at hm'
        rw [hm'] at hne
        rcases h1 n with h | ⟨e, h⟩
        · rw [h] at hne; exact absurd rfl hne
        · exact ⟨n + 1, e, by omega, h⟩
      | succ d ih =>
        intro m hm' hne
        subst hm'
        by_cases hd : (T (n + d + 1)).length = (T n).length
        · have he : T (n + d + 1) = T n := by
            have := mono (n := n) (m := n + d + 1) (by omega)
            exact (this.eq_of_length hd.symm).symm
          rcases h1 (n + (d + 1)) with h | ⟨e, h⟩
          · rw [h, show n + (d + 1) = n + d + 1 by omega, he] at hne; exact absurd rfl hne
          · exact ⟨n + (d + 1) + 1, e, by omega, by rw [h, show n + (d + 1) = n + d + 1 by omega, he]⟩
        · exact ih (n + d) rfl hd
    refine key (m - n) m (by omega) ?_
    have := (mono hm).length_le
    omega
  obtain ⟨nx, hnx⟩ := Classical.axiomOfChoice more
  obtain ⟨ev, hev⟩ := Classical.axiomOfChoice hnx
  let at_ : Nat → Nat := Nat.rec 0 (fun _ n => nx n)
  refine ⟨fun k => ev (at_ k), fun k => ⟨at_ k, ?_⟩⟩
  induction k with
  | zero => rw [first_zero, List.append_nil]; rfl
  | succ k ih =>
    have : at_ (k + 1) = nx (at_ k) := rfl
    rw [this, (hev (at_ k)).2, ih, first_succ, List.append_assoc]

/-- No single round goes on for ever. -/
theorem Prog.finite {α : Type} (p : Prog α) (t : List Ev) (g : Nat → Ev)
    (h : ∀ k, p.Partial (t ++ first g k) ∨ ∃ k' a, k' ≤ k ∧ p.Runs (t ++ first g k') a) : ∃ k a, p.Runs (t ++ first g k) a := by
  induction p generalizing t g with
  | ret a =>
    rcases h 0 with h0 | ⟨k, b, _, h0⟩
    · refine ⟨0, a, ?_⟩
      rw [Prog.partial_ret] at h0
      rw [h0]
      exact ⟨rfl, rfl⟩
    · exact ⟨k, b, h0⟩
  | op q f ih =>
    cases t with
    | cons e t =>
      have hq : ∃ r : q.Resp, e = ⟨q, r⟩ := by
        rcases h 0 with h0 | ⟨_, _, _, h0⟩
        · obtain ⟨r, he, _⟩ := h0; exact ⟨r, he⟩
        · obtain ⟨r, t1, he, _⟩ := h0
          simp at he; exact ⟨r, he.1⟩
      obtain ⟨r, rfl⟩ := hq
      obtain ⟨k, a, hk⟩ := ih r t g (by
        intro k
        rcases h k with h0 | ⟨k', a, hk, h0⟩
        · obtain ⟨r', he, h0⟩ := h0
          cases he
          exact Or.inl h0
        · obtain ⟨r', t1, he, h0⟩ := h0
          rw [List.cons_append] at he
          cases he
          exact Or.inr ⟨k', a, hk, h0⟩)
      exact ⟨k, a, r, _, rfl, hk⟩
    | nil =>
      have hq : ∃ r : q.Resp, g 0 = ⟨q, r⟩ := by
        rcases h 1 with h0 | ⟨k', _, _, h0⟩
        · rw [List.nil_append, first_cons] at h0
          obtain ⟨r, he, _⟩ := h0; exact ⟨r, he⟩
        · cases k' with
          | zero => obtain ⟨r, t1, he, _⟩ := h0; simp at he
          | succ k' =>
            rw [List.nil_append, first_cons] at h0
            obtain ⟨r, t1, he, _⟩ := h0
            exact ⟨r, (List.cons.inj he).1⟩
      obtain ⟨r, hr⟩ := hq
      obtain ⟨k, a, hk⟩ := ih r [] (fun i => g (i + 1)) (by
        intro k
        rcases h (k + 1) with h0 | ⟨k', a, hk, h0⟩
        · rw [List.nil_append, first_cons, hr] at h0
          obtain ⟨r', he, h0⟩ := h0
          cases he
          exact Or.inl h0
        · cases k' with
          | zero => obtain ⟨r', t1, he, _⟩ := h0; simp at he
          | succ k' =>
            rw [List.nil_append, first_cons, hr] at h0
            obtain ⟨r', t1, he, h0⟩ := h0
            cases he
            exact Or.inr ⟨k', a, by omega, h0⟩)
      refine ⟨k + 1, a, ?_⟩
      rw [List.nil_append, first_cons, hr]
      exact ⟨r, _, rfl, hk⟩

/-- After some rounds, the next one has been begun or run through. -/
theorem LoopRounds.then {σ ρ : Type} {body : σ → Prog (σ ⊕ ρ)} {s t s' u} (h : LoopRounds body s t s') (h' : LoopPartial body s (t ++ u)) :
    (body s').Partial u ∨ ∃ v x a, u = v ++ x ∧ (body s').Runs v a := by
  induction h with
  | nil =>
    obtain ⟨s1, t1, t2, h1, h2, e⟩ := h'
    cases h1 with
    | nil => simp at e; subst e; exact Or.inl h2
    | next hb _ => simp at e; exact Or.inr ⟨_, _, _, e, hb⟩
  | next hb hr ih =>
    obtain ⟨s1, t1, t2, h1, h2, e⟩ := h'
    cases h1 with
    | nil =>
      simp at e; subst e
      have := Prog.runs_stops hb h2
      simp at this
      obtain ⟨rfl, rfl⟩ := this
      exact ih ⟨_, [], [], .nil, by
        cases hr' : body _ with
        | ret a => simp [Prog.Partial]
        | op q f => trivial, rfl⟩
    | next hb' hr' =>
      rw [List.append_assoc, List.append_assoc] at e
      obtain ⟨rfl, h⟩ := Prog.runs_det hb hb' e
      simp at h; subst h
      exact ih ⟨_, _, _, hr', h2, by simpa using e⟩

/-- A task that goes on for ever, closing nothing, goes round its loop. -/
theorem Task.rounds {t : Task} {tr : List Ev} {g : Nat → Ev} (h : ∀ k, t.Partial (tr ++ first g k)) (hc : ∀ i k c, (g i).q ≠ .close k c) :
    (∃ k s, LoopRounds t.body t.init (tr ++ first g k) s) ∧
    ∀ {k s}, LoopRounds t.body t.init (tr ++ first g k) s → ∃ j s', (t.body s).Runs (first (fun i => g (k + i)) j) (.inl s') := by
  have awaits : ∀ k, t.Awaits (tr ++ first g k) (g k).q := by
    intro k
    have h1 := h (k + 1)
    rw [first_succ, ← List.append_assoc] at h1
    rcases h1.last with h1 | ⟨_, _, t2, _, _, h1⟩
    · exact h1
    · obtain ⟨k', c, _, he⟩ := mem_dropEvs h1 (g k) (by simp)
      exact absurd (by rw [he]) (hc k k' c)
  have lp : ∀ k, LoopPartial t.body t.init (tr ++ first g k) := by
    intro k
    obtain ⟨s, t1, t2, h1, h2, e⟩ := awaits k
    exact ⟨s, t1, t2, h1, h2.partial, e⟩
  have nostop : ∀ {k r}, ¬ LoopRuns t.body t.init (tr ++ first g k) r := by
    intro k r hr
    have h1 := h (k + 1)
    rw [first_succ, ← List.append_assoc] at h1
    obtain ⟨k', c, _, he⟩ := mem_dropEvs (Task.after hr h1) (g k) (by simp)
    exact absurd (by rw [he]) (hc k k' c)
  -- the part of the round after `t2`
  have key : ∀ {t1 t2 s k}, LoopRounds t.body t.init t1 s → tr ++ first g k = t1 ++ t2 → (t.body s).Partial t2 →
      ∃ j s', (t.body s).Runs (t2 ++ first (fun i => g (k + i)) j) (.inl s') := by
    intro t1 t2 s k h1 he hp2
    have ext : ∀ j, t1 ++ (t2 ++ first (fun i => g (k + i)) j) = tr ++ first g (k + j) := by
      intro j; rw [← List.append_assoc, ← he, List.append_assoc, ← first_add]
    obtain ⟨j, a, ha⟩ := Prog.finite (t.body s) t2 (fun i => g (k + i)) (by
      intro j
      have hj := lp (k + j)
      rw [← ext] at hj
      rcases h1.then hj with h2 | ⟨v, x, a, hv, h2⟩
      · exact Or.inl h2
      · rcases List.append_eq_append_iff.mp hv with ⟨y, rfl, hy⟩ | ⟨y, rfl, _⟩
        · right
          have hlen : y.length ≤ j := by
            have := congrArg List.length hy
            simp [first] at this
            omega
          have hyy : y = first (fun i => g (k + i)) y.length := by
            have hspl := first_add (fun i => g (k + i)) y.length (j - y.length)
            rw [Nat.add_sub_cancel' hlen] at hspl
            rw [hspl] at hy
            exact ((List.append_inj hy (by simp [first])).1).symm
          exact ⟨y.length, a, hlen, by rw [← hyy]; exact h2⟩
        · have := Prog.runs_stops h2 hp2
          subst this
          right
          exact ⟨0, a, Nat.zero_le _, by simpa using h2⟩)
    cases a with
    | inl s' => exact ⟨j, s', ha⟩
    | inr r =>
      exfalso
      have := h1.stop ha
      rw [ext] at this
      exact nostop this
  have nilp : ∀ s, (t.body s).Partial [] := by
    intro s
    cases t.body s with
    | ret a => simp [Prog.Partial]
    | op q f => trivial
  refine ⟨?_, fun {k s} hr => ?_⟩
  · obtain ⟨s, t1, t2, h1, h2, he⟩ := lp 0
    obtain ⟨j, s', hj⟩ := key h1 he h2
    refine ⟨0 + j, s', ?_⟩
    have := h1.snoc hj
    rw [← List.append_assoc, ← he, List.append_assoc, ← first_add] at this
    exact this
  · obtain ⟨j, s', hj⟩ := key hr (List.append_nil _).symm (nilp s)
    exact ⟨j, s', by simpa using hj⟩

end Verif
