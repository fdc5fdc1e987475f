import Verif.Model.Runtime
import Verif.Lemmas.Replay
/-!
# Concrete runs of runtimes

A scheduler that lets the activities of a runtime take turns, and a check that a sequence of events is a run. Only used to show witnesses; whatever the scheduler makes is
checked.
-/
namespace Verif

/-- Streams: the messages still to come from each. -/
abbrev Feed := Nat → List Bytes

/-- What the channels, given streams and obliging files answer. -/
def answer (cap : Caps) (st : Store) (feed : Feed) (reads : Nat → Nat) (code : StatusRes) : (q : Req) → Option q.Resp
  | .recv k c => match (st k c).q with
    | v :: _ => some (some v)
    | [] => if (st k c).closed then some none else none
  | .tryRecv k c => match (st k c).q with
    | v :: _ => some (.got v)
    | [] => some (if (st k c).closed then .closed else .empty)
  | .send k c _ => if (st k c).closed then some false else if hasRoom (cap k c) (st k c).q.length then some true else none
  | .close _ _ => some ()
  | .stat k c => some ((st k c).q.isEmpty, (st k c).closed)
  | .streamRead h => some (match (feed h)[reads h]? with
    | some d => .line d
    | none => .eof)
  | .ioWrite _ _ => some .ok
  | .ioFlush _ => some true
  | .sleep _ => some ()
  | .status => some code

/-- How often a stream has been read. -/
def readsOf (τ : List (Who × Ev)) (h : Nat) : Nat := τ.countP fun x => match x.2.q with
  | .streamRead h' => h' = h
  | _ => false

/-- All there may be. -/
def Waiter.everyone (w : Waiter) (cs : List Capture) : List Who :=
  (w.comps.flatMap fun x => [Piece.main, .input, .output, .error, .exit, .count].map (Who.part x.1)) ++ cs.map fun c => .manager c.regulator

/-- Everything to and from the program has ended. -/
def Waiter.relaysEnded (w : Waiter) (cs : List Capture) (τ : List (Who × Ev)) (r : CompRef) : Bool :=
  [Piece.input, .output, .error].all fun p => match w.sys cs (.part r p) with
    | none => true
    | some t => t.finished (proj (.part r p) τ)

/-- The next event of one activity, if it can make one. -/
def Waiter.turn (w : Waiter) (cs : List Capture) (cap : Caps) (feed : Feed) (code : StatusRes) (i : Who) (τ : List (Who × Ev)) : List (Who × Ev) :=
  match w.sys cs i, execAll cap Store.init (τ.map Prod.snd) with
  | some t, some st =>
    let ready : Bool := match i with
      | .part r .exit => w.relaysEnded cs τ r
      | _ => true
    if ready then match t.replay (proj i τ) with
      | some (.inr q) => match answer cap st feed (readsOf τ) code q with
        | some r => τ ++ [(i, ⟨q, r⟩)]
        | none => τ
      | some (.inl (_, rest)) => match (dropEvs t.drops)[rest.length]? with
        | some e => τ ++ [(i, e)]
        | none => τ
      | none => τ
    else τ
  | _, _ => τ

/-- A schedule. -/
def Waiter.drive (w : Waiter) (cs : List Capture) (cap : Caps) (feed : Feed) (code : StatusRes) (order : List Who) : List (Who × Ev) :=
  order.foldl (fun τ i => w.turn cs cap feed code i τ) []

theorem Table.get_mem {κ α : Type} [DecidableEq κ] {m : Table κ α} {k : κ} {v : α} (h : m.get k = some v) : (k, v) ∈ m := by
  induction m with
  | nil => simp [Table.get] at h
  | cons a m ih =>
    obtain ⟨k', v'⟩ := a
    simp only [Table.get] at h
    split at h
    · rename_i hk; cases h; subst hk; exact List.mem_cons_self
    · exact List.mem_cons_of_mem _ (ih h)

theorem sys_everyone {w : Waiter} {cs : List Capture} {i : Who} (h : w.sys cs i ≠ none) : i ∈ w.everyone cs := by
  unfold Waiter.everyone
  cases i with
  | manager r =>
    simp only [Waiter.sys] at h
    cases hf : cs.find? (fun c => c.regulator = r) with
    | none => rw [hf] at h; exact absurd rfl h
    | some a =>
      refine List.mem_append_right _ (List.mem_map.mpr ⟨a, List.mem_of_find?_eq_some hf, ?_⟩)
      have : a.regulator = r := by simpa using List.find?_some hf
      rw [this]
  | part r p =>
    simp only [Waiter.sys] at h
    cases hk : w.comps.get r with
    | none => rw [hk] at h; exact absurd rfl h
    | some k =>
      have hmem := Table.get_mem hk
      refine List.mem_append_left _ (List.mem_flatMap.mpr ⟨_, hmem, List.mem_map.mpr ⟨p, ?_, rfl⟩⟩)
      cases p <;> simp

/-- Every exit part began after the relays had ended. -/
def Waiter.exitsOk (w : Waiter) (cs : List Capture) : List (Who × Ev) → List (Who × Ev) → Bool
  | _, [] => true
  | pre, (i, e) :: τ => (match i with
    | .part r .exit => w.relaysEnded cs pre r
    | _ => true) && w.exitsOk cs (pre ++ [(i, e)]) τ

/-- A sufficient check for being a run. -/
def Waiter.runs (w : Waiter) (cs : List Capture) (cap : Caps) (τ : List (Who × Ev)) : Bool :=
  (execAll cap Store.init (τ.map Prod.snd)).isSome && ((w.everyone cs).all fun i => match w.sys cs i with
    | none => true
    | some t => t.checks (proj i τ)) && (τ.all fun x => (w.sys cs x.1).isSome) && w.exitsOk cs [] τ

theorem Waiter.relaysEnded_sound {w : Waiter} {cs : List Capture} {τ : List (Who × Ev)} {r : CompRef} (h : w.relaysEnded cs τ r = true) :
    ∀ p ∈ [Piece.input, .output, .error], ∀ t, w.sys cs (.part r p) = some t → t.Done (proj (.part r p) τ) := by
  intro p hp t ht
  have := List.all_eq_true.mp h p hp
  rw [ht] at this
  exact Task.finished_done this

theorem Waiter.exitsOk_sound {w : Waiter} {cs : List Capture} {pre τ : List (Who × Ev)} (h : w.exitsOk cs pre τ = true) :
    ∀ τ₁ τ₂ r e, τ = τ₁ ++ (.part r .exit, e) :: τ₂ → w.relaysEnded cs (pre ++ τ₁) r = true := by
  induction τ generalizing pre with
  | nil => intro τ₁ τ₂ r e hs; simp at hs
  | cons x τ ih =>
    obtain ⟨i, e'⟩ := x
    simp only [Waiter.exitsOk, Bool.and_eq_true] at h
    intro τ₁ τ₂ r e hs
    cases τ₁ with
    | nil =>
      simp only [List.nil_append, List.cons.injEq, Prod.mk.injEq] at hs
      obtain ⟨⟨rfl, rfl⟩, rfl⟩ := hs
      rw [List.append_nil]; exact h.1
    | cons y τ₁ =>
      simp only [List.cons_append, List.cons.injEq] at hs
      obtain ⟨rfl, hs⟩ := hs
      have := ih h.2 τ₁ τ₂ r e hs
      rwa [List.append_assoc] at this

theorem Waiter.runs_sound {w : Waiter} {cs : List Capture} {cap : Caps} {τ : List (Who × Ev)} (h : w.runs cs cap τ = true) : w.Run cs cap τ := by
  simp only [Waiter.runs, Bool.and_eq_true] at h
  obtain ⟨⟨⟨h1, h2⟩, h3⟩, h4⟩ := h
  refine ⟨⟨h1, ?_⟩, ?_, ?_⟩
  · intro i t ht
    have := List.all_eq_true.mp h2 i (sys_everyone (by rw [ht]; simp))
    rw [ht] at this
    exact Task.checks_partial this
  · intro x hx hn
    have := List.all_eq_true.mp h3 x hx
    rw [hn] at this; simp at this
  · intro τ₁ τ₂ r e hs
    have := Waiter.exitsOk_sound h4 τ₁ τ₂ r e hs
    exact Waiter.relaysEnded_sound this

/-- A sufficient check for everything having ended. -/
def Waiter.overNow (w : Waiter) (cs : List Capture) (τ : List (Who × Ev)) : Bool :=
  (w.everyone cs).all fun i => match w.sys cs i with
    | none => true
    | some t => t.finished (proj i τ)

theorem Waiter.overNow_sound {w : Waiter} {cs : List Capture} {τ : List (Who × Ev)} (h : w.overNow cs τ = true) : w.Over cs τ := by
  intro i t ht
  have := List.all_eq_true.mp h i (sys_everyone (by rw [ht]; simp))
  rw [ht] at this
  exact Task.finished_done this

end Verif
