import Verif.Lemmas.Rest
/-!
# Components that meet with success only
-/
namespace Verif

/-- As long as only events in `G` happen, the program makes at most `L` requests, all in `Q`, and returns something
in `I`. -/
def Prog.Follows {α : Type} (G : Ev → Prop) (Q : Req → Prop) (I : α → Prop) : Nat → Prog α → Prop
  | _, .ret a => I a
  | 0, .op _ _ => False
  | n + 1, .op q k => Q q ∧ ∀ r, G ⟨q, r⟩ → Prog.Follows G Q I n (k r)

theorem follows_op {α : Type} {G : Ev → Prop} {Q : Req → Prop} {I : α → Prop} {n : Nat} (q : Req) {k : q.Resp → Prog α} (h : Q q)
    (hk : ∀ r, G ⟨q, r⟩ → (k r).Follows G Q I n) : (Prog.op q k).Follows G Q I (n + 1) := ⟨h, hk⟩

theorem follows_ret {α : Type} {G : Ev → Prop} {Q : Req → Prop} {I : α → Prop} {n : Nat} (a : α) (h : I a) : (Prog.ret a).Follows G Q I n := by
  cases n <;> exact h

theorem follows_runs {α : Type} {G : Ev → Prop} {Q : Req → Prop} {I : α → Prop} {L : Nat} {p : Prog α} {tr : List Ev} {a : α}
    (h : p.Follows G Q I L) (hr : p.Runs tr a) (hg : ∀ e ∈ tr, G e) : I a := by
  induction p generalizing tr L with
  | ret b =>
    obtain ⟨_, rfl⟩ := hr
    cases L <;> exact h
  | op q k ih =>
    obtain ⟨r, tr', rfl, hr⟩ := hr
    cases L with
    | zero => exact absurd h id
    | succ L => exact ih r (h.2 r (hg _ (by simp))) hr (fun e he => hg e (by simp [he]))

theorem follows_awaits {α : Type} {G : Ev → Prop} {Q : Req → Prop} {I : α → Prop} {L : Nat} {p : Prog α} {tr : List Ev} {q : Req}
    (h : p.Follows G Q I L) (hr : p.Awaits tr q) (hg : ∀ e ∈ tr, G e) : Q q := by
  induction p generalizing tr L with
  | ret b => exact absurd hr (by cases tr <;> exact id)
  | op q' k ih =>
    cases L with
    | zero => exact absurd h id
    | succ L =>
      cases tr with
      | nil => have : q' = q := hr; subst this; exact h.1
      | cons e tr =>
        obtain ⟨r, rfl, hr⟩ := hr
        exact ih r (h.2 r (hg _ (by simp))) hr (fun e he => hg e (by simp [he]))

theorem follows_partial {α : Type} {G : Ev → Prop} {Q : Req → Prop} {I : α → Prop} {L : Nat} {p : Prog α} {tr : List Ev}
    (h : p.Follows G Q I L) (hr : p.Partial tr) (hg : ∀ e ∈ tr, G e) : tr.length ≤ L := by
  induction p generalizing tr L with
  | ret b =>
    cases tr with
    | nil => exact Nat.zero_le _
    | cons e tr => exact absurd hr id
  | op q' k ih =>
    cases L with
    | zero => exact absurd h id
    | succ L =>
      cases tr with
      | nil => exact Nat.zero_le _
      | cons e tr =>
        obtain ⟨r, rfl, hr⟩ := hr
        have := ih r (h.2 r (hg _ (by simp))) hr (fun e he => hg e (by simp [he]))
        simpa using this

/-- What to expect after a round. -/
def Again {σ ρ : Type} (Inv : σ → Prop) : σ ⊕ ρ → Prop
  | .inl x => Inv x
  | .inr _ => False

/-- As long as only events in `G` happen, the task goes round for ever; each round begins with a message from `s`. -/
structure Task.Scripted (t : Task) (G : Ev → Prop) (Q : Req → Prop) (s : End) (L : Nat) (Inv : t.σ → Prop) : Prop where
  init : Inv t.init
  round : ∀ x, Inv x → ∃ q k, t.body x = .op q k ∧ Q q ∧ ∀ r, G ⟨q, r⟩ → (∃ d, act ⟨q, r⟩ = .got s d) ∧ (k r).Follows G Q (Again Inv) L

section
variable {t : Task} {G : Ev → Prop} {Q : Req → Prop} {s : End} {L : Nat} {Inv : t.σ → Prop}

theorem Task.Scripted.runs (h : t.Scripted G Q s L Inv) {x tr a} (hx : Inv x) (hr : (t.body x).Runs tr a) (hg : ∀ e ∈ tr, G e) :
    ∃ y, a = .inl y ∧ Inv y := by
  obtain ⟨q, k, e, _, hk⟩ := h.round x hx
  rw [e] at hr
  obtain ⟨r, tr', rfl, hr⟩ := hr
  have := follows_runs (hk r (hg _ (by simp))).2 hr (fun e he => hg e (by simp [he]))
  cases a with
  | inl y => exact ⟨y, rfl, this⟩
  | inr y => exact absurd this id

theorem Task.Scripted.rounds (h : t.Scripted G Q s L Inv) {x tr y} (hx : Inv x) (hr : LoopRounds t.body x tr y) (hg : ∀ e ∈ tr, G e) : Inv y := by
  induction hr with
  | nil => exact hx
  | next hb _ ih =>
    obtain ⟨z, hz, hi⟩ := h.runs hx hb (fun e he => hg e (by simp [he]))
    simp at hz; subst hz
    exact ih hi (fun e he => hg e (by simp [he]))

theorem Task.Scripted.loop (h : t.Scripted G Q s L Inv) {tr} (hp : t.Partial tr) (hg : ∀ e ∈ tr, G e) : LoopPartial t.body t.init tr := by
  rcases hp with hp | ⟨r, t1, t2, h1, _, rfl⟩
  · exact hp
  · obtain ⟨y, u1, u2, rfl, k1, k2⟩ := h1.rounds
    have hi := h.rounds h.init k1 (fun e he => hg e (by simp [he]))
    obtain ⟨z, hz, _⟩ := h.runs hi k2 (fun e he => hg e (by simp [he]))
    simp at hz

theorem Task.Scripted.awaits (h : t.Scripted G Q s L Inv) {tr} (hp : t.Partial tr) (hg : ∀ e ∈ tr, G e) : ∃ q, t.Awaits tr q ∧ Q q := by
  obtain ⟨y, u1, u2, k1, k2, rfl⟩ := h.loop hp hg
  have hi := h.rounds h.init k1 (fun e he => hg e (by simp [he]))
  rcases k2.cases with ⟨a, hr⟩ | ⟨q, hq⟩
  · obtain ⟨z, rfl, hz⟩ := h.runs hi hr (fun e he => hg e (by simp [he]))
    obtain ⟨q, k, e, hQ, _⟩ := h.round z hz
    exact ⟨q, ⟨z, u1 ++ u2, [], k1.snoc hr, by rw [e]; rfl, by simp⟩, hQ⟩
  · refine ⟨q, ⟨y, u1, u2, k1, hq, rfl⟩, ?_⟩
    obtain ⟨q', k, e, hQ, hk⟩ := h.round y hi
    rw [e] at hq
    cases u2 with
    | nil => have : q' = q := hq; subst this; exact hQ
    | cons e u2 =>
      obtain ⟨r, rfl, hq⟩ := hq
      exact follows_awaits (hk r (hg _ (by simp))).2 hq (fun e he => hg e (by simp [he]))

theorem Task.Scripted.body_length (h : t.Scripted G Q s L Inv) {x tr} (hx : Inv x) (hr : (t.body x).Partial tr) (hg : ∀ e ∈ tr, G e) :
    tr.length ≤ (L + 1) * (receivedFrom s tr).length := by
  obtain ⟨q, k, e, _, hk⟩ := h.round x hx
  rw [e] at hr
  cases tr with
  | nil => simp
  | cons e tr =>
    obtain ⟨r, rfl, hr⟩ := hr
    obtain ⟨⟨d, hd⟩, hf⟩ := hk r (hg _ (by simp))
    have := follows_partial hf hr (fun e he => hg e (by simp [he]))
    have h1 : receivedFrom s (⟨q, r⟩ :: tr) = d :: receivedFrom s tr := by simp [receivedFrom, acts, hd]
    rw [h1, List.length_cons, List.length_cons, Nat.mul_add]
    omega

theorem receivedFrom_append' (s : End) (a b : List Ev) : receivedFrom s (a ++ b) = receivedFrom s a ++ receivedFrom s b := by
  simp [receivedFrom]

theorem Task.Scripted.length (h : t.Scripted G Q s L Inv) {tr} (hp : t.Partial tr) (hg : ∀ e ∈ tr, G e) :
    tr.length ≤ (L + 1) * (receivedFrom s tr).length := by
  obtain ⟨y, u1, u2, k1, k2, rfl⟩ := h.loop hp hg
  have aux : ∀ {x tr y}, Inv x → LoopRounds t.body x tr y → (∀ e ∈ tr, G e) → tr.length ≤ (L + 1) * (receivedFrom s tr).length := by
    intro x tr y hx hr
    induction hr with
    | nil => simp
    | @next a b c t1 t2 hb _ ih =>
      intro hg
      obtain ⟨z, hz, hi⟩ := h.runs hx hb (fun e he => hg e (by simp [he]))
      simp at hz; subst hz
      have h1 := h.body_length hx (Prog.runs_partial hb) (fun e he => hg e (by simp [he]))
      have h2 := ih hi (fun e he => hg e (by simp [he]))
      rw [receivedFrom_append', List.length_append, List.length_append, Nat.mul_add]
      omega
  have h1 := aux h.init k1 (fun e he => hg e (by simp [he]))
  have h2 := h.body_length (h.rounds h.init k1 (fun e he => hg e (by simp [he]))) k2 (fun e he => hg e (by simp [he]))
  rw [receivedFrom_append', List.length_append, List.length_append, Nat.mul_add]
  omega

end

/-! ## Relays, faucets and junctions -/

/-- Messages are read and written; only the input `l` is ever found empty. -/
def Fine (l : Nat) (e : Ev) : Prop := match act e with
  | .got _ _ => True
  | .offer _ _ .ok => True
  | .empty (.chan c) => c = l
  | _ => False

theorem relay_scripted (l : Nat) {j c x y z c'} : (relayTask (.receiver j c) {} none (.sender ⟨x, y, z, .terminate⟩ c')).Scripted (Fine l)
    (fun q => q = .recv .data c ∨ ∃ d, q = .send .data c' d) (.chan c) 1 (fun _ => True) := by
  refine ⟨trivial, fun i _ => ⟨.recv .data c, _, rfl, Or.inl rfl, ?_⟩⟩
  intro r hr
  cases r with
  | none => exact absurd hr id
  | some d =>
    refine ⟨⟨d, rfl⟩, follows_op (.send .data c' d) (Or.inr ⟨d, rfl⟩) ?_⟩
    intro r hr
    cases r with
    | false => exact absurd hr id
    | true => exact follows_ret _ trivial

theorem drain_scripted (l : Nat) {j c x y z h} : (relayTask (.receiver j c) {} none (.io ⟨x, y, z, .terminate⟩ h)).Scripted (Fine l)
    (fun q => q = .recv .data c ∨ ∃ d, q = .ioWrite h d) (.chan c) 1 (fun _ => True) := by
  refine ⟨trivial, fun i _ => ⟨.recv .data c, _, rfl, Or.inl rfl, ?_⟩⟩
  intro r hr
  cases r with
  | none => exact absurd hr id
  | some d =>
    refine ⟨⟨d, rfl⟩, follows_op (.ioWrite h d) (Or.inr ⟨d, rfl⟩) ?_⟩
    intro r hr
    cases r with
    | ok => exact follows_ret _ trivial
    | brokenPipe => exact absurd hr id
    | other e => exact absurd hr id

theorem faucet_scripted (l : Nat) {j h x y z c'} : (regulatorTask (.stream j h) (.sender ⟨x, y, z, .terminate⟩ c') none none).Scripted (Fine l)
    (fun q => q = .streamRead h ∨ ∃ d, q = .send .data c' d) (.handle h) 1 (fun _ => True) := by
  refine ⟨trivial, fun i _ => ⟨.streamRead h, _, rfl, Or.inl rfl, ?_⟩⟩
  intro r hr
  cases r with
  | eof => exact absurd hr id
  | err e => exact absurd hr id
  | line d =>
    refine ⟨⟨d, rfl⟩, follows_op (.send .data c' d) (Or.inr ⟨d, rfl⟩) ?_⟩
    intro r hr
    cases r with
    | false => exact absurd hr id
    | true => exact follows_ret _ trivial

/-- A junction with an input of the same or a better priority than the other, `l`. -/
theorem junction_scripted {j1 c l j2 p x y z c3 u v w c4} (hp : 0 ≤ p) (hl : c ≠ l) :
    (junctionTask [(.receiver j1 c, 0), (.receiver j2 l, p)] [.sender ⟨x, y, z, .terminate⟩ c3, .sender ⟨u, v, w, .terminate⟩ c4] none).Scripted (Fine l)
    (fun q => q = .tryRecv .data c ∨ q = .tryRecv .data l ∨ (∃ d, q = .send .data c3 d) ∨ ∃ d, q = .send .data c4 d) (.chan c) 5
    (fun s : JState => s.stdin = initializeStdin [(.receiver j1 c, 0), (.receiver j2 l, p)]) := by
  have e : initializeStdin [(.receiver j1 c, 0), (.receiver j2 l, p)] =
      if p = 0 then [[.receiver j1 c, .receiver j2 l]] else [[.receiver j1 c], [.receiver j2 l]] := by
    have : ¬ p < 0 := by omega
    by_cases h0 : p = 0
    · simp [initializeStdin, sortByPriority, insertByPriority, groupStep, h0]
    · have : 0 < p := by omega
      simp [initializeStdin, sortByPriority, insertByPriority, groupStep, h0, this, show ¬ p < 0 by omega]
  refine ⟨rfl, ?_⟩
  rintro ⟨stdin, b, n⟩ hx
  simp only [] at hx
  by_cases h0 : p = 0
  · rw [if_pos h0] at e
    rw [e] at hx ⊢
    subst hx
    refine ⟨.tryRecv .data c, _, rfl, Or.inl rfl, ?_⟩
    intro r hr
    cases r with
    | empty => exact absurd hr hl
    | closed => exact absurd hr id
    | got d =>
      refine ⟨⟨d, rfl⟩, follows_op (.send .data c3 d) (Or.inr (Or.inr (Or.inl ⟨d, rfl⟩))) ?_⟩
      intro r hr
      cases r with
      | false => exact absurd hr id
      | true =>
        refine follows_op (.send .data c4 d) (Or.inr (Or.inr (Or.inr ⟨d, rfl⟩))) ?_
        intro r hr
        cases r with
        | false => exact absurd hr id
        | true =>
          refine follows_op (.tryRecv .data l) (Or.inr (Or.inl rfl)) ?_
          intro r hr
          cases r with
          | empty => exact follows_ret _ rfl
          | closed => exact absurd hr id
          | got d =>
            refine follows_op (.send .data c3 d) (Or.inr (Or.inr (Or.inl ⟨d, rfl⟩))) ?_
            intro r hr
            cases r with
            | false => exact absurd hr id
            | true =>
              refine follows_op (.send .data c4 d) (Or.inr (Or.inr (Or.inr ⟨d, rfl⟩))) ?_
              intro r hr
              cases r with
              | false => exact absurd hr id
              | true => exact follows_ret _ rfl
  · rw [if_neg h0] at e
    rw [e] at hx ⊢
    subst hx
    refine ⟨.tryRecv .data c, _, rfl, Or.inl rfl, ?_⟩
    intro r hr
    cases r with
    | empty => exact absurd hr hl
    | closed => exact absurd hr id
    | got d =>
      refine ⟨⟨d, rfl⟩, follows_op (.send .data c3 d) (Or.inr (Or.inr (Or.inl ⟨d, rfl⟩))) ?_⟩
      intro r hr
      cases r with
      | false => exact absurd hr id
      | true =>
        refine follows_op (.send .data c4 d) (Or.inr (Or.inr (Or.inr ⟨d, rfl⟩))) ?_
        intro r hr
        cases r with
        | false => exact absurd hr id
        | true => exact follows_ret _ rfl

end Verif
