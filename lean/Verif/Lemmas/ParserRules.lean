import Verif.Lemmas.Parser
/-!
# The rules of the grammar read what the documented syntax writes, and nothing else
-/
namespace Verif
open Syntax

theorem lit1 (c : Char) (s : Str) : lit [c] (c :: s) = some ((), s) := lit_ok [c] s

theorem portPreference_ok (p : Prio) (h : p.Ok) (r : Str) :
    portPreference ((if p.minus then "-".toList else []) ++ p.ds ++ ']' :: r) = some (p.meaning, ']' :: r) := by
  have key := parseIsize_eq p h
  have hd : many digit (p.ds ++ ']' :: r) = (p.ds, ']' :: r) :=
    many_ok (fun c hc => digit_iff.mpr (h c hc)) (by simp [Stops]; decide)
  obtain ⟨m, ds⟩ := p
  cases m with
  | true =>
    simp only [if_true, portPreference] at *
    simp only [show "-".toList = ['-'] from rfl, List.cons_append, List.nil_append, optMinus, hd]
    rw [← key]; rfl
  | false =>
    simp only [Bool.false_eq_true, if_false, List.nil_append, portPreference] at *
    have hs : optMinus (ds ++ ']' :: r) = ([], ds ++ ']' :: r) := by
      cases ds with
      | nil => rfl
      | cons c ds =>
        have hc : c ≠ '-' := by
          have : ∀ c ∈ digits, c ≠ '-' := by decide
          exact this c (h c (by simp))
        simp only [List.cons_append]
        unfold optMinus
        split
        · rename_i h; simp at h; exact absurd h.1 hc
        · rfl
    simp only [hs, hd, List.nil_append]
    rw [← key]

theorem portPreference_inv {s r : Str} {x : Int} (h : portPreference s = some (x, r)) :
    ∃ p : Prio, p.Ok ∧ s = (if p.minus then "-".toList else []) ++ p.ds ++ r ∧ x = p.meaning := by
  have key : ∀ (m : Bool) (s' : Str), s = (if m then ['-'] else []) ++ s' →
      some ((parseIsize ((if m then ['-'] else []) ++ (many digit s').1)).getD 0, (many digit s').2) = some (x, r) →
      ∃ p : Prio, p.Ok ∧ s = (if p.minus then "-".toList else []) ++ p.ds ++ r ∧ x = p.meaning := by
    intro m s' hs h
    obtain ⟨h1, h2, _⟩ := many_inv digit s'
    simp at h
    obtain ⟨rfl, rfl⟩ := h
    have ok : Prio.Ok ⟨m, (many digit s').1⟩ := fun c hc => digit_iff.mp (h2 c hc)
    refine ⟨⟨m, (many digit s').1⟩, ok, ?_, parseIsize_eq _ ok⟩
    rw [List.append_assoc, ← h1]
    exact hs
  have hs : (∃ s', s = '-' :: s' ∧ optMinus s = (['-'], s')) ∨ optMinus s = ([], s) := by
    unfold optMinus
    split
    · exact Or.inl ⟨_, rfl, rfl⟩
    · exact Or.inr rfl
  unfold portPreference at h
  rcases hs with ⟨s1, h1, h2⟩ | h2
  · simp only [h2] at h; exact key true s1 h1 h
  · simp only [h2] at h; exact key false s rfl h

theorem inPort_ok (p : Prio) (h : p.Ok) (r : Str) : inPort (p.text ++ r) = some (⟨.terminate, p.meaning⟩, r) := by
  have e : p.text ++ r = '[' :: ((if p.minus then "-".toList else []) ++ p.ds ++ ']' :: r) := by
    simp [Prio.text]
  rw [e]
  unfold inPort
  rw [then_eq (lit1 '[' _), then_eq (portPreference_ok p h r), then_eq (lit1 ']' r)]
  rfl

theorem inPort_inv {s r : Str} {i : InputPort} (h : inPort s = some (i, r)) :
    ∃ p : Prio, p.Ok ∧ s = p.text ++ r ∧ i = ⟨.terminate, p.meaning⟩ := by
  unfold inPort at h
  obtain ⟨_, r1, h1, h⟩ := then_some.mp h
  obtain ⟨x, r2, h2, h⟩ := then_some.mp h
  obtain ⟨_, r3, h3, h⟩ := then_some.mp h
  simp [Rule.give] at h
  obtain ⟨rfl, rfl⟩ := h
  obtain ⟨p, ok, h4, rfl⟩ := portPreference_inv h2
  have h1 := lit_inv h1
  have h3 := lit_inv h3
  exact ⟨p, ok, by rw [h1, h4, h3]; simp [Prio.text], rfl⟩

theorem inPort_none {s : Str} (h : s.head? ≠ some '[') : inPort s = none := by
  cases hx : inPort s with
  | none => rfl
  | some x =>
    obtain ⟨i, r⟩ := x
    obtain ⟨p, _, hs, _⟩ := inPort_inv hx
    rw [hs] at h
    simp [Prio.text] at h

/-- The word for a type in either spelling. -/
def typeText (t : ComponentType) (long : Bool) : Str := if long then longWord t else shortWord t

theorem componentType_ok (t : ComponentType) (long : Bool) (r : Str) :
    componentType (typeText t long ++ ':' :: r) = some (t, ':' :: r) := by
  cases t <;> cases long <;> rfl

theorem typeWord_inv {w : String} {t t' : ComponentType} {s r : Str} (h : typeWord w t s = some (t', r)) : s = w.toList ++ r ∧ t' = t := by
  unfold typeWord at h
  obtain ⟨_, r1, h1, h⟩ := then_some.mp h
  simp [Rule.give] at h
  obtain ⟨rfl, rfl⟩ := h
  exact ⟨lit_inv h1, rfl⟩

theorem componentType_inv {s r : Str} {t : ComponentType} (h : componentType s = some (t, r)) : ∃ long, s = typeText t long ++ r := by
  unfold componentType at h
  rcases or_some h with h | ⟨_, h⟩
  · obtain ⟨rfl, rfl⟩ := typeWord_inv h; exact ⟨true, rfl⟩
  rcases or_some h with h | ⟨_, h⟩
  · obtain ⟨rfl, rfl⟩ := typeWord_inv h; exact ⟨true, rfl⟩
  rcases or_some h with h | ⟨_, h⟩
  · obtain ⟨rfl, rfl⟩ := typeWord_inv h; exact ⟨true, rfl⟩
  rcases or_some h with h | ⟨_, h⟩
  · obtain ⟨rfl, rfl⟩ := typeWord_inv h; exact ⟨true, rfl⟩
  rcases or_some h with h | ⟨_, h⟩
  · obtain ⟨rfl, rfl⟩ := typeWord_inv h; exact ⟨true, rfl⟩
  rcases or_some h with h | ⟨_, h⟩
  · obtain ⟨rfl, rfl⟩ := typeWord_inv h; exact ⟨true, rfl⟩
  rcases or_some h with h | ⟨_, h⟩
  · obtain ⟨rfl, rfl⟩ := typeWord_inv h; exact ⟨false, rfl⟩
  rcases or_some h with h | ⟨_, h⟩
  · obtain ⟨rfl, rfl⟩ := typeWord_inv h; exact ⟨false, rfl⟩
  rcases or_some h with h | ⟨_, h⟩
  · obtain ⟨rfl, rfl⟩ := typeWord_inv h; exact ⟨false, rfl⟩
  rcases or_some h with h | ⟨_, h⟩
  · obtain ⟨rfl, rfl⟩ := typeWord_inv h; exact ⟨false, rfl⟩
  rcases or_some h with h | ⟨_, h⟩
  · obtain ⟨rfl, rfl⟩ := typeWord_inv h; exact ⟨false, rfl⟩
  · obtain ⟨rfl, rfl⟩ := typeWord_inv h; exact ⟨false, rfl⟩

theorem ident_text (i : Ident) (r : Str) : i.text ++ r = typeText i.ty i.long ++ ':' :: (i.name ++ r) := by
  simp [Ident.text, typeText]

theorem identifier_ok (i : Ident) (h : i.Ok) {r : Str} (hr : Stops nameChar r) : identifier (i.text ++ r) = some ((i.ty, i.name), r) := by
  rw [ident_text]
  unfold identifier
  rw [then_eq (componentType_ok i.ty i.long _), then_eq (lit1 ':' _)]
  unfold componentName
  rw [then_eq (some1_ok (fun c hc => nameChar_iff.mpr (h.2 c hc)) h.1 hr)]
  rfl

theorem identifier_inv {s r : Str} {x : ComponentType × Str} (h : identifier s = some (x, r)) :
    ∃ i : Ident, i.Ok ∧ s = i.text ++ r ∧ x = (i.ty, i.name) ∧ Stops nameChar r := by
  unfold identifier at h
  obtain ⟨t, r1, h1, h⟩ := then_some.mp h
  obtain ⟨_, r2, h2, h⟩ := then_some.mp h
  obtain ⟨n, r3, h3, h⟩ := then_some.mp h
  simp [Rule.give] at h
  obtain ⟨rfl, rfl⟩ := h
  obtain ⟨long, rfl⟩ := componentType_inv h1
  have h2 := lit_inv h2
  obtain ⟨h3, h4, h5, h6⟩ := some1_inv h3
  refine ⟨⟨t, long, n⟩, ⟨h5, fun c hc => nameChar_iff.mp (h4 c hc)⟩, ?_, rfl, h6⟩
  rw [ident_text, h2, h3]; rfl

theorem ident_head (i : Ident) (r : Str) : ∃ c, (i.text ++ r).head? = some c ∧ c ∈ "flbjdr".toList := by
  obtain ⟨t, l, n⟩ := i
  cases t <;> cases l <;> exact ⟨_, rfl, by decide⟩

theorem identifier_none {s : Str} (h : s.head? = some '[') : identifier s = none := by
  cases hx : identifier s with
  | none => rfl
  | some x =>
    obtain ⟨i, r⟩ := x
    obtain ⟨i, _, hs, _⟩ := identifier_inv hx
    obtain ⟨c, h1, h2⟩ := ident_head i r
    rw [hs, h1] at h
    obtain rfl := Option.some.inj h
    simp at h2

theorem outPort_ok (p : OutputPort) (r : Str) : outPort (portText p ++ r) = some (p, r) := by
  cases p <;> rfl

theorem outPort_inv {s r : Str} {p : OutputPort} (h : outPort s = some (p, r)) : s = portText p ++ r := by
  unfold outPort at h
  obtain ⟨_, r1, h1, h⟩ := then_some.mp h
  obtain ⟨p', r2, h2, h⟩ := then_some.mp h
  obtain ⟨_, r3, h3, h⟩ := then_some.mp h
  simp [Rule.give] at h
  obtain ⟨rfl, rfl⟩ := h
  have h1 := lit_inv h1
  have h3 := lit_inv h3
  rw [h1]
  rcases or_some h2 with h2 | ⟨_, h2⟩
  · obtain ⟨_, r1, h4, h⟩ := then_some.mp h2
    simp [Rule.give] at h
    obtain ⟨rfl, rfl⟩ := h
    rw [lit_inv h4, h3]; rfl
  · rcases or_some h2 with h2 | ⟨_, h2⟩
    · obtain ⟨_, r1, h4, h⟩ := then_some.mp h2
      simp [Rule.give] at h
      obtain ⟨rfl, rfl⟩ := h
      rw [lit_inv h4, h3]; rfl
    · obtain ⟨_, r1, h4, h⟩ := then_some.mp h2
      simp [Rule.give] at h
      obtain ⟨rfl, rfl⟩ := h
      rw [lit_inv h4, h3]; rfl

theorem outPort_none {s : Str} (h : s.head? ≠ some '[') : outPort s = none := by
  cases hx : outPort s with
  | none => rfl
  | some x =>
    obtain ⟨p, r⟩ := x
    rw [outPort_inv hx] at h
    cases p <;> simp [portText] at h

/-- What comes after a pipe: a component. -/
def Begins (r : Str) : Prop := ∃ c, r.head? = some c ∧ c ∈ "[flbjdr".toList

theorem begins_ident (i : Ident) (r : Str) : Begins (i.text ++ r) := by
  obtain ⟨c, h1, h2⟩ := ident_head i r
  exact ⟨c, h1, List.mem_cons_of_mem _ h2⟩

theorem begins_comp (p : Option Prio) (i : Ident) (r : Str) : Begins (optText Prio.text p ++ (i.text ++ r)) := by
  cases p with
  | none => exact begins_ident i r
  | some p => exact ⟨'[', by simp [optText, Prio.text], by decide⟩

theorem spaces_ok (n : Nat) {r : Str} (h : r.head? ≠ some ' ') : (many (· = ' ') (List.replicate n ' ' ++ r)) = (List.replicate n ' ', r) := by
  apply many_ok
  · intro c hc; simp [List.eq_of_mem_replicate hc]
  · intro c hc; simp; intro h'; rw [hc, h'] at h; exact h rfl

theorem spaces_inv (s : Str) : ∃ n, s = List.replicate n ' ' ++ (many (· = ' ') s).2 := by
  obtain ⟨h1, h2, _⟩ := many_inv (· = ' ') s
  refine ⟨(many (· = ' ') s).1.length, ?_⟩
  have : (many (· = ' ') s).1 = List.replicate (many (· = ' ') s).1.length ' ' :=
    List.eq_replicate_iff.mpr ⟨rfl, fun c hc => by simpa using h2 c hc⟩
  rw [← this]; exact h1

theorem pipe_ok (p : Pipe) {r : Str} (h : Begins r) : pipe (p.text ++ r) = some (p.meaning, r) := by
  obtain ⟨n, k, m⟩ := p
  obtain ⟨c, h1, h2⟩ := h
  have hc : c ≠ ' ' := by rintro rfl; simp at h2
  have hsp : (many (· = ' ') (List.replicate m ' ' ++ r)).2 = r := by
    rw [spaces_ok m (by rw [h1]; simpa using hc)]
  have e : (Pipe.text ⟨n, k, m⟩ ++ r) = List.replicate n ' ' ++ ('|' :: (optText (fun b => pipeLetter b ++ "|".toList) k ++ (List.replicate m ' ' ++ r))) := by
    simp [Pipe.text]
  unfold pipe
  rw [e, spaces_ok n (by simp)]
  simp only
  cases k with
  | some b =>
    have : (pipeType.or pipePlain) ('|' :: (optText (fun b => pipeLetter b ++ "|".toList) (some b) ++ (List.replicate m ' ' ++ r)))
        = some (b, List.replicate m ' ' ++ r) := by
      apply or_left
      cases b <;> rfl
    rw [then_eq this, hsp]; rfl
  | none =>
    have h3 : pipeTypeCode (List.replicate m ' ' ++ r) = none := by
      cases m with
      | succ m => rfl
      | zero =>
        cases r with
        | nil => simp at h1
        | cons d r =>
          simp at h1
          subst h1
          simp at h2
          rcases h2 with rfl | rfl | rfl | rfl | rfl | rfl | rfl <;> rfl
    have : (pipeType.or pipePlain) ('|' :: (optText (fun b => pipeLetter b ++ "|".toList) none ++ (List.replicate m ' ' ++ r)))
        = some (.terminate, List.replicate m ' ' ++ r) := by
      rw [or_right]
      · rfl
      · unfold pipeType
        rw [then_eq (lit1 '|' _)]
        exact then_none h3
    rw [then_eq this, hsp]; rfl

theorem pipe_inv {s r : Str} {b : Breakable} (h : pipe s = some (b, r)) : ∃ p : Pipe, s = p.text ++ r ∧ b = p.meaning := by
  unfold pipe at h
  obtain ⟨n, hn⟩ := spaces_inv s
  obtain ⟨b', r1, h1, h2⟩ := then_some.mp h
  simp at h2
  obtain ⟨rfl, rfl⟩ := h2
  obtain ⟨m, hm⟩ := spaces_inv r1
  generalize (many (fun x => decide (x = ' ')) s).2 = s' at *
  generalize (many (fun x => decide (x = ' ')) r1).2 = r at *
  subst hn hm
  rcases or_some h1 with h1 | ⟨_, h1⟩
  · unfold pipeType at h1
    obtain ⟨_, r2, h2, h1⟩ := then_some.mp h1
    obtain ⟨b2, r3, h3, h1⟩ := then_some.mp h1
    obtain ⟨_, r4, h4, h1⟩ := then_some.mp h1
    simp [Rule.give] at h1
    obtain ⟨rfl, rfl⟩ := h1
    have h2 := lit_inv h2
    have h4 := lit_inv h4
    refine ⟨⟨n, some b2, m⟩, ?_, rfl⟩
    have h5 : r2 = pipeLetter b2 ++ r3 := by
      unfold pipeTypeCode at h3
      rcases or_some h3 with h3 | ⟨_, h3⟩
      · obtain ⟨_, r1, h6, h⟩ := then_some.mp h3
        simp [Rule.give] at h
        obtain ⟨rfl, rfl⟩ := h
        rw [lit_inv h6]; rfl
      · rcases or_some h3 with h3 | ⟨_, h3⟩
        · obtain ⟨_, r1, h6, h⟩ := then_some.mp h3
          simp [Rule.give] at h
          obtain ⟨rfl, rfl⟩ := h
          rw [lit_inv h6]; rfl
        · obtain ⟨_, r1, h6, h⟩ := then_some.mp h3
          simp [Rule.give] at h
          obtain ⟨rfl, rfl⟩ := h
          rw [lit_inv h6]; rfl
    simp [Pipe.text, optText, h2, h4, h5]
  · unfold pipePlain at h1
    obtain ⟨_, r2, h2, h1⟩ := then_some.mp h1
    simp [Rule.give] at h1
    obtain ⟨rfl, rfl⟩ := h1
    have h2 := lit_inv h2
    exact ⟨⟨n, none, m⟩, by simp [Pipe.text, optText, h2], rfl⟩

theorem pipe_head (p : Pipe) (r : Str) : (p.text ++ r).head? = some ' ' ∨ (p.text ++ r).head? = some '|' := by
  obtain ⟨n, k, m⟩ := p
  cases n with
  | zero => right; simp [Pipe.text]
  | succ n => left; simp [Pipe.text, List.replicate_succ]

theorem pipe_stops (p : Pipe) (r : Str) : Stops nameChar (p.text ++ r) := by
  intro c hc
  rcases pipe_head p r with h | h
  · rw [h] at hc; obtain rfl := Option.some.inj hc; decide
  · rw [h] at hc; obtain rfl := Option.some.inj hc; decide

theorem pipe_open (p : Pipe) (r : Str) : (p.text ++ r).head? ≠ some '[' := by
  rcases pipe_head p r with h | h <;> rw [h] <;> decide

theorem stops_port (p : OutputPort) (r : Str) : Stops nameChar (portText p ++ r) := by
  intro c hc
  cases p <;> (simp [portText] at hc; subst hc; decide)

theorem ident_open (i : Ident) (r : Str) : (i.text ++ r).head? ≠ some '[' := by
  obtain ⟨c, h1, h2⟩ := ident_head i r
  rw [h1]
  rintro h
  obtain rfl := Option.some.inj h
  simp at h2

/-- What a middle means before the pipe in front of it is taken into account. -/
def Syntax.Middle.plain (m : Middle) : Connection := .middle m.id.ty m.id.name ⟨.terminate, prioMeaning m.prio⟩ (m.port.getD .out) none

theorem middle_ok {p : Option Prio} (hp : prioOk p) {i : Ident} (hi : i.Ok) (o : Option OutputPort) {r : Str}
    (h1 : Stops nameChar r) (h2 : r.head? ≠ some '[') :
    componentMiddle (optText Prio.text p ++ (i.text ++ (optText portText o ++ r))) =
      some (.middle i.ty i.name ⟨.terminate, prioMeaning p⟩ (o.getD .out) none, r) := by
  unfold componentMiddle
  cases p with
  | some p =>
    simp only [optText]
    cases o with
    | some o =>
      apply or_left
      rw [then_eq (inPort_ok p hp _), then_eq (identifier_ok i hi (stops_port o r)), then_eq (outPort_ok o r)]; rfl
    | none =>
      simp only [List.nil_append]
      rw [or_right, or_right]
      · apply or_left
        rw [then_eq (inPort_ok p hp _), then_eq (identifier_ok i hi h1)]; rfl
      · exact then_none (identifier_none (by simp [optText, Prio.text]))
      · rw [then_eq (inPort_ok p hp _)]
        rw [then_eq (identifier_ok i hi h1)]
        exact then_none (outPort_none h2)
  | none =>
    simp only [optText, List.nil_append]
    cases o with
    | some o =>
      rw [or_right]
      · apply or_left
        rw [then_eq (identifier_ok i hi (stops_port o r)), then_eq (outPort_ok o r)]; rfl
      · exact then_none (inPort_none (ident_open i _))
    | none =>
      simp only [optText, List.nil_append]
      rw [or_right, or_right, or_right]
      · rw [then_eq (identifier_ok i hi h1)]; rfl
      · exact then_none (inPort_none (ident_open i _))
      · rw [then_eq (identifier_ok i hi h1)]; exact then_none (outPort_none h2)
      · exact then_none (inPort_none (ident_open i _))

theorem middle_inv {s r : Str} {x : Connection} (h : componentMiddle s = some (x, r)) :
    ∃ (p : Option Prio) (i : Ident) (o : Option OutputPort), prioOk p ∧ i.Ok ∧ s = optText Prio.text p ++ (i.text ++ (optText portText o ++ r)) ∧
      x = .middle i.ty i.name ⟨.terminate, prioMeaning p⟩ (o.getD .out) none := by
  unfold componentMiddle at h
  rcases or_some h with h | ⟨_, h⟩
  · obtain ⟨l, r1, h1, h⟩ := then_some.mp h
    obtain ⟨i, r2, h2, h⟩ := then_some.mp h
    obtain ⟨o, r3, h3, h⟩ := then_some.mp h
    simp [Rule.give] at h
    obtain ⟨rfl, rfl⟩ := h
    obtain ⟨p, hp, rfl, rfl⟩ := inPort_inv h1
    obtain ⟨i, hi, rfl, rfl, _⟩ := identifier_inv h2
    exact ⟨some p, i, some o, hp, hi, by rw [outPort_inv h3]; rfl, rfl⟩
  rcases or_some h with h | ⟨_, h⟩
  · obtain ⟨i, r2, h2, h⟩ := then_some.mp h
    obtain ⟨o, r3, h3, h⟩ := then_some.mp h
    simp [Rule.give] at h
    obtain ⟨rfl, rfl⟩ := h
    obtain ⟨i, hi, rfl, rfl, _⟩ := identifier_inv h2
    exact ⟨none, i, some o, trivial, hi, by rw [outPort_inv h3]; rfl, rfl⟩
  rcases or_some h with h | ⟨_, h⟩
  · obtain ⟨l, r1, h1, h⟩ := then_some.mp h
    obtain ⟨i, r2, h2, h⟩ := then_some.mp h
    simp [Rule.give] at h
    obtain ⟨rfl, rfl⟩ := h
    obtain ⟨p, hp, rfl, rfl⟩ := inPort_inv h1
    obtain ⟨i, hi, rfl, rfl, _⟩ := identifier_inv h2
    exact ⟨some p, i, none, hp, hi, rfl, rfl⟩
  · obtain ⟨i, r2, h2, h⟩ := then_some.mp h
    simp [Rule.give] at h
    obtain ⟨rfl, rfl⟩ := h
    obtain ⟨i, hi, rfl, rfl, _⟩ := identifier_inv h2
    exact ⟨none, i, none, trivial, hi, rfl, rfl⟩

theorem start_ok {i : Ident} (hi : i.Ok) (o : Option OutputPort) {r : Str} (h1 : Stops nameChar r) (h2 : r.head? ≠ some '[') :
    componentStart (i.text ++ (optText portText o ++ r)) = some (.start i.ty i.name (o.getD .out) none, r) := by
  unfold componentStart
  cases o with
  | some o =>
    simp only [optText]
    apply or_left
    rw [then_eq (identifier_ok i hi (stops_port o r)), then_eq (outPort_ok o r)]; rfl
  | none =>
    simp only [optText, List.nil_append]
    rw [or_right]
    · rw [then_eq (identifier_ok i hi h1)]; rfl
    · rw [then_eq (identifier_ok i hi h1)]; exact then_none (outPort_none h2)

theorem start_inv {s r : Str} {x : Connection} (h : componentStart s = some (x, r)) :
    ∃ (i : Ident) (o : Option OutputPort), i.Ok ∧ s = i.text ++ (optText portText o ++ r) ∧ x = .start i.ty i.name (o.getD .out) none := by
  unfold componentStart at h
  rcases or_some h with h | ⟨_, h⟩
  · obtain ⟨i, r2, h2, h⟩ := then_some.mp h
    obtain ⟨o, r3, h3, h⟩ := then_some.mp h
    simp [Rule.give] at h
    obtain ⟨rfl, rfl⟩ := h
    obtain ⟨i, hi, rfl, rfl, _⟩ := identifier_inv h2
    exact ⟨i, some o, hi, by rw [outPort_inv h3]; rfl, rfl⟩
  · obtain ⟨i, r2, h2, h⟩ := then_some.mp h
    simp [Rule.give] at h
    obtain ⟨rfl, rfl⟩ := h
    obtain ⟨i, hi, rfl, rfl, _⟩ := identifier_inv h2
    exact ⟨i, none, hi, rfl, rfl⟩

theorem end_ok {p : Option Prio} (hp : prioOk p) {i : Ident} (hi : i.Ok) {r : Str} (h1 : Stops nameChar r) :
    componentEnd (optText Prio.text p ++ (i.text ++ r)) = some (.end i.ty i.name ⟨.terminate, prioMeaning p⟩ none, r) := by
  unfold componentEnd
  cases p with
  | some p =>
    simp only [optText]
    apply or_left
    rw [then_eq (inPort_ok p hp _), then_eq (identifier_ok i hi h1)]; rfl
  | none =>
    simp only [optText, List.nil_append]
    rw [or_right]
    · rw [then_eq (identifier_ok i hi h1)]; rfl
    · exact then_none (inPort_none (ident_open i _))

theorem end_inv {s r : Str} {x : Connection} (h : componentEnd s = some (x, r)) :
    ∃ (p : Option Prio) (i : Ident), prioOk p ∧ i.Ok ∧ s = optText Prio.text p ++ (i.text ++ r) ∧
      x = .end i.ty i.name ⟨.terminate, prioMeaning p⟩ none := by
  unfold componentEnd at h
  rcases or_some h with h | ⟨_, h⟩
  · obtain ⟨l, r1, h1, h⟩ := then_some.mp h
    obtain ⟨i, r2, h2, h⟩ := then_some.mp h
    simp [Rule.give] at h
    obtain ⟨rfl, rfl⟩ := h
    obtain ⟨p, hp, rfl, rfl⟩ := inPort_inv h1
    obtain ⟨i, hi, rfl, rfl, _⟩ := identifier_inv h2
    exact ⟨some p, i, hp, hi, rfl, rfl⟩
  · obtain ⟨i, r2, h2, h⟩ := then_some.mp h
    simp [Rule.give] at h
    obtain ⟨rfl, rfl⟩ := h
    obtain ⟨i, hi, rfl, rfl, _⟩ := identifier_inv h2
    exact ⟨none, i, trivial, hi, rfl, rfl⟩

theorem lineMiddle_ok (m : Middle) (h1 : m.id.Ok) (h2 : prioOk m.prio) {r : Str} (h : Begins r) :
    lineMiddle (m.text ++ r) = some ([.connection m.plain, .pipe m.pipe.meaning], r) := by
  have e : m.text ++ r = optText Prio.text m.prio ++ (m.id.text ++ (optText portText m.port ++ (m.pipe.text ++ r))) := by simp [Middle.text]
  rw [e]
  unfold lineMiddle
  rw [then_eq (middle_ok h2 h1 m.port (pipe_stops m.pipe r) (pipe_open m.pipe r)), then_eq (pipe_ok m.pipe h)]
  rfl

theorem lineMiddle_inv {s r : Str} {l : List ParserConnection} (h : lineMiddle s = some (l, r)) :
    ∃ m : Middle, m.id.Ok ∧ prioOk m.prio ∧ s = m.text ++ r ∧ l = [.connection m.plain, .pipe m.pipe.meaning] := by
  unfold lineMiddle at h
  obtain ⟨x, r1, h1, h⟩ := then_some.mp h
  obtain ⟨b, r2, h2, h⟩ := then_some.mp h
  simp [Rule.give] at h
  obtain ⟨rfl, rfl⟩ := h
  obtain ⟨p, i, o, hp, hi, rfl, rfl⟩ := middle_inv h1
  obtain ⟨pp, rfl, rfl⟩ := pipe_inv h2
  exact ⟨⟨p, i, o, pp⟩, hi, hp, by simp [Middle.text], rfl⟩

/-- What the rules make of the middles. -/
def middlesPlain : List Middle → List ParserConnection
  | [] => []
  | m :: ms => .connection m.plain :: .pipe m.pipe.meaning :: middlesPlain ms

theorem middles_inv {n : Nat} {s : Str} : ∃ ms : List Middle, (∀ m ∈ ms, m.id.Ok ∧ prioOk m.prio) ∧
    s = middlesText ms ++ (lineMiddles n s).2 ∧ (lineMiddles n s).1 = middlesPlain ms := by
  induction n generalizing s with
  | zero => exact ⟨[], by simp, rfl, rfl⟩
  | succ n ih =>
    unfold lineMiddles
    cases h : lineMiddle s with
    | none => exact ⟨[], by simp, rfl, rfl⟩
    | some x =>
      obtain ⟨l, r⟩ := x
      obtain ⟨m, h1, h2, h3, rfl⟩ := lineMiddle_inv h
      obtain ⟨ms, h4, h5, h6⟩ := ih (s := r)
      refine ⟨m :: ms, by simpa [h1, h2] using h4, ?_, ?_⟩
      · simp only [middlesText, List.append_assoc]; rw [← h5]; exact h3
      · simp only [middlesPlain]; rw [h6]; rfl

theorem text_bar (m : Middle) : '|' ∈ m.text := by
  simp [Middle.text, Pipe.text]

theorem ident_bar {i : Ident} (h : i.Ok) : '|' ∉ i.text := by
  obtain ⟨t, l, n⟩ := i
  have h1 : '|' ∉ typeText t l := by cases t <;> cases l <;> decide
  have h2 : '|' ∉ n := fun hm => by
    have := h.2 _ hm
    revert this; decide +kernel
  have := ident_text ⟨t, l, n⟩ []
  simp only [List.append_nil] at this
  rw [this]
  simp [h1, h2]

theorem prio_bar {p : Option Prio} (h : prioOk p) : '|' ∉ optText Prio.text p := by
  cases p with
  | none => simp [optText]
  | some p =>
    have h2 : '|' ∉ p.ds := fun hm => by
      have := h _ hm
      revert this; decide +kernel
    obtain ⟨m, ds⟩ := p
    cases m <;> simpa [optText, Prio.text] using h2

theorem end_no_middle {p : Option Prio} (hp : prioOk p) {i : Ident} (hi : i.Ok) : lineMiddle (optText Prio.text p ++ i.text) = none := by
  cases hx : lineMiddle (optText Prio.text p ++ i.text) with
  | none => rfl
  | some x =>
    exfalso
    obtain ⟨l, r⟩ := x
    obtain ⟨m, _, _, h, _⟩ := lineMiddle_inv hx
    have h1 : '|' ∈ optText Prio.text p ++ i.text := by rw [h]; simp [text_bar m]
    rw [List.mem_append] at h1
    rcases h1 with h1 | h1
    · exact prio_bar hp h1
    · exact ident_bar hi h1

theorem middle_text_pos (m : Middle) : 0 < m.text.length := List.length_pos_of_mem (text_bar m)

theorem middles_begin (ms : List Middle) {r : Str} (h : Begins r) : Begins (middlesText ms ++ r) := by
  cases ms with
  | nil => exact h
  | cons m ms =>
    have := begins_comp m.prio m.id (optText portText m.port ++ m.pipe.text ++ (middlesText ms ++ r))
    simpa [middlesText, Middle.text] using this

theorem middles_ok {ms : List Middle} (h : ∀ m ∈ ms, m.id.Ok ∧ prioOk m.prio) {r : Str} (hb : Begins r) (hr : lineMiddle r = none)
    {n : Nat} (hn : ms.length ≤ n) : lineMiddles n (middlesText ms ++ r) = (middlesPlain ms, r) := by
  induction ms generalizing n with
  | nil =>
    cases n with
    | zero => rfl
    | succ n => simp [lineMiddles, middlesText, middlesPlain, hr]
  | cons m ms ih =>
    cases n with
    | zero => simp at hn
    | succ n =>
      have ih := ih (fun m hm => h m (by simp [hm])) (n := n) (by simpa using hn)
      obtain ⟨h1, h2⟩ := h m (by simp)
      unfold lineMiddles
      simp only [middlesText, List.append_assoc]
      rw [lineMiddle_ok m h1 h2 (middles_begin ms hb)]
      simp only [ih]
      rfl

/-- The fuel of `lineMiddles` is enough: it stops because there is no further middle. -/
theorem lineMiddles_fuel {n : Nat} {s : Str} (h : s.length ≤ n) : lineMiddle (lineMiddles n s).2 = none := by
  induction n generalizing s with
  | zero =>
    obtain rfl : s = [] := List.length_eq_zero_iff.mp (by omega)
    rfl
  | succ n ih =>
    unfold lineMiddles
    cases hx : lineMiddle s with
    | none => exact hx
    | some x =>
      obtain ⟨l, r⟩ := x
      obtain ⟨m, _, _, h3, _⟩ := lineMiddle_inv hx
      simp only
      apply ih
      have := congrArg List.length h3
      have := middle_text_pos m
      simp at *
      omega

theorem middles_length (ms : List Middle) : ms.length ≤ (middlesText ms).length := by
  induction ms with
  | nil => simp
  | cons m ms ih => simp only [middlesText, List.length_cons, List.length_append]; have := middle_text_pos m; omega

/-! ### The pipes -/

theorem applyPipes_acc (l : List ParserConnection) (b : Option Breakable) (acc : List Connection) :
    applyPipes l b acc = (applyPipes l b []).map (acc ++ ·) := by
  induction l generalizing b acc with
  | nil => simp [applyPipes]
  | cons x l ih =>
    cases x with
    | pipe b' => simp only [applyPipes]; exact ih _ _
    | connection x =>
      cases b with
      | none =>
        simp only [applyPipes, List.nil_append]
        rw [ih none (acc ++ [x]), ih none [x]]
        cases applyPipes l none [] <;> simp
      | some b =>
        simp only [applyPipes]
        cases x.convertToInputBreakable b with
        | none => rfl
        | some y =>
          simp only [List.nil_append]
          rw [ih none (acc ++ [y]), ih none [y]]
          cases applyPipes l none [] <;> simp

theorem pipes_rest (b : Breakable) (prio : Option Prio) (last : Ident) (ms : List Middle) :
    applyPipes (middlesPlain ms ++ [.connection (.end last.ty last.name ⟨.terminate, prioMeaning prio⟩ none)]) (some b) [] =
      some (restMeaning b prio last ms) := by
  induction ms generalizing b with
  | nil => rfl
  | cons m ms ih =>
    simp only [middlesPlain, List.cons_append, applyPipes, Middle.plain, Connection.convertToInputBreakable, List.nil_append]
    rw [applyPipes_acc, ih]
    rfl

/-! ### Whole strings -/

/-- What the grammar makes of a described string. -/
def Syntax.Desc.plain (d : Desc) : List ParserConnection :=
  .connection (.start d.first.ty d.first.name (d.port.getD .out) none) :: .pipe d.pipe.meaning :: middlesPlain d.middles ++
    [.connection (.end d.last.ty d.last.name ⟨.terminate, prioMeaning d.prio⟩ none)]

theorem set_ok (d : Desc) (h : d.Ok) : connectionSet d.text = some (d.plain, []) := by
  have e : d.text = d.first.text ++ (optText portText d.port ++ (d.pipe.text ++ (middlesText d.middles ++ (optText Prio.text d.prio ++ d.last.text)))) := by
    simp [Desc.text]
  have hb : Begins (optText Prio.text d.prio ++ d.last.text) := by
    simpa using begins_comp d.prio d.last []
  apply or_left
  unfold connectionSetHas
  rw [e, then_eq (start_ok h.first d.port (pipe_stops _ _) (pipe_open _ _)), then_eq (pipe_ok d.pipe (middles_begin _ hb))]
  have hm := middles_ok h.middles hb (end_no_middle h.prio h.last)
    (n := (middlesText d.middles ++ (optText Prio.text d.prio ++ d.last.text)).length)
    (by have := middles_length d.middles; simp only [List.length_append]; omega)
  simp only [hm]
  have he := end_ok h.prio h.last (r := []) (by simp [Stops])
  rw [List.append_nil] at he
  rw [then_eq he]
  rfl

theorem set_inv {s : Str} {l : List ParserConnection} (h : connectionSet s = some (l, [])) :
    (s = [] ∧ l = []) ∨ ∃ d : Desc, d.Ok ∧ s = d.text ∧ l = d.plain := by
  rcases or_some h with h | ⟨_, h⟩
  · right
    unfold connectionSetHas at h
    obtain ⟨x, r1, h1, h⟩ := then_some.mp h
    obtain ⟨b, r2, h2, h⟩ := then_some.mp h
    obtain ⟨first, port, hf, rfl, rfl⟩ := start_inv h1
    obtain ⟨p, rfl, rfl⟩ := pipe_inv h2
    obtain ⟨ms, hms, h3, h4⟩ := middles_inv (n := r2.length) (s := r2)
    generalize lineMiddles r2.length r2 = m at *
    obtain ⟨m, r3⟩ := m
    simp only at h h3 h4
    obtain ⟨e, r4, h5, h⟩ := then_some.mp h
    simp [Rule.give] at h
    obtain ⟨rfl, rfl⟩ := h
    obtain ⟨prio, last, hp, hl, rfl, rfl⟩ := end_inv h5
    subst h3 h4
    exact ⟨⟨first, port, p, ms, prio, last⟩, ⟨hf, hms, hp, hl⟩, by simp [Desc.text], rfl⟩
  · simp [Rule.give] at h
    exact Or.inl ⟨h.2, h.1⟩

theorem plain_pipes (d : Desc) : applyPipes d.plain none [] = some d.meaning := by
  unfold Desc.plain Desc.meaning
  simp only [List.cons_append, applyPipes, List.nil_append]
  rw [applyPipes_acc, pipes_rest]
  rfl

end Verif
