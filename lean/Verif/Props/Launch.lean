import Verif.Model.Launch
import Verif.Lemmas.Keys
import Verif.Lemmas.Only
import Verif.Lemmas.Replay
import Verif.Lemmas.Edge
import Verif.Spec.Syntax
import Verif.Spec.Chan
/-!
# C51, C52: the exit status of a program
-/
namespace Verif
open Syntax

/-! ## Specification -/

/-- Decimal notation of a natural number: digits, without a leading zero, that denote it. -/
def DecimalNat (n : Nat) (s : Str) : Prop := s ≠ [] ∧ (∀ c ∈ s, c ∈ digits) ∧ (s.head? = some '0' → s = ['0']) ∧ number s = n

/-- Decimal notation of an integer. -/
def Decimal (n : Int) (s : Str) : Prop :=
  if 0 ≤ n then DecimalNat n.toNat s else ∃ t, s = '-' :: t ∧ DecimalNat (-n).toNat t

/-- The text of a known exit status, in bytes. -/
def ExitText : StatusRes → Bytes → Prop
  | .err, _ => False
  | .code n, m => ∃ s, Decimal n s ∧ m = s.map fun c => c.toNat.toUInt8
  | .killed, m => m = [95]

/-- The events on a channel. -/
def eventsOn (k : Kind) (c : Nat) (tr : List Ev) : List Ev := tr.filter fun e => e.q.on = some (k, c)

/-- The answers to asking for the exit status. -/
def statuses (tr : List Ev) : List StatusRes := tr.filterMap fun | ⟨.status, s⟩ => some s | _ => none

/-- The exit port has a channel of its own. -/
def LaunchEnds.Apart (l : LaunchEnds) (p : PushEnd) : Prop :=
  (∀ q, l.stdin = some q → q.chan ≠ p.chan) ∧ (∀ q, l.stdout = some q → q.chan ≠ p.chan) ∧ ∀ q, l.stderr = some q → q.chan ≠ p.chan

/-! ## Proofs -/

theorem natStr_decimal (n : Nat) : DecimalNat n (natStr n) := by
  rcases Nat.eq_zero_or_pos n with rfl | h
  · have e : natStr 0 = ['0'] := by unfold natStr; decide +kernel
    rw [e]
    exact ⟨by simp, by decide, fun _ => rfl, by decide +kernel⟩
  · obtain ⟨h1, h2⟩ := natStr_head n h
    exact ⟨h2, natStr_digits n, fun e => absurd e h1, number_natStr n⟩

theorem codeText_decimal (n : Int) : Decimal n (codeText n) := by
  unfold Decimal codeText
  by_cases h : 0 ≤ n
  · rw [if_pos h, if_neg (by omega), show n.toNat = n.natAbs by omega]
    exact natStr_decimal _
  · rw [if_neg h, if_pos (by omega), show (-n).toNat = n.natAbs by omega]
    exact ⟨_, rfl, natStr_decimal _⟩

theorem exitMessage_text {s : StatusRes} {m : Bytes} (h : exitMessage s = some m) : ExitText s m := by
  cases s with
  | err => simp [exitMessage] at h
  | code n =>
    simp [exitMessage] at h
    exact ⟨codeText n, codeText_decimal n, h.symm⟩
  | killed =>
    simp [exitMessage, asciiBytes] at h
    exact h.symm

/-- The ways sending the exit status can go. -/
inductive SentExit (spy : Option Nat) (p : PushEnd) (m : Bytes) : List Ev → Except MErr Unit → Prop
  | refused : SentExit spy p m [⟨.send .data p.chan m, false⟩] (.error (.send ⟨p.src, some p.port, p.dst, p.breakable⟩ m))
  | plain : spy = none → SentExit spy p m [⟨.send .data p.chan m, true⟩, ⟨.close .data p.chan, ()⟩] (.ok ())
  | unspied {c} : spy = some c → SentExit spy p m [⟨.send .data p.chan m, true⟩, ⟨.send .spy c ⟨p.src, p.dst, p.port, .data m⟩, false⟩]
      (.error (.spyWrite ⟨p.src, p.dst, p.port, .data m⟩))
  | spied {c} : spy = some c → SentExit spy p m
      [⟨.send .data p.chan m, true⟩, ⟨.send .spy c ⟨p.src, p.dst, p.port, .data m⟩, true⟩, ⟨.close .data p.chan, ()⟩] (.ok ())

theorem offerExit_runs {p m t} {r : Except MErr Unit} (h : MRuns (offerExit p m) t r) :
    (t = [⟨.send .data p.chan m, false⟩] ∧ r = .error (.send ⟨p.src, some p.port, p.dst, p.breakable⟩ m)) ∨
    (t = [⟨.send .data p.chan m, true⟩] ∧ r = .ok ()) := by
  unfold offerExit at h
  rw [mruns_bind] at h
  rcases h with ⟨e, rfl, h⟩ | ⟨t1, a, t2, rfl, h1, h2⟩
  · rw [mruns_ask] at h; obtain ⟨v, _, h⟩ := h; cases h
  · rw [mruns_ask] at h1
    obtain ⟨v, rfl, e⟩ := h1
    injection e with e; subst e
    cases a with
    | false => simp at h2; obtain ⟨rfl, rfl⟩ := h2; exact Or.inl ⟨rfl, rfl⟩
    | true => simp at h2; obtain ⟨rfl, rfl⟩ := h2; exact Or.inr ⟨rfl, rfl⟩

theorem exitSpy_runs {spy p m t} {r : Except MErr Unit} (h : MRuns (exitSpy spy p m) t r) :
    (spy = none ∧ t = [] ∧ r = .ok ()) ∨
    (∃ c, spy = some c ∧ t = [⟨.send .spy c ⟨p.src, p.dst, p.port, .data m⟩, false⟩] ∧ r = .error (.spyWrite ⟨p.src, p.dst, p.port, .data m⟩)) ∨
    (∃ c, spy = some c ∧ t = [⟨.send .spy c ⟨p.src, p.dst, p.port, .data m⟩, true⟩] ∧ r = .ok ()) := by
  cases spy with
  | none => obtain ⟨rfl, rfl⟩ := h; exact Or.inl ⟨rfl, rfl, rfl⟩
  | some c =>
    right
    simp only [exitSpy] at h
    rw [mruns_bind] at h
    rcases h with ⟨e, rfl, h⟩ | ⟨t1, a, t2, rfl, h1, h2⟩
    · rw [mruns_ask] at h; obtain ⟨v, _, h⟩ := h; cases h
    · rw [mruns_ask] at h1
      obtain ⟨v, rfl, e⟩ := h1
      injection e with e; subst e
      cases a with
      | false => simp at h2; obtain ⟨rfl, rfl⟩ := h2; exact Or.inl ⟨c, rfl, rfl, rfl⟩
      | true => simp at h2; obtain ⟨rfl, rfl⟩ := h2; exact Or.inr ⟨c, rfl, rfl, rfl⟩

theorem sendExit_runs {spy p m t} {r : Except MErr Unit} (h : MRuns (sendExit spy p m) t r) : SentExit spy p m t r := by
  unfold sendExit at h
  rw [mruns_bind] at h
  rcases h with ⟨e, rfl, h⟩ | ⟨t1, a, t2, rfl, h1, h2⟩
  · rcases offerExit_runs h with ⟨rfl, e⟩ | ⟨rfl, e⟩
    · injection e with e; subst e; exact .refused
    · cases e
  · rcases offerExit_runs h1 with ⟨rfl, e⟩ | ⟨rfl, e⟩
    · cases e
    rw [mruns_bind] at h2
    rcases h2 with ⟨e, rfl, h⟩ | ⟨t3, a, t4, rfl, h3, h4⟩
    · rcases exitSpy_runs h with ⟨_, _, e⟩ | ⟨c, hc, rfl, e⟩ | ⟨c, _, _, e⟩
      · cases e
      · injection e with e; subst e; exact .unspied hc
      · cases e
    · rw [mruns_ask] at h4
      obtain ⟨v, rfl, rfl⟩ := h4
      rcases exitSpy_runs h3 with ⟨hs, rfl, _⟩ | ⟨c, _, _, e⟩ | ⟨c, hs, rfl, _⟩
      · exact .plain hs
      · cases e
      · exact .spied hs

/-- Asking in vain, a number of times. -/
def inVain (k : Nat) : List Ev := (List.replicate k [(⟨.status, .err⟩ : Ev), ⟨.sleep 100, ()⟩]).flatten

theorem exitBody_runs {spy p t x} (h : (exitBody spy p ()).Runs t x) :
    (t = [⟨.status, .err⟩, ⟨.sleep 100, ()⟩] ∧ x = .inl ()) ∨
    ∃ s m rest r, t = ⟨.status, s⟩ :: rest ∧ exitMessage s = some m ∧ SentExit spy p m rest r ∧ x = .inr r := by
  unfold exitBody at h
  rw [Prog.runs_bind] at h
  obtain ⟨t1, s, t2, rfl, h1, h2⟩ := h
  rw [Prog.runs_req] at h1
  subst h1
  cases hm : exitMessage s with
  | none =>
    cases s with
    | err =>
      rw [hm] at h2
      simp only [exitStep] at h2
      rw [Prog.runs_bind] at h2
      obtain ⟨t3, u, t4, rfl, h3, h4⟩ := h2
      rw [Prog.runs_req] at h3
      subst h3
      obtain ⟨rfl, rfl⟩ := h4
      exact Or.inl ⟨rfl, rfl⟩
    | code n => simp [exitMessage] at hm
    | killed => simp [exitMessage] at hm
  | some m =>
    rw [hm] at h2
    simp only [exitStep] at h2
    rw [Prog.runs_bind] at h2
    obtain ⟨t3, u, t4, rfl, h3, h4⟩ := h2
    obtain ⟨rfl, rfl⟩ := h4
    exact Or.inr ⟨s, m, t3, u, by simp, hm, sendExit_runs h3, rfl⟩

theorem exit_runs {spy p te x} (h : LoopRuns (exitBody spy p) () te x) :
    ∃ k s m rest, te = inVain k ++ ⟨.status, s⟩ :: rest ∧ exitMessage s = some m ∧ SentExit spy p m rest x := by
  generalize hu : () = u at h
  induction h with
  | stop h =>
    rcases exitBody_runs h with ⟨_, e⟩ | ⟨s, m, rest, r, rfl, hm, hs, e⟩
    · cases e
    · injection e with e; subst e
      exact ⟨0, s, m, rest, rfl, hm, hs⟩
  | next h _ ih =>
    obtain ⟨k, s, m, rest, rfl, hm, hs⟩ := ih rfl
    rcases exitBody_runs h with ⟨rfl, _⟩ | ⟨_, _, _, _, _, _, _, e⟩
    · exact ⟨k + 1, s, m, rest, by simp [inVain, List.replicate_succ], hm, hs⟩
    · cases e

theorem refused_runs (spy : Option Nat) (p : PushEnd) {s : StatusRes} {m : Bytes} (hm : exitMessage s = some m) :
    LoopRuns (exitBody spy p) () [⟨.status, s⟩, ⟨.send .data p.chan m, false⟩] (.error (.send ⟨p.src, some p.port, p.dst, p.breakable⟩ m)) := by
  refine .stop ?_
  unfold exitBody
  rw [Prog.runs_bind]
  refine ⟨[_], s, [⟨.send .data p.chan m, false⟩], rfl, (Prog.runs_req _ _ _).mpr rfl, ?_⟩
  rw [hm]
  simp only [exitStep]
  rw [Prog.runs_bind]
  refine ⟨_, _, [], (List.append_nil _).symm, ?_, rfl, rfl⟩
  show MRuns (sendExit spy p m) _ _
  unfold sendExit
  rw [mruns_bind]
  left
  refine ⟨_, rfl, ?_⟩
  unfold offerExit
  rw [mruns_bind]
  right
  exact ⟨[_], false, [], rfl, mruns_ask.mpr ⟨false, rfl, rfl⟩, rfl, rfl⟩

theorem exit_accepted (p : PushEnd) {s : StatusRes} {m : Bytes} (hm : exitMessage s = some m) :
    LoopRuns (exitBody none p) () [⟨.status, s⟩, ⟨.send .data p.chan m, true⟩, ⟨.close .data p.chan, ()⟩] (.ok ()) := by
  refine .stop ?_
  unfold exitBody
  rw [Prog.runs_bind]
  refine ⟨[_], s, [⟨.send .data p.chan m, true⟩, ⟨.close .data p.chan, ()⟩], rfl, (Prog.runs_req _ _ _).mpr rfl, ?_⟩
  rw [hm]
  simp only [exitStep]
  rw [Prog.runs_bind]
  refine ⟨_, _, [], (List.append_nil _).symm, ?_, rfl, rfl⟩
  show MRuns (sendExit none p m) _ _
  unfold sendExit
  rw [mruns_bind]
  right
  refine ⟨[_], (), [⟨.close .data p.chan, ()⟩], rfl, ?_, ?_⟩
  · unfold offerExit
    rw [mruns_bind]
    right
    exact ⟨[_], true, [], rfl, mruns_ask.mpr ⟨true, rfl, rfl⟩, rfl, rfl⟩
  · rw [mruns_bind]
    right
    exact ⟨[], (), _, rfl, ⟨rfl, rfl⟩, mruns_ask.mpr ⟨(), rfl, rfl⟩⟩

theorem LoopRounds.toRuns {σ ρ : Type} {body : σ → Prog (σ ⊕ ρ)} {s t s' t' r} (h : LoopRounds body s t s') (h' : LoopRuns body s' t' r) :
    LoopRuns body s (t ++ t') r := by
  induction h with
  | nil => exact h'
  | next h1 _ ih => rw [List.append_assoc]; exact .next h1 (ih h')

/-- Whatever has happened of it, it can come to an end. -/
theorem exit_extend {spy p te} (h : LoopPartial (exitBody spy p) () te) : ∃ t x, LoopRuns (exitBody spy p) () (te ++ t) x := by
  obtain ⟨s', t1, t2, h1, h2, rfl⟩ := h
  obtain ⟨t3, a, h3⟩ := h2.extend
  rcases a with u | r
  · refine ⟨t3 ++ [⟨.status, .killed⟩, ⟨.send .data p.chan (asciiBytes ['_']), false⟩], .error (.send ⟨p.src, some p.port, p.dst, p.breakable⟩ (asciiBytes ['_'])), ?_⟩
    rw [List.append_assoc, ← List.append_assoc t2]
    exact h1.toRuns (.next h3 (refused_runs spy p (s := .killed) rfl))
  · exact ⟨t3, r, by rw [List.append_assoc]; exact h1.toRuns (.stop h3)⟩

/-! ## What the relays do not touch -/

theorem relay_apart {l : LaunchEnds} {p : PushEnd} (ha : l.Apart p) {ch spy i tr} (h : (l.relay ch spy i).Partial tr) : eventsOn .data p.chan tr = [] := by
  unfold eventsOn
  rw [List.filter_eq_nil_iff]
  intro e he hc
  have hc : e.q.on = some (Kind.data, p.chan) := of_decide_eq_true hc
  have := relayTask_only h e he _ hc
  obtain ⟨h1, h2, h3⟩ := ha
  cases i <;> simp only [relayChans, LaunchEnds.pipe, LaunchEnds.toInput, partSpy] at this
  · revert this
    cases hs : l.stdin with
    | none => simp [Push.owned, Pull.owned]
    | some q => simp [Push.owned, Pull.owned, PullEnd.pull]; exact fun e => h1 q hs e.symm
  · revert this
    cases hs : l.stdout with
    | none => cases spy <;> simp [Push.owned, Pull.owned, fromStream]
    | some q => cases spy <;> simp [Push.owned, Pull.owned, fromStream, PushEnd.push] <;> exact fun e => h2 q hs e.symm
  · revert this
    cases hs : l.stderr with
    | none => cases spy <;> simp [Push.owned, Pull.owned, fromStream]
    | some q => cases spy <;> simp [Push.owned, Pull.owned, fromStream, PushEnd.push] <;> exact fun e => h3 q hs e.symm

theorem relays_apart {l : LaunchEnds} {p : PushEnd} (ha : l.Apart p) {ch spy} {τ : List (Part × Ev)}
    (h : ∀ i, (l.relay ch spy i).Partial (proj i τ)) : ∀ e ∈ τ.map Prod.snd, e.q.on ≠ some (.data, p.chan) := by
  intro e he hc
  obtain ⟨⟨i, e'⟩, hm, rfl⟩ := List.mem_map.mp he
  have := relay_apart ha (h i)
  unfold eventsOn at this
  rw [List.filter_eq_nil_iff] at this
  exact this e' (mem_proj.mpr hm) (decide_eq_true hc)

theorem LaunchEnds.ended.done {l : LaunchEnds} {ch spy i tr r} (h : l.ended ch spy i tr r) : (l.relay ch spy i).Done tr := by
  obtain ⟨t, h1, h2⟩ := h
  exact ⟨r, t, h1, h2⟩

theorem Task.Done.partial' {t : Task} {tr : List Ev} (h : t.Done tr) : t.Partial tr := by
  obtain ⟨r, t1, h1, rfl⟩ := h
  exact Or.inr ⟨r, t1, _, h1, List.prefix_refl _, rfl⟩

theorem inVain_on (k : Nat) : ∀ e ∈ inVain k, e.q.on = none := by
  intro e he
  simp only [inVain, List.mem_flatten, List.mem_replicate] at he
  obtain ⟨l, ⟨_, rfl⟩, he⟩ := he
  simp at he
  rcases he with rfl | rfl <;> rfl

theorem statuses_inVain (k : Nat) : statuses (inVain k) = List.replicate k .err := by
  induction k with
  | zero => rfl
  | succ k ih =>
    have : inVain (k + 1) = ⟨.status, .err⟩ :: ⟨.sleep 100, ()⟩ :: inVain k := by simp [inVain, List.replicate_succ]
    rw [this, List.replicate_succ, ← ih]
    rfl

/-- What the exit part does on the exit channel and asks. -/
theorem exit_events {spy p te x} (h : LoopRuns (exitBody spy p) () te x) :
    ∃ k s m, statuses te = List.replicate k .err ++ [s] ∧ ExitText s m ∧
      ((x = .ok () ∧ eventsOn .data p.chan te = [⟨.send .data p.chan m, true⟩, ⟨.close .data p.chan, ()⟩]) ∨
       (x = .error (.send ⟨p.src, some p.port, p.dst, p.breakable⟩ m) ∧ eventsOn .data p.chan te = [⟨.send .data p.chan m, false⟩]) ∨
       (∃ c, spy = some c ∧ x = .error (.spyWrite ⟨p.src, p.dst, p.port, .data m⟩) ∧ (⟨.send .spy c ⟨p.src, p.dst, p.port, .data m⟩, false⟩ : Ev) ∈ te ∧
         eventsOn .data p.chan te = [⟨.send .data p.chan m, true⟩])) := by
  obtain ⟨k, s, m, rest, rfl, hm, hs⟩ := exit_runs h
  have e0 : ∀ rest, eventsOn .data p.chan (inVain k ++ ⟨.status, s⟩ :: rest) = eventsOn .data p.chan rest := by
    intro rest
    have : (inVain k).filter (fun e => decide (e.q.on = some (Kind.data, p.chan))) = [] := by
      rw [List.filter_eq_nil_iff]
      intro e he hc
      rw [inVain_on k e he] at hc
      simp at hc
    simp only [eventsOn, List.filter_append, this, List.nil_append]
    rw [List.filter_cons_of_neg (by simp [Req.on])]
  have e1 : ∀ rest, statuses rest = [] → statuses (inVain k ++ ⟨.status, s⟩ :: rest) = List.replicate k .err ++ [s] := by
    intro rest hr
    rw [show statuses (inVain k ++ ⟨.status, s⟩ :: rest) = statuses (inVain k) ++ s :: statuses rest by simp [statuses], hr, statuses_inVain]
  refine ⟨k, s, m, e1 _ ?_, exitMessage_text hm, ?_⟩
  · cases hs <;> rfl
  · rw [e0]
    cases hs with
    | refused => right; left; exact ⟨rfl, by simp [eventsOn, Req.on]⟩
    | plain _ => left; exact ⟨rfl, by simp [eventsOn, Req.on]⟩
    | unspied hc => right; right; exact ⟨_, hc, rfl, by simp, by simp [eventsOn, Req.on]⟩
    | spied _ => left; exact ⟨rfl, by simp [eventsOn, Req.on]⟩

/-- **C51** A program that has run to its end has sent on its exit port exactly one message, the text of the exit status, and closed it, unless the receiver or the spy was
gone, which makes the run fail. -/
theorem C51_once {l : LaunchEnds} {ch spy tr r p} (h : LaunchRuns l ch spy tr r) (he : l.exit = some p) (ha : l.Apart p) :
    ∃ (τ : List (Part × Ev)) (te : List Ev) (k : Nat) (s : StatusRes) (m : Bytes),
      tr = τ.map Prod.snd ++ te ∧ (∀ i, (l.relay ch spy i).Done (proj i τ)) ∧ statuses te = List.replicate k .err ++ [s] ∧ ExitText s m ∧
      (eventsOn .data p.chan tr = [⟨.send .data p.chan m, true⟩, ⟨.close .data p.chan, ()⟩] ∨
       (∃ e, r = .error e) ∧ (eventsOn .data p.chan tr = [⟨.send .data p.chan m, false⟩] ∨
         eventsOn .data p.chan tr = [⟨.send .data p.chan m, true⟩] ∧ ∃ c v, (⟨.send .spy c v, false⟩ : Ev) ∈ tr)) := by
  obtain ⟨τ, te, res, rfl, hr, hx⟩ := h
  rw [he] at hx
  obtain ⟨x, hl, rfl⟩ := hx
  obtain ⟨k, s, m, h1, h2, h3⟩ := exit_events hl
  have e0 : eventsOn .data p.chan (τ.map Prod.snd ++ te) = eventsOn .data p.chan te := by
    have : (τ.map Prod.snd).filter (fun e => decide (e.q.on = some (Kind.data, p.chan))) = [] := by
      rw [List.filter_eq_nil_iff]
      intro e he hc
      exact relays_apart ha (fun i => (hr i).done.partial') e he (of_decide_eq_true hc)
    simp only [eventsOn, List.filter_append, this, List.nil_append]
  refine ⟨τ, te, k, s, m, rfl, fun i => (hr i).done, h1, h2, ?_⟩
  rw [e0]
  rcases h3 with ⟨rfl, h⟩ | ⟨rfl, h⟩ | ⟨c, _, rfl, hm, h⟩
  · exact Or.inl h
  · exact Or.inr ⟨⟨_, rfl⟩, Or.inl h⟩
  · exact Or.inr ⟨⟨_, rfl⟩, Or.inr ⟨h, c, _, List.mem_append_right _ hm⟩⟩

/-- **C51** At any time: whatever has happened on the exit port happened after all three relays had ended. -/
theorem C51_after {l : LaunchEnds} {ch spy tr p} (h : LaunchPartial l ch spy tr) (ha : l.Apart p)
    {u v : List Ev} {e : Ev} (hs : tr = u ++ e :: v) (ho : e.q.on = some (.data, p.chan)) :
    ∃ (τ : List (Part × Ev)) (w : List Ev), u = τ.map Prod.snd ++ w ∧ ∀ i, (l.relay ch spy i).Done (proj i τ) := by
  rcases h with ⟨τ, rfl, hp⟩ | ⟨τ, te, _, rfl, hd, _, _⟩
  · exact absurd ho (relays_apart ha hp e (by rw [hs]; simp))
  · refine ⟨τ, ?_⟩
    have hn := relays_apart ha (fun i => (hd i).partial')
    rcases List.append_eq_append_iff.mp hs with ⟨w, rfl, _⟩ | ⟨w, hw, _⟩
    · exact ⟨w, rfl, hd⟩
    · cases w with
      | nil => exact ⟨[], by simpa using hw.symm, hd⟩
      | cons a w =>
        rename_i hv
        injection hv with h1 h2
        subst h1
        exact absurd ho (hn e (by rw [hw]; simp))

/-- **C51** At any time: there has been at most one message on the exit port, and nothing after closing it. -/
theorem C51_prefix {l : LaunchEnds} {ch spy tr p} (h : LaunchPartial l ch spy tr) (he : l.exit = some p) (ha : l.Apart p) :
    ∃ s m b, ExitText s m ∧ eventsOn .data p.chan tr <+: [⟨.send .data p.chan m, b⟩, ⟨.close .data p.chan, ()⟩] := by
  rcases h with ⟨τ, rfl, hp⟩ | ⟨τ, te, p', rfl, hd, hp', hx⟩
  · refine ⟨.killed, [95], true, rfl, ?_⟩
    rw [show eventsOn .data p.chan (τ.map Prod.snd) = [] from ?_]
    · exact List.nil_prefix
    · unfold eventsOn
      rw [List.filter_eq_nil_iff]
      intro e he hc
      exact relays_apart ha hp e he (of_decide_eq_true hc)
  · obtain rfl : p = p' := Option.some.inj (he.symm.trans hp')
    obtain ⟨t, x, hx⟩ : ∃ t x, LoopRuns (exitBody spy p) () (te ++ t) x := by
      rcases hx with h | ⟨x, h⟩
      · exact exit_extend h
      · exact ⟨[], x, by rwa [List.append_nil]⟩
    obtain ⟨k, s, m, _, h2, h3⟩ := exit_events hx
    have hpre : eventsOn .data p.chan te <+: eventsOn .data p.chan (te ++ t) := by
      unfold eventsOn
      rw [List.filter_append]
      exact List.prefix_append _ _
    have e0 : eventsOn .data p.chan (τ.map Prod.snd ++ te) = eventsOn .data p.chan te := by
      have : (τ.map Prod.snd).filter (fun e => decide (e.q.on = some (Kind.data, p.chan))) = [] := by
        rw [List.filter_eq_nil_iff]
        intro e he hc
        exact relays_apart ha (fun i => (hd i).partial') e he (of_decide_eq_true hc)
      simp only [eventsOn, List.filter_append, this, List.nil_append]
    rw [e0]
    rcases h3 with ⟨_, h⟩ | ⟨_, h⟩ | ⟨_, _, _, _, h⟩ <;> rw [h] at hpre
    · exact ⟨s, m, true, h2, hpre⟩
    · exact ⟨s, m, false, h2, hpre.trans ⟨[_], rfl⟩⟩
    · exact ⟨s, m, true, h2, hpre.trans ⟨[_], rfl⟩⟩

theorem LaunchRuns.toPartial {l : LaunchEnds} {ch spy tr r} (h : LaunchRuns l ch spy tr r) : LaunchPartial l ch spy tr := by
  obtain ⟨τ, te, res, rfl, hr, hx⟩ := h
  revert hx
  cases he : l.exit with
  | none =>
    rintro ⟨rfl, _⟩
    exact Or.inl ⟨τ, by simp, fun i => (hr i).done.partial'⟩
  | some p =>
    rintro ⟨x, hl, _⟩
    exact Or.inr ⟨τ, te, p, rfl, fun i => (hr i).done, he, Or.inr ⟨x, hl⟩⟩

/-! ## C52 -/

/-- What marking the exit pipe F or C should mean: if all else goes well, a receiver that has gone does not make the run fail. -/
def ExitProtected : Prop :=
  ∀ (l : LaunchEnds) (ch : Child) (τ : List (Part × Ev)) (res : Part → Except MErr Nat) (te : List Ev) (r : Except MErr Nat) (p : PushEnd),
    l.exit = some p → l.Apart p → p.breakable ≠ .terminate → l.Run ch none τ res te r → (∀ i, ∃ n, res i = .ok n) → ∃ n, r = .ok n

/-- **C52** Whatever the variation and however the relays ended, the run fails if the receiver of the exit status is gone, and the error is that of the exit port. -/
theorem C52_always {l : LaunchEnds} {ch spy tr r p} (h : LaunchRuns l ch spy tr r) (he : l.exit = some p) (ha : l.Apart p)
    {m : Bytes} (hm : (⟨.send .data p.chan m, false⟩ : Ev) ∈ tr) : r = .error (.send ⟨p.src, some p.port, p.dst, p.breakable⟩ m) := by
  obtain ⟨τ, te, res, rfl, hr, hx⟩ := h
  rw [he] at hx
  obtain ⟨x, hl, rfl⟩ := hx
  rcases List.mem_append.mp hm with hm | hm
  · exact absurd rfl (relays_apart ha (fun i => (hr i).done.partial') _ hm)
  obtain ⟨k, s, m', _, _, h3⟩ := exit_events hl
  have hm' : (⟨.send .data p.chan m, false⟩ : Ev) ∈ eventsOn .data p.chan te := by
    unfold eventsOn
    exact List.mem_filter.mpr ⟨hm, by simp [Req.on]⟩
  rcases h3 with ⟨_, h⟩ | ⟨rfl, h⟩ | ⟨_, _, _, _, h⟩
  · rw [h] at hm'; simp at hm'
  · rw [h] at hm'; simp at hm'; subst hm'; rfl
  · rw [h] at hm'; simp at hm'

/-- **C52, the part that holds** If the exit status is taken (and noted by the spy, if any), the result is that of the relays alone. -/
theorem C52_taken_partial {l : LaunchEnds} {ch spy tr r p} (h : LaunchRuns l ch spy tr r) (he : l.exit = some p) (ha : l.Apart p)
    (hm : (⟨.close .data p.chan, ()⟩ : Ev) ∈ tr) :
    ∃ (τ : List (Part × Ev)) (te : List Ev) (res : Part → Except MErr Nat), tr = τ.map Prod.snd ++ te ∧ (∀ i, l.ended ch spy i (proj i τ) (res i)) ∧
      (∀ n, r = .ok n ↔ res .input = .ok n ∧ (∃ a, res .output = .ok a) ∧ ∃ a, res .error = .ok a) ∧
      ∀ e, r = .error e ↔ res .input = .error e ∨ (∃ n, res .input = .ok n) ∧ (res .output = .error e ∨ (∃ n, res .output = .ok n) ∧ res .error = .error e) := by
  obtain ⟨τ, te, res, rfl, hr, hx⟩ := h
  rw [he] at hx
  obtain ⟨x, hl, rfl⟩ := hx
  refine ⟨τ, te, res, rfl, hr, ?_⟩
  rcases List.mem_append.mp hm with hm | hm
  · exact absurd rfl (relays_apart ha (fun i => (hr i).done.partial') _ hm)
  obtain ⟨k, s, m', _, _, h3⟩ := exit_events hl
  have hm' : (⟨.close .data p.chan, ()⟩ : Ev) ∈ eventsOn .data p.chan te := by
    unfold eventsOn
    exact List.mem_filter.mpr ⟨hm, by simp [Req.on]⟩
  rcases h3 with ⟨rfl, h⟩ | ⟨rfl, h⟩ | ⟨_, _, _, _, h⟩
  · cases res .input <;> cases res .output <;> cases res .error <;> simp [withExit, structureResult]
  · rw [h] at hm'; simp at hm'
  · rw [h] at hm'; simp at hm'

/-! ## A program that writes a line and exits with 3 -/

/-- What a relay's trace ends with, for examples. -/
def relayResult (pull : Pull) (spy : Option Nat) (push : Push) (tr : List Ev) : Option (Except MErr Nat) :=
  match (relayTask pull {} spy push).replay tr with
  | some (.inl (r, rest)) => if rest = dropEvs (relayTask pull {} spy push).drops then some r else none
  | _ => none

theorem relayResult_ended {l : LaunchEnds} {ch spy i tr r} (h : relayResult (l.pipe ch i).1 (partSpy spy i) (l.pipe ch i).2 tr = some r) :
    l.ended ch spy i tr r := by
  unfold relayResult at h
  split at h
  · rename_i r' rest hq
    split at h
    · rename_i hr
      injection h with h
      subst h
      obtain ⟨t1, h1, h2⟩ := Task.replayFrom_runs hq
      exact ⟨t1, h1, by rw [h2, hr]; rfl⟩
    · cases h
  · cases h

/-- Output on channel 1, exit status on channel 2 with the given variation. -/
def lister (b : Breakable) : LaunchEnds := ⟨7, none, some ⟨7, .out, 8, .terminate, 1, 1⟩, none, some ⟨7, .exit, 9, b, 2, 1⟩⟩

def listed : List (Part × Ev) := [
  (.output, ⟨.streamRead 1, .line [104, 105, 10]⟩), (.output, ⟨.send .data 1 [104, 105, 10], true⟩),
  (.output, ⟨.streamRead 1, .eof⟩), (.output, ⟨.close .data 1, ()⟩), (.output, ⟨.close .data 1, ()⟩)]

theorem listed_ended (b : Breakable) (i : Part) : (lister b).ended ⟨0, 1, 2⟩ none i (proj i listed) (.ok (if i = .output then 2 else 1)) := by
  apply relayResult_ended
  cases b <;> cases i <;> decide +kernel

theorem lister_apart (b : Breakable) : (lister b).Apart ⟨7, .exit, 9, b, 2, 1⟩ :=
  ⟨by simp [lister], by simp [lister], by simp [lister]⟩

/-- A run: output, then the exit status 3. -/
example : LaunchRuns (lister .terminate) ⟨0, 1, 2⟩ none
    (listed.map Prod.snd ++ [⟨.status, .code 3⟩, ⟨.send .data 2 [51], true⟩, ⟨.close .data 2, ()⟩]) (.ok 1) := by
  refine ⟨listed, _, _, rfl, listed_ended .terminate, .ok (), ?_, rfl⟩
  exact exit_accepted ⟨7, .exit, 9, .terminate, 2, 1⟩ (s := .code 3) (by decide +kernel)

/-- **C52 is false of the code**: the pipe variation of the exit port is ignored. -/
theorem C52_refuted : ¬ ExitProtected := by
  intro h
  obtain ⟨n, e⟩ := h (lister .consume) ⟨0, 1, 2⟩ listed _ _ _ _ rfl (lister_apart .consume) (by decide)
    ⟨listed_ended .consume, _, refused_runs none _ (s := .code 3) rfl, rfl⟩ (fun i => ⟨_, rfl⟩)
  simp [withExit] at e

/-- Whichever variation it is. -/
example (b : Breakable) : ∃ te r, (lister b).Run ⟨0, 1, 2⟩ none listed (fun i => .ok (if i = .output then 2 else 1)) te r ∧ ∀ n, r ≠ .ok n :=
  ⟨_, _, ⟨listed_ended b, _, refused_runs none _ (s := .code 3) rfl, rfl⟩, fun n => by simp [withExit]⟩

end Verif
