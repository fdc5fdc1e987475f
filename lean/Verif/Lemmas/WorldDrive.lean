import Verif.Lemmas.World
import Verif.Lemmas.Drive
/-!
# Concrete runs with programs

A scheduler like that of Lemmas/Drive.lean, with pipes and programs. Only used to show witnesses; whatever it proposes is checked.
-/
namespace Verif

def exitedNow (l : List PEv) : Bool := l.any fun
  | .exit _ => true
  | _ => false

theorem exitedNow_iff {l : List PEv} : exitedNow l = true ↔ Exited l := by
  unfold exitedNow Exited
  rw [List.any_eq_true]
  constructor
  · rintro ⟨e, he, h⟩
    cases e <;> simp at h
    exact ⟨_, he⟩
  · rintro ⟨c, hc⟩
    exact ⟨_, hc, rfl⟩

instance (l : List PEv) : Decidable (Exited l) := decidable_of_iff _ exitedNow_iff
instance (l : List PEv) : Decidable (ShutIn l) := inferInstanceAs (Decidable (_ ∨ _))
instance (p : Port) (l : List PEv) : Decidable (Shut p l) := inferInstanceAs (Decidable (_ ∨ _))
instance (h : Nat) (chunks : List Bytes) (tr : List Ev) : Decidable (ReadsFrom h chunks tr) := inferInstanceAs (Decidable (_ = _))

section
variable (w : Waiter) (cs : List Capture) (cap : Caps) (room : Nat) (prog : Str → Program)

def endsLF : StreamRes → Bool
  | .line d => d.getLast? == some 10
  | _ => false

/-- A check for `Answered`. -/
def Waiter.answered (T : List Happening) : Who → Ev → Bool
  | .part (.launch, x) .input, ⟨.ioWrite _ d, r⟩ => decide (r = .ok ∧ w.begun T x = d ∨ r = .brokenPipe ∧ ShutIn (historyOf x T))
  | .part (.launch, _) .input, ⟨.ioFlush _, r⟩ => r
  | .part (.launch, x) .output, ⟨.streamRead h, r⟩ => decide (ReadsFrom h (drawnFrom x .out T) (proj (.part (.launch, x) .output) (coreOf T) ++ [⟨.streamRead h, r⟩])) &&
      (endsLF r || decide (Shut .out (historyOf x T) ∧ outPipe x .out T = []))
  | .part (.launch, x) .error, ⟨.streamRead h, r⟩ => decide (ReadsFrom h (drawnFrom x .err T) (proj (.part (.launch, x) .error) (coreOf T) ++ [⟨.streamRead h, r⟩])) &&
      (endsLF r || decide (Shut .err (historyOf x T) ∧ outPipe x .err T = []))
  | .part (.launch, x) .exit, ⟨.status, r⟩ => (historyOf x T).any fun
      | .exit c => decide (r = statusOf c)
      | _ => false
  | _, _ => true

theorem lastLF {r : StreamRes} (h : endsLF r = true) : ∃ d : Bytes, r = .line (d ++ [10]) := by
  cases r with
  | line d =>
    simp only [endsLF, beq_iff_eq] at h
    rw [List.getLast?_eq_some_iff] at h
    obtain ⟨e, rfl⟩ := h
    exact ⟨e, rfl⟩
  | _ => cases h

theorem Waiter.answered_sound {T : List Happening} {i : Who} {e : Ev} (h : w.answered T i e = true) : w.Answered T i e := by
  refine ⟨?_, ?_, ?_, ?_⟩
  · rintro x h' d r rfl rfl
    simpa [Waiter.answered] using h
  · rintro x h' r rfl rfl
    simpa [Waiter.answered] using h
  · rintro x p h' r rfl rfl
    cases p
    all_goals
      simp only [Port.piece, Waiter.answered, Bool.and_eq_true, Bool.or_eq_true, decide_eq_true_eq] at h
      exact ⟨h.1, h.2.imp lastLF fun g => g⟩
  · rintro x r rfl rfl
    simp only [Waiter.answered, List.any_eq_true] at h
    obtain ⟨e, he, h⟩ := h
    cases e with
    | exit c => exact ⟨c, he, by simpa using h⟩
    | _ => cases h

/-- A check for the relay being over. -/
def Waiter.relayOver (τ : List (Who × Ev)) (x : Str) (p : Piece) : Bool :=
  match w.sys cs (.part (.launch, x) p) with
  | none => true
  | some t => t.finished (proj (.part (.launch, x) p) τ)

/-- A check for it waiting for something. -/
def Waiter.relayWaits (τ : List (Who × Ev)) (x : Str) (p : Piece) : Bool :=
  match w.sys cs (.part (.launch, x) p) with
  | none => false
  | some t => (t.waits (proj (.part (.launch, x) p) τ)).isSome

theorem Waiter.relayOver_sound {τ : List (Who × Ev)} {x : Str} {p : Piece} (h : w.relayOver cs τ x p = true) : w.RelayOver cs τ x p := by
  intro t ht
  rw [Waiter.relayOver, ht] at h
  exact Task.finished_done h

def Req.some : (q : Req) → q.Resp
  | .recv _ _ => none
  | .tryRecv _ _ => .empty
  | .send _ _ _ => true
  | .close _ _ => ()
  | .stat _ _ => (true, true)
  | .streamRead _ => .eof
  | .ioWrite _ _ => .ok
  | .ioFlush _ => true
  | .sleep _ => ()
  | .status => .killed

theorem Waiter.relayWaits_sound {τ : List (Who × Ev)} {x : Str} {p : Piece} (h : w.relayWaits cs τ x p = true) : ¬ w.RelayOver cs τ x p := by
  intro ho
  unfold Waiter.relayWaits at h
  cases ht : w.sys cs (.part (.launch, x) p) with
  | none => rw [ht] at h; cases h
  | some t =>
    rw [ht] at h
    obtain ⟨q, hq⟩ := Option.isSome_iff_exists.mp h
    exact (ho t ht).stops ((Task.waits_awaits hq).step q.some)

/-- A check for `Allows`. -/
def Wish.allows : Wish → PEv → Bool
  | .read, .took d => decide (d ≠ [])
  | .read, .sawEnd => true
  | .write p m, .put q d => decide (q = p ∧ d <+: m ∧ (m ≠ [] → d ≠ []))
  | .write p _, .refused q => decide (q = p)
  | .shutIn, .shutIn => true
  | .shut p, .shut q => decide (q = p)
  | .think, .thought => true
  | .exit c, .exit d => decide (d = c)
  | _, _ => false

theorem Wish.allows_sound {a : Wish} {e : PEv} (h : a.allows e = true) : a.Allows e := by
  cases a <;> cases e <;> simp [Wish.allows] at h
  · exact .took h
  · exact .sawEnd
  · obtain ⟨rfl, h1, h2⟩ := h; exact .put h1 (fun g => h2.resolve_left g)
  · subst h; exact .refused
  · exact .shutIn
  · subst h; exact .shut
  · exact .think
  · subst h; exact .exit

/-- A check for `Serves`. -/
def Waiter.serves (T : List Happening) (x : Str) : PEv → Bool
  | .took d => decide (¬ ShutIn (historyOf x T) ∧ d <+: inPipe x T)
  | .sawEnd => decide (ShutIn (historyOf x T)) || decide (inPipe x T = []) && w.relayOver cs (coreOf T) x .input
  | .put p d => decide (¬ Shut p (historyOf x T)) &&
      ((w.sys cs (.part (.launch, x) p.piece)).isNone || w.relayWaits cs (coreOf T) x p.piece && decide ((outPipe x p T).length + d.length ≤ room))
  | .refused p => decide (Shut p (historyOf x T)) || (w.sys cs (.part (.launch, x) p.piece)).isSome && w.relayOver cs (coreOf T) x p.piece
  | _ => true

theorem Waiter.serves_sound {T : List Happening} {x : Str} {e : PEv} (h : w.serves cs room T x e = true) : w.Serves cs room T x e := by
  cases e with
  | took d => simp only [Waiter.serves, decide_eq_true_eq] at h; exact h
  | sawEnd =>
    simp only [Waiter.serves, Bool.or_eq_true, Bool.and_eq_true, decide_eq_true_eq] at h
    exact h.imp (fun g => g) fun ⟨g1, g2⟩ => ⟨g1, w.relayOver_sound cs g2⟩
  | put p d =>
    simp only [Waiter.serves, Bool.or_eq_true, Bool.and_eq_true, decide_eq_true_eq, Option.isNone_iff_eq_none] at h
    exact ⟨h.1, h.2.imp (fun g => g) fun ⟨g1, g2⟩ => ⟨w.relayWaits_sound cs g1, g2⟩⟩
  | refused p =>
    simp only [Waiter.serves, Bool.or_eq_true, Bool.and_eq_true, decide_eq_true_eq] at h
    exact h.imp (fun g => g) fun ⟨g1, g2⟩ => ⟨fun e => by simp [e] at g1, w.relayOver_sound cs g2⟩
  | _ => trivial

/-- A check for `Next`. -/
def Waiter.may (T : List Happening) : Happening → Bool
  | .core i e => match w.sys cs i, execAll cap Store.init ((coreOf T).map Prod.snd) with
    | some t, some st => t.checks (proj i (coreOf T) ++ [e]) && (exec cap st e).isSome && (match i with
        | .part r .exit => w.relaysEnded cs (coreOf T) r
        | _ => true) && w.answered T i e
    | _, _ => false
  | .feed x d => match w.sys cs (.part (.launch, x) .input) with
    | some t => match t.waits (proj (.part (.launch, x) .input) (coreOf T)) with
      | some (.ioWrite _ m) => decide (w.begun T x ++ d <+: m ∧ d ≠ [] ∧ ¬ ShutIn (historyOf x T) ∧ (inPipe x T).length + d.length ≤ room)
      | _ => false
    | none => false
  | .draw x p d => match w.sys cs (.part (.launch, x) p.piece) with
    | some t => match t.waits (proj (.part (.launch, x) p.piece) (coreOf T)) with
      | some (.streamRead _) => decide (d <+: outPipe x p T ∧ d ≠ [])
      | _ => false
    | none => false
  | .prog x e => (w.comps.get (.launch, x)).isSome && decide (¬ Exited (historyOf x T)) && (prog x (historyOf x T)).allows e && w.serves cs room T x e

variable {w cs cap room prog} in
theorem Waiter.may_sound {T : List Happening} {a : Happening} (hT : w.WorldRun cs cap room prog T) (h : w.may cs cap room prog T a = true) : w.Next cs cap room prog T a := by
  cases a with
  | core i e =>
    unfold Waiter.may at h
    simp only at h
    split at h
    · next t st ht hst =>
      simp only [Bool.and_eq_true] at h
      obtain ⟨⟨⟨h1, h2⟩, h3⟩, h4⟩ := h
      obtain ⟨st', h2⟩ := Option.isSome_iff_exists.mp h2
      refine .core (hT.core.step hst ht (Task.checks_partial h1) h2 ?_) (w.answered_sound h4)
      rintro r rfl
      exact Waiter.relaysEnded_sound h3
    · cases h
  | feed x d =>
    unfold Waiter.may at h
    simp only at h
    split at h
    · next t ht =>
      split at h
      · next h' m hm =>
        simp only [decide_eq_true_eq] at h
        exact .feed ht (Task.waits_awaits hm) h.1 h.2.1 h.2.2.1 h.2.2.2
      · cases h
    · cases h
  | draw x p d =>
    unfold Waiter.may at h
    simp only at h
    split at h
    · next t ht =>
      split at h
      · next h' hm =>
        simp only [decide_eq_true_eq] at h
        exact .draw ht (Task.waits_awaits hm) h.1 h.2
      · cases h
    · cases h
  | prog x e =>
    simp only [Waiter.may, Bool.and_eq_true, decide_eq_true_eq] at h
    obtain ⟨⟨⟨h1, h2⟩, h3⟩, h4⟩ := h
    exact .prog (by intro g; rw [g] at h1; cases h1) h2 (Wish.allows_sound h3) (w.serves_sound cs room h4)

/-- What an activity could do next. -/
def Waiter.proposes (feed : Feed) (T : List Happening) (i : Who) : Option Happening :=
  match w.sys cs i, execAll cap Store.init ((coreOf T).map Prod.snd) with
  | some t, some st => match t.replay (proj i (coreOf T)) with
    | some (.inl (_, rest)) => ((dropEvs t.drops)[rest.length]?).map (Happening.core i)
    | some (.inr q) => match i, q with
      | .part (.launch, x) .input, .ioWrite h d =>
        if ShutIn (historyOf x T) then some (.core i ⟨.ioWrite h d, .brokenPipe⟩)
        else if w.begun T x = d then some (.core i ⟨.ioWrite h d, .ok⟩)
        else some (.feed x ((d.drop (w.begun T x).length).take (room - (inPipe x T).length)))
      | .part (.launch, x) .output, .streamRead h => match lineAt (drawnFrom x .out T).flatten (readsOf (coreOf T) h) with
        | .line d => if d.getLast? = some 10 ∨ outPipe x .out T = [] then some (.core i ⟨.streamRead h, .line d⟩) else some (.draw x .out (outPipe x .out T))
        | r => if outPipe x .out T = [] then some (.core i ⟨.streamRead h, r⟩) else some (.draw x .out (outPipe x .out T))
      | .part (.launch, x) .error, .streamRead h => match lineAt (drawnFrom x .err T).flatten (readsOf (coreOf T) h) with
        | .line d => if d.getLast? = some 10 ∨ outPipe x .err T = [] then some (.core i ⟨.streamRead h, .line d⟩) else some (.draw x .err (outPipe x .err T))
        | r => if outPipe x .err T = [] then some (.core i ⟨.streamRead h, r⟩) else some (.draw x .err (outPipe x .err T))
      | .part (.launch, x) .exit, .status => (historyOf x T).findSome? fun
        | .exit c => some (.core i ⟨.status, statusOf c⟩)
        | _ => none
      | i, q => (answer cap st feed (readsOf (coreOf T)) .killed q).map fun r => .core i ⟨q, r⟩
    | none => none
  | _, _ => none

/-- What a program could do next. -/
def Waiter.intends (T : List Happening) (x : Str) : Option Happening :=
  match prog x (historyOf x T) with
  | .read => some (.prog x (if inPipe x T = [] ∨ ShutIn (historyOf x T) then .sawEnd else .took (inPipe x T)))
  | .write p m => some (.prog x (match w.sys cs (.part (.launch, x) p.piece) with
    | none => .put p m
    | some _ => if Shut p (historyOf x T) ∨ w.relayOver cs (coreOf T) x p.piece = true then .refused p else .put p (m.take (room - (outPipe x p T).length))))
  | .shutIn => some (.prog x .shutIn)
  | .shut p => some (.prog x (.shut p))
  | .think => some (.prog x .thought)
  | .exit c => some (.prog x (.exit c))

def Waiter.suggests (feed : Feed) (T : List Happening) : Who ⊕ Str → Option Happening
  | .inl i => w.proposes cs cap room feed T i
  | .inr x => w.intends cs room prog T x

/-- One of them makes a step if it can. -/
def Waiter.happens (feed : Feed) (T : List Happening) (i : Who ⊕ Str) : List Happening :=
  match w.suggests cs cap room prog feed T i with
  | some a => if w.may cs cap room prog T a then T ++ [a] else T
  | none => T

/-- A schedule. -/
def Waiter.worldDrive (feed : Feed) (order : List (Who ⊕ Str)) : List Happening := order.foldl (fun T i => w.happens cs cap room prog feed T i) []

variable {w cs cap room prog} in
theorem Waiter.worldDrive_runs (feed : Feed) (order : List (Who ⊕ Str)) : w.WorldRun cs cap room prog (w.worldDrive cs cap room prog feed order) := by
  have : ∀ (order : List (Who ⊕ Str)) (T : List Happening), w.WorldRun cs cap room prog T → w.WorldRun cs cap room prog (order.foldl (fun T i => w.happens cs cap room prog feed T i) T) := by
    intro order
    induction order with
    | nil => intro T h; exact h
    | cons i order ih =>
      intro T h
      refine ih _ ?_
      simp only [Waiter.happens]
      generalize w.suggests cs cap room prog feed T i = o
      cases o with
      | none => exact h
      | some a =>
        simp only
        split
        · next hm => exact .next h (Waiter.may_sound h hm)
        · exact h
  exact this order [] .start

/-- All there is. -/
def Waiter.everybody : List (Who ⊕ Str) := (w.everyone cs).map .inl ++ w.comps.filterMap fun x => if x.1.1 = .launch then some (.inr x.1.2) else none

end
end Verif
