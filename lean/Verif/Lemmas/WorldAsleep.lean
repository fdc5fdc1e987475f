import Verif.Lemmas.WorldDrive
import Verif.Lemmas.WorldReads
import Verif.Lemmas.WorldProgress
import Verif.Props.Jam
/-!
# A sufficient check that nothing more can happen, programs and pipes included
-/
namespace Verif
section
variable {w : Waiter} {cap : Caps} {room : Nat} {prog : Str → Program} {T : List Happening} {st : Store}

def Req.anything : (q : Req) → q.Resp
  | .recv _ _ => none
  | .tryRecv _ _ => .empty
  | .send _ _ _ => true
  | .close _ _ => ()
  | .stat _ _ => (true, true)
  | .streamRead _ => .eof
  | .ioWrite _ _ => .ok
  | .ioFlush _ => true
  | .sleep _ => ()
  | .status => .killed

theorem Task.waits_next {t : Task} {tr : List Ev} {q q' : Req} (h : t.waits tr = some q') (h' : t.Awaits tr q) : q = q' :=
  (Task.waits_awaits h).next (h'.step q.anything)

def StreamRes.isLine : StreamRes → Bool
  | .line d => d.getLast? == some 10
  | _ => false

/-- A relay from a program has taken everything and waits for more. -/
def portNow (T : List Happening) (x : Str) (p : Port) (t : Task) : Bool :=
  let tr := proj (.part (.launch, x) p.piece) (coreOf T)
  t.finished tr || match t.waits tr with
    | some (.streamRead h) => decide (outPipe x p T = []) && decide (¬ Shut p (historyOf x T)) && !(lineAt (drawnFrom x p T).flatten (answers h tr).length).isLine
    | some _ => true
    | none => false

/-- The relay to a program waits for room in the pipe. -/
def Waiter.inputNow (w : Waiter) (room : Nat) (T : List Happening) (x : Str) (t : Task) : Bool :=
  let tr := proj (.part (.launch, x) .input) (coreOf T)
  t.finished tr || match t.waits tr with
    | some (.ioWrite _ d) => decide (w.begun T x ≠ d) && decide (¬ ShutIn (historyOf x T)) && decide (room ≤ (inPipe x T).length)
    | some (.ioFlush _) => false
    | some (.streamRead _) => false
    | some _ => true
    | none => false

/-- An activity does not wait for a line. -/
def otherNow (T : List Happening) (i : Who) (t : Task) : Bool :=
  t.finished (proj i (coreOf T)) || match t.waits (proj i (coreOf T)) with
    | some (.streamRead _) => false
    | some _ => true
    | none => false

/-- The program whose exit status is waited for has not ended. -/
def exitNow (T : List Happening) : CompRef → Task → Bool
  | (.launch, x), t => t.finished (proj (.part (.launch, x) .exit) (coreOf T)) || decide (t.waits (proj (.part (.launch, x) .exit) (coreOf T)) = some .status) && decide (¬ Exited (historyOf x T))
  | _, _ => false

/-- What an activity waits for from outside does not come. -/
def Waiter.boundNow (w : Waiter) (room : Nat) (T : List Happening) (i : Who) : Bool :=
  match w.sys [] i with
  | none => true
  | some t => match i with
    | .part (.launch, x) .input => w.inputNow room T x t
    | .part (.launch, x) .output => portNow T x .out t
    | .part (.launch, x) .error => portNow T x .err t
    | .part r .exit => exitNow T r t
    | i => otherNow T i t

def Waiter.waitsNow (w : Waiter) (T : List Happening) (i : Who) : Bool :=
  match w.sys [] i with
  | some t => (t.waits (proj i (coreOf T))).isSome
  | none => false

/-- A program waits in vain. -/
def Waiter.programNow (w : Waiter) (room : Nat) (prog : Str → Program) (T : List Happening) (x : Str) : Bool :=
  decide (Exited (historyOf x T)) || match prog x (historyOf x T) with
    | .read => decide (¬ ShutIn (historyOf x T)) && decide (inPipe x T = []) && w.waitsNow T (.part (.launch, x) .input)
    | .write p m => decide (m ≠ []) && decide (¬ Shut p (historyOf x T)) && w.waitsNow T (.part (.launch, x) p.piece) && decide (room ≤ (outPipe x p T).length)
    | _ => false

def Waiter.asleep (w : Waiter) (cap : Caps) (room : Nat) (prog : Str → Program) (st : Store) (T : List Happening) : Bool :=
  w.motionless cap st (coreOf T) && (w.everyone []).all (w.boundNow room T) && w.comps.all fun z => match z.1 with
    | (.launch, x) => w.programNow room prog T x
    | _ => true

theorem portNow_sound {x : Str} {p : Port} {t : Task} (h : portNow T x p t = true) {hd : Nat} (hq : t.Awaits (proj (.part (.launch, x) p.piece) (coreOf T)) (.streamRead hd)) :
    outPipe x p T = [] ∧ ¬ Shut p (historyOf x T) ∧ (lineAt (drawnFrom x p T).flatten (answers hd (proj (.part (.launch, x) p.piece) (coreOf T))).length).isLine = false := by
  unfold portNow at h
  simp only [Bool.or_eq_true] at h
  rcases h with h | h
  · exact absurd (hq.step .eof) ((Task.finished_done h).stops (u := []))
  · split at h
    · next h' hw =>
      cases Task.waits_next hw hq
      simp only [Bool.and_eq_true, decide_eq_true_eq, Bool.not_eq_true'] at h
      exact ⟨h.1.1, h.1.2, h.2⟩
    · next q hno hw =>
      cases Task.waits_next hw hq
      exact absurd rfl (hno _)
    · cases h

theorem Waiter.inputNow_write {x : Str} {t : Task} (h : w.inputNow room T x t = true) {hd : Nat} {d : Bytes} (hq : t.Awaits (proj (.part (.launch, x) .input) (coreOf T)) (.ioWrite hd d)) :
    w.begun T x ≠ d ∧ ¬ ShutIn (historyOf x T) ∧ room ≤ (inPipe x T).length := by
  unfold Waiter.inputNow at h
  simp only [Bool.or_eq_true] at h
  rcases h with h | h
  · exact absurd (hq.step .ok) ((Task.finished_done h).stops (u := []))
  · split at h
    · next hw =>
      cases Task.waits_next hw hq
      simp only [Bool.and_eq_true, decide_eq_true_eq] at h
      exact ⟨h.1.1, h.1.2, h.2⟩
    · cases h
    · cases h
    · next hno _ _ hw => cases Task.waits_next hw hq; exact absurd rfl (hno _ _)
    · cases h

theorem Waiter.inputNow_others {x : Str} {t : Task} (h : w.inputNow room T x t = true) {hd : Nat} :
    ¬ t.Awaits (proj (.part (.launch, x) .input) (coreOf T)) (.ioFlush hd) ∧ ¬ t.Awaits (proj (.part (.launch, x) .input) (coreOf T)) (.streamRead hd) := by
  unfold Waiter.inputNow at h
  simp only [Bool.or_eq_true] at h
  rcases h with h | h
  · exact ⟨fun hq => (Task.finished_done h).stops (u := []) (hq.step true), fun hq => (Task.finished_done h).stops (u := []) (hq.step .eof)⟩
  · refine ⟨fun hq => ?_, fun hq => ?_⟩ <;> split at h
    · next hw => cases Task.waits_next hw hq
    · cases h
    · cases h
    · next _ hno _ hw => cases Task.waits_next hw hq; exact absurd rfl (hno _)
    · cases h
    · next hw => cases Task.waits_next hw hq
    · cases h
    · cases h
    · next _ _ hno hw => cases Task.waits_next hw hq; exact absurd rfl (hno _)
    · cases h

theorem otherNow_sound {i : Who} {t : Task} (h : otherNow T i t = true) {hd : Nat} : ¬ t.Awaits (proj i (coreOf T)) (.streamRead hd) := by
  intro hq
  unfold otherNow at h
  simp only [Bool.or_eq_true] at h
  rcases h with h | h
  · exact (Task.finished_done h).stops (u := []) (hq.step .eof)
  · split at h
    · cases h
    · next hno hw => cases Task.waits_next hw hq; exact absurd rfl (hno _)
    · cases h

theorem exitNow_sound {r : CompRef} {t : Task} (h : exitNow T r t = true) (hd : ¬ t.Done (proj (.part r .exit) (coreOf T))) :
    ∃ x, r = (.launch, x) ∧ t.Awaits (proj (.part r .exit) (coreOf T)) .status ∧ ¬ Exited (historyOf x T) := by
  unfold exitNow at h
  split at h
  · simp only [Bool.or_eq_true, Bool.and_eq_true, decide_eq_true_eq] at h
    rcases h with h | ⟨h, h'⟩
    · exact absurd (Task.finished_done h) hd
    · exact ⟨_, rfl, Task.waits_awaits h, h'⟩
  · cases h

theorem Waiter.waitsNow_sound {x : Str} {p : Piece} (h : w.waitsNow T (.part (.launch, x) p) = true) : w.sys [] (.part (.launch, x) p) ≠ none ∧ ¬ w.RelayOver [] (coreOf T) x p := by
  unfold Waiter.waitsNow at h
  split at h
  · next t ht =>
    obtain ⟨q, hq⟩ := Option.isSome_iff_exists.mp h
    refine ⟨by simp [ht], fun ho => (ho t ht).stops (u := []) ((Task.waits_awaits hq).step q.anything)⟩
  · cases h

/-- The checks on what is outside. -/
structure Waiter.Shuts (w : Waiter) (room : Nat) (prog : Str → Program) (T : List Happening) : Prop where
  bound : (w.everyone []).all (w.boundNow room T) = true
  progs : (w.comps.all fun z => match z.1 with
    | (.launch, x) => w.programNow room prog T x
    | _ => true) = true

section
variable (S : w.Shuts room prog T)
include S

theorem Waiter.Shuts.at {i : Who} (h : w.sys [] i ≠ none) : w.boundNow room T i = true := List.all_eq_true.mp S.bound i (sys_everyone h)

theorem Waiter.Shuts.input {x : Str} {t : Task} (ht : w.sys [] (.part (.launch, x) .input) = some t) : w.inputNow room T x t = true := by
  have hb := S.at (by rw [ht]; simp)
  simpa only [Waiter.boundNow, ht] using hb

theorem Waiter.Shuts.port {x : Str} {p : Port} {t : Task} (ht : w.sys [] (.part (.launch, x) (Port.piece p)) = some t) : portNow T x p t = true := by
  have hb := S.at (by rw [ht]; simp)
  cases p <;> simp only [Port.piece] at ht hb <;> simpa only [Waiter.boundNow, ht] using hb

/-- An activity that waits for something from outside does not get it. -/
theorem Waiter.Shuts.core (hT : w.WorldRun [] cap room prog T) {i : Who} {e : Ev} {t : Task} (ht : w.sys [] i = some t) (hpar : t.Partial (proj i (coreOf T) ++ [e])) (hA : w.Answered T i e) :
    (∀ h, ¬ t.Awaits (proj i (coreOf T)) (.streamRead h)) ∧ (∀ r, i ≠ .part r .exit) ∧
    ∀ x, i = .part (.launch, x) .input → (∀ h, ¬ t.Awaits (proj i (coreOf T)) (.ioFlush h)) ∧ ∀ h d, ¬ t.Awaits (proj i (coreOf T)) (.ioWrite h d) := by
  have hd : ¬ t.Done (proj i (coreOf T)) := fun h => h.stops (u := []) hpar
  have hb := S.at (i := i) (by rw [ht]; simp)
  refine ⟨fun h hq => ?_, ?_, ?_⟩
  · by_cases hport : ∃ x p, i = .part (.launch, x) (Port.piece p)
    · obtain ⟨x, p, rfl⟩ := hport
      obtain ⟨h1, h2, h3⟩ := portNow_sound (S.port ht) hq
      have hqe := hq.next hpar
      obtain ⟨q, r⟩ := e
      simp only at hqe
      subst hqe
      obtain ⟨h4, h5⟩ := hA.read x p h r rfl rfl
      rcases h5 with ⟨d, rfl⟩ | ⟨h5, _⟩
      · have h6 := (readsFrom_at (hT.fine x p)).mp h4 (answers h (proj (.part (.launch, x) p.piece) (coreOf T))).length (by rw [answers_append]; simp [answers])
        rw [answers_append, List.getElem?_append_right (Nat.le_refl _)] at h6
        simp only [answers, Nat.sub_self, List.filterMap_cons, List.filterMap_nil, if_true, List.getElem?_cons_zero, Option.some.injEq] at h6
        simp only [answers] at h3
        rw [← h6] at h3
        simp [StreamRes.isLine] at h3
      · exact h2 h5
    · unfold Waiter.boundNow at hb
      rw [ht] at hb
      simp only at hb
      split at hb
      · exact (Waiter.inputNow_others hb).2 hq
      · exact hport ⟨_, .out, rfl⟩
      · exact hport ⟨_, .err, rfl⟩
      · obtain ⟨_, _, hs, _⟩ := exitNow_sound hb hd
        cases hq.next (hs.step .killed)
      · exact otherNow_sound hb hq
  · rintro r rfl
    simp only [Waiter.boundNow, ht] at hb
    obtain ⟨x, rfl, hs, hx⟩ := exitNow_sound hb hd
    have hqe := hs.next hpar
    obtain ⟨q, r⟩ := e
    simp only at hqe
    subst hqe
    obtain ⟨c, hc, _⟩ := hA.status x r rfl rfl
    exact hx ⟨c, hc⟩
  · rintro x rfl
    refine ⟨fun h hq => (Waiter.inputNow_others (S.input ht)).1 hq, fun h d hq => ?_⟩
    obtain ⟨h1, h2, h3⟩ := Waiter.inputNow_write (S.input ht) hq
    have hqe := hq.next hpar
    obtain ⟨q, r⟩ := e
    simp only at hqe
    subst hqe
    rcases hA.write x h d r rfl rfl with ⟨_, h4⟩ | ⟨_, h4⟩
    · exact h1 h4
    · exact h2 h4

/-- Whatever happens next is an activity doing something inside. -/
theorem Waiter.Shuts.next {a : Happening} (ha : w.Next [] cap room prog T a) : ∃ i e, a = .core i e ∧ w.Run [] cap (coreOf T ++ [(i, e)]) ∧ w.Answered T i e := by
  cases ha with
  | core hr hA => exact ⟨_, _, rfl, hr, hA⟩
  | feed ht hq _ hne _ hle =>
    have := (Waiter.inputNow_write (S.input ht) hq).2.2
    have := List.length_pos_iff.mpr hne
    omega
  | draw ht hq hpre hne =>
    rw [(portNow_sound (S.port ht) hq).1] at hpre
    exact absurd (List.prefix_nil.mp hpre) hne
  | @prog x e hk hx hal hs =>
    exfalso
    obtain ⟨k, hk⟩ := Option.ne_none_iff_exists'.mp hk
    have := List.all_eq_true.mp S.progs _ (Table.get_mem hk)
    simp only [Waiter.programNow, Bool.or_eq_true, decide_eq_true_eq] at this
    replace this := this.resolve_left hx
    split at this
    · next hw =>
      rw [hw] at hal
      simp only [Bool.and_eq_true, decide_eq_true_eq] at this
      obtain ⟨⟨h1, h2⟩, h3⟩ := this
      cases hal with
      | took hne =>
        have := hs.2
        rw [h2] at this
        exact hne (List.prefix_nil.mp this)
      | sawEnd =>
        rcases hs with h | ⟨_, h⟩
        · exact h1 h
        · exact (Waiter.waitsNow_sound h3).2 h
    · next p m hw =>
      rw [hw] at hal
      simp only [Bool.and_eq_true, decide_eq_true_eq] at this
      obtain ⟨⟨⟨h0, h1⟩, h3⟩, h4⟩ := this
      obtain ⟨h5, h6⟩ := Waiter.waitsNow_sound h3
      cases hal with
      | put hpre hne =>
        have := List.length_pos_iff.mpr (hne h0)
        rcases hs.2 with h | ⟨_, h⟩
        · exact h5 h
        · omega
      | refused =>
        rcases hs with h | ⟨_, h⟩
        · exact h1 h
        · exact h6 h
    · cases this

end

theorem Waiter.asleep_sound (hT : w.WorldRun [] cap room prog T) (hst : execAll cap Store.init ((coreOf T).map Prod.snd) = some st) (h : w.asleep cap room prog st T = true) :
    ¬ w.Lively [] cap room prog st T := by
  simp only [Waiter.asleep, Bool.and_eq_true] at h
  obtain ⟨⟨hm, hb⟩, hpr⟩ := h
  have hm := Waiter.motionless_sound hst hm
  have S : w.Shuts room prog T := ⟨hb, hpr⟩
  rintro ⟨a, ha, hrest⟩
  obtain ⟨i, e, rfl, hr, hA⟩ := S.next ha
  obtain ⟨t, ht⟩ := Option.ne_none_iff_exists'.mp (hr.known (i, e) (by simp))
  have ht : w.sys [] i = some t := ht
  have hpar := hr.exec.tasks _ _ ht
  rw [proj_append, proj_one, if_pos rfl] at hpar
  have hd : ¬ t.Done (proj i (coreOf T)) := fun h => h.stops (u := []) hpar
  obtain ⟨h1, h2, h3⟩ := S.core hT ht hpar hA
  rcases hm i t ht hd ⟨e, hr⟩ with h | ⟨n, h, hn, hq⟩ | ⟨r, h⟩ | ⟨x, rfl, ⟨t', h, ht', hq⟩, _⟩
  · exact hrest i e rfl h
  · have htn := sys_node (cs := []) hn
    rw [ht] at htn; cases htn
    exact h1 _ hq
  · exact h2 r h
  · rw [ht] at ht'; cases ht'
    rcases hq with hq | ⟨d, hq⟩
    · exact (h3 x rfl).1 _ hq
    · exact (h3 x rfl).2 _ _ hq

/-- Everybody has ended or waits, for something to come, for room, or for something outside. -/
def Waiter.stuckNow (w : Waiter) (cap : Caps) (st : Store) (T : List Happening) : Bool :=
  (w.everyone []).all fun i => match w.sys [] i with
    | none => true
    | some t => t.finished (proj i (coreOf T)) || match t.waits (proj i (coreOf T)) with
      | none => false
      | some q => stuckOn cap st q || match q, i with
        | .streamRead _, _ => true
        | .ioWrite _ _, .part (.launch, _) .input => true
        | .status, .part _ .exit => true
        | _, _ => false

def Waiter.frozen (w : Waiter) (cap : Caps) (room : Nat) (prog : Str → Program) (st : Store) (T : List Happening) : Bool :=
  w.stuckNow cap st T && (w.everyone []).all (w.boundNow room T) && w.comps.all fun z => match z.1 with
    | (.launch, x) => w.programNow room prog T x
    | _ => true

theorem Waiter.frozen_sound (hT : w.WorldRun [] cap room prog T) (hst : execAll cap Store.init ((coreOf T).map Prod.snd) = some st) (h : w.frozen cap room prog st T = true) (a : Happening) :
    ¬ w.Next [] cap room prog T a := by
  simp only [Waiter.frozen, Bool.and_eq_true] at h
  obtain ⟨⟨hm, hb⟩, hpr⟩ := h
  have S : w.Shuts room prog T := ⟨hb, hpr⟩
  intro ha
  obtain ⟨i, e, rfl, hr, hA⟩ := S.next ha
  obtain ⟨t, ht⟩ := Option.ne_none_iff_exists'.mp (hr.known (i, e) (by simp))
  have ht : w.sys [] i = some t := ht
  have hpar := hr.exec.tasks _ _ ht
  rw [proj_append, proj_one, if_pos rfl] at hpar
  obtain ⟨h1, h2, h3⟩ := S.core hT ht hpar hA
  have hm := List.all_eq_true.mp hm i (sys_everyone (by rw [ht]; simp))
  rw [ht] at hm
  simp only [Bool.or_eq_true] at hm
  rcases hm with hm | hm
  · exact (Task.finished_done hm).stops (u := []) hpar
  · split at hm
    · cases hm
    · next q hq =>
      rw [Bool.or_eq_true] at hm
      rcases hm with hm | hm
      · have h5 := (Task.waits_awaits hq).next hpar
        have h6 := hr.exec.chans
        obtain ⟨q', r⟩ := e
        dsimp only at h5
        subst h5
        rw [List.map_append, execAll_append, hst] at h6
        simp [execAll, stuckOn_sound hm r] at h6
      · split at hm
        · exact h1 _ (Task.waits_awaits hq)
        · exact (h3 _ rfl).2 _ _ (Task.waits_awaits hq)
        · exact h2 _ rfl
        · cases hm

end
end Verif
