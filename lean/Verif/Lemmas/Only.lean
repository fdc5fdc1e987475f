import Verif.Lemmas.Await
import Verif.Model.Buffer
import Verif.Model.Manager
namespace Verif

/-- All requests the program can ever make satisfy `P`. -/
def Prog.Only {α : Type} (P : Req → Prop) : Prog α → Prop
  | .ret _ => True
  | .op q k => P q ∧ ∀ r, Prog.Only P (k r)

theorem Prog.Only.bind {α β : Type} {P : Req → Prop} {p : Prog α} {f : α → Prog β} (hp : p.Only P) (hf : ∀ a, (f a).Only P) :
    (p >>= f).Only P := by
  show (Prog.bind p f).Only P
  induction p with
  | ret a => exact hf a
  | op q k ih => exact ⟨hp.1, fun r => ih r (hp.2 r)⟩

theorem Prog.only_req {P : Req → Prop} {q : Req} (h : P q) : (req q).Only P := ⟨h, fun _ => trivial⟩
theorem Prog.only_pure {α : Type} {P : Req → Prop} (a : α) : (pure a : Prog α).Only P := trivial

theorem Prog.Only.partial {α : Type} {P : Req → Prop} {p : Prog α} {t : List Ev} (hp : p.Only P) (h : p.Partial t) : ∀ e ∈ t, P e.q := by
  induction p generalizing t with
  | ret a => rw [Prog.partial_ret] at h; subst h; simp
  | op q k ih =>
    cases t with
    | nil => simp
    | cons e t =>
      obtain ⟨r, rfl, h⟩ := h
      intro e he
      rcases List.mem_cons.mp he with rfl | he
      · exact hp.1
      · exact ih r (hp.2 r) h e he

theorem Prog.Only.awaits {α : Type} {P : Req → Prop} {p : Prog α} {t : List Ev} {q : Req} (hp : p.Only P) (h : p.Awaits t q) : P q := by
  induction p generalizing t with
  | ret a => exact absurd h (by simp [Prog.Awaits])
  | op q' k ih =>
    cases t with
    | nil => have h : q' = q := h; subst h; exact hp.1
    | cons e t => obtain ⟨r, rfl, h⟩ := h; exact ih r (hp.2 r) h

theorem Prog.Only.mono {α : Type} {P Q : Req → Prop} {p : Prog α} (hp : p.Only P) (h : ∀ q, P q → Q q) : p.Only Q := by
  induction p with
  | ret a => trivial
  | op q k ih => exact ⟨h _ hp.1, fun r => ih r (hp.2 r)⟩

def MOnly {α : Type} (P : Req → Prop) (p : M α) : Prop := Prog.Only P p.run

theorem MOnly.bind {α β : Type} {P : Req → Prop} {p : M α} {f : α → M β} (hp : MOnly P p) (hf : ∀ a, MOnly P (f a)) : MOnly P (p >>= f) := by
  show Prog.Only P (Prog.bind p.run (ExceptT.bindCont f))
  apply Prog.Only.bind (p := p.run) hp
  intro a
  cases a with
  | ok a => exact hf a
  | error e => exact trivial

theorem monly_pure {α : Type} {P : Req → Prop} (a : α) : MOnly P (pure a : M α) := trivial
theorem monly_throw {α : Type} {P : Req → Prop} (e : MErr) : MOnly P (throw e : M α) := trivial
theorem monly_ask {P : Req → Prop} {q : Req} (h : P q) : MOnly P (ask q) := Prog.Only.bind (p := req q) (Prog.only_req h) (fun _ => trivial)
theorem MOnly.tryCatch {α : Type} {P : Req → Prop} {p : M α} {h : MErr → M α} (hp : MOnly P p) (hh : ∀ e, MOnly P (h e)) :
    MOnly P (tryCatch p h) := by
  show Prog.Only P (Prog.bind p.run _)
  apply Prog.Only.bind (p := p.run) hp
  intro a
  cases a with
  | ok a => exact trivial
  | error e => exact hh e

/-- The request concerns one of these channels or none. -/
def Within (L : List (Kind × Nat)) (q : Req) : Prop := ∀ kc, q.on = some kc → kc ∈ L

/-- The channels a relay uses. -/
def relayChans (pull : Pull) (mon : Notifications) (spy : Option Nat) (push : Push) : List (Kind × Nat) :=
  push.owned ++ (mon.read.map fun c => (Kind.mon, c)).toList ++ (mon.written.map fun c => (Kind.mon, c)).toList ++
    (spy.map fun c => (Kind.spy, c)).toList ++ pull.owned

theorem motionRead_only {L : List (Kind × Nat)} {pull : Pull} {b : Bool} (h : ∀ kc ∈ pull.owned, kc ∈ L) : MOnly (Within L) (motionRead pull b) := by
  cases pull with
  | none => cases b <;> simp [motionRead] <;> first | exact monly_pure _ | exact monly_throw _
  | receiver j c =>
    have hc : (Kind.data, c) ∈ L := h _ (by simp [Pull.owned])
    cases b
    · refine MOnly.bind (monly_ask (by intro kc hk; simp [Req.on] at hk; subst hk; exact hc)) ?_
      intro a; cases a <;> exact monly_pure _
    · refine MOnly.bind (monly_ask (by intro kc hk; simp [Req.on] at hk; subst hk; exact hc)) ?_
      intro a; cases a <;> exact monly_pure _
  | stream j c =>
    cases b
    · refine MOnly.bind (monly_ask (by intro kc hk; simp [Req.on] at hk)) ?_
      intro a; cases a <;> first | exact monly_pure _ | exact monly_throw _
    · exact monly_throw _

theorem motionWrite_only {L : List (Kind × Nat)} {push : Push} {d : Bytes} (h : ∀ kc ∈ push.owned, kc ∈ L) : MOnly (Within L) (motionWrite push d) := by
  cases push with
  | none => exact monly_pure _
  | sender j c =>
    refine MOnly.bind (monly_ask (by intro kc hk; simp [Req.on] at hk; subst hk; exact h _ (by simp [Push.owned]))) ?_
    intro a; cases a <;> simp <;> first | exact monly_pure _ | exact monly_throw _
  | io j c =>
    refine MOnly.bind (monly_ask (by intro kc hk; simp [Req.on] at hk)) ?_
    intro a; cases a <;> first | exact monly_pure _ | exact monly_throw _

theorem motionClose_only {L : List (Kind × Nat)} {push : Push} (h : ∀ kc ∈ push.owned, kc ∈ L) : MOnly (Within L) (motionClose push) := by
  cases push with
  | none => exact monly_pure _
  | sender j c => exact monly_ask (by intro kc hk; simp [Req.on] at hk; subst hk; exact h _ (by simp [Push.owned]))
  | io j c =>
    refine MOnly.bind (monly_ask (by intro kc hk; simp [Req.on] at hk)) ?_
    intro a; cases a <;> simp <;> first | exact monly_pure _ | exact monly_throw _

theorem writeOne_only {L : List (Kind × Nat)} {x : IOW} {push : Push} {n : Nat} (h : ∀ kc ∈ push.owned, kc ∈ L) : MOnly (Within L) (writeOne x push n) := by
  cases x with
  | finished => exact monly_pure _
  | skipped => exact monly_pure _
  | data d =>
    simp only [writeOne]
    split
    · exact MOnly.bind (motionWrite_only h) fun _ => monly_pure _
    · refine MOnly.tryCatch (MOnly.bind (motionWrite_only h) fun _ => monly_pure _) ?_
      intro e; cases e <;> first | exact monly_pure _ | exact monly_throw _

theorem spyOne_only {L : List (Kind × Nat)} {x : IOW} {spy : Option Nat} {push : Push} (h : ∀ c, spy = some c → (Kind.spy, c) ∈ L) :
    MOnly (Within L) (spyOne spy x push) := by
  unfold spyOne
  split
  · refine MOnly.bind (monly_ask (by intro kc hk; simp [Req.on] at hk; subst hk; exact h _ rfl)) ?_
    intro a; cases a <;> simp <;> first | exact monly_pure _ | exact monly_throw _
  · exact monly_pure _

theorem pushAll_only {L : List (Kind × Nat)} {x : IOW} {spy : Option Nat} {pushs : List Push} {n : Nat}
    (h : ∀ p ∈ pushs, ∀ kc ∈ p.owned, kc ∈ L) (hs : ∀ c, spy = some c → (Kind.spy, c) ∈ L) :
    MOnly (Within L) (pushAll x spy pushs n) := by
  induction pushs generalizing n with
  | nil => exact monly_pure _
  | cons p ps ih =>
    exact MOnly.bind (writeOne_only (h p (by simp))) fun _ => MOnly.bind (spyOne_only hs) fun _ => ih fun p hp => h p (by simp [hp])

theorem notifyRead_only {L : List (Kind × Nat)} {mon : Notifications} {pull : Pull} (h : ∀ c, mon.read = some c → (Kind.mon, c) ∈ L) :
    MOnly (Within L) (notifyRead mon pull) := by
  unfold notifyRead
  split
  · next c hc =>
    refine MOnly.bind (monly_ask (by intro kc hk; simp [Req.on] at hk; subst hk; exact h _ hc)) ?_
    intro a; cases a <;> simp
    · split <;> exact monly_throw _
    · exact monly_pure _
  · exact monly_pure _

theorem notifyWritten_only {L : List (Kind × Nat)} {mon : Notifications} {pull : Pull} (h : ∀ c, mon.written = some c → (Kind.mon, c) ∈ L) :
    MOnly (Within L) (notifyWritten mon pull) := by
  unfold notifyWritten
  split
  · next c hc =>
    refine MOnly.bind (monly_ask (by intro kc hk; simp [Req.on] at hk; subst hk; exact h _ hc)) ?_
    intro a; cases a <;> simp
    · split <;> exact monly_throw _
    · exact monly_pure _
  · exact monly_pure _

theorem motionWorker_only {L : List (Kind × Nat)} {pull mon pushs spy b} (h1 : ∀ kc ∈ pull.owned, kc ∈ L)
    (h2 : ∀ p ∈ pushs, ∀ kc ∈ Push.owned p, kc ∈ L) (h3 : ∀ c, spy = some c → (Kind.spy, c) ∈ L)
    (h4 : ∀ c, Notifications.read mon = some c → (Kind.mon, c) ∈ L) (h5 : ∀ c, Notifications.written mon = some c → (Kind.mon, c) ∈ L) :
    MOnly (Within L) (motionWorker pull mon pushs spy b) := by
  unfold motionWorker
  refine MOnly.bind (motionRead_only h1) fun x => ?_
  split
  · exact monly_pure _
  · refine MOnly.bind (notifyRead_only h4) fun _ => MOnly.bind (pushAll_only h2 h3) fun n => MOnly.bind (notifyWritten_only h5) fun _ => ?_
    split <;> exact monly_pure _

theorem closeMon_only {L : List (Kind × Nat)} {m : Option Nat} (h : ∀ c, m = some c → (Kind.mon, c) ∈ L) : MOnly (Within L) (closeMon m) := by
  cases m with
  | none => exact monly_pure _
  | some c => exact monly_ask (by intro kc hk; simp [Req.on] at hk; subst hk; exact h _ rfl)

theorem motionBody_only {pull mon spy push n} : (motionBody pull mon spy push n).Only (Within (relayChans pull mon spy push)) := by
  have h1 : ∀ kc ∈ pull.owned, kc ∈ relayChans pull mon spy push := by intro kc h; simp [relayChans, h]
  have h2 : ∀ p ∈ [push], ∀ kc ∈ Push.owned p, kc ∈ relayChans pull mon spy push := by intro p hp kc h; simp at hp; subst hp; simp [relayChans, h]
  have h3 : ∀ c, spy = some c → (Kind.spy, c) ∈ relayChans pull mon spy push := by rintro c rfl; simp [relayChans]
  have h4 : ∀ c, mon.read = some c → (Kind.mon, c) ∈ relayChans pull mon spy push := by intro c h; simp [relayChans, h]
  have h5 : ∀ c, mon.written = some c → (Kind.mon, c) ∈ relayChans pull mon spy push := by intro c h; simp [relayChans, h]
  unfold motionBody
  refine Prog.Only.bind (p := ExceptT.run _) ?_ ?_
  · refine MOnly.bind (motionWorker_only h1 h2 h3 h4 h5) fun r => ?_
    generalize (if r.read = true then n + 1 else n) = m
    show MOnly _ (if r.finished = true then _ else _)
    split
    · refine MOnly.bind ?_ fun _ => MOnly.bind (closeMon_only h4) fun _ => MOnly.bind (closeMon_only h5) fun _ => monly_pure _
      exact MOnly.bind (motionClose_only (h2 push (by simp))) fun _ => monly_pure _
    · exact monly_pure _
  · intro a
    rcases a with e | (n | n) <;> exact trivial

theorem LoopRounds.only {σ ρ : Type} {body : σ → Prog (σ ⊕ ρ)} {P : Req → Prop} (hb : ∀ s, (body s).Only P) {s t s'}
    (h : LoopRounds body s t s') : ∀ e ∈ t, P e.q := by
  induction h with
  | nil => simp
  | next hr _ ih =>
    intro e he
    rw [List.mem_append] at he
    rcases he with he | he
    · exact (hb _).partial (Prog.runs_partial hr) e he
    · exact ih e he

/-- All requests of a task. -/
theorem Task.only {t : Task} {P : Req → Prop} (hb : ∀ s, (t.body s).Only P) (hd : ∀ kc ∈ t.drops, P (.close kc.1 kc.2)) {tr : List Ev}
    (h : t.Partial tr) : ∀ e ∈ tr, P e.q := by
  have lp : ∀ {s tr}, LoopPartial t.body s tr → ∀ e ∈ tr, P e.q := by
    rintro s tr ⟨s', t1, t2, h1, h2, rfl⟩ e he
    rw [List.mem_append] at he
    rcases he with he | he
    · exact h1.only hb e he
    · exact (hb _).partial h2 e he
  rcases h with h | ⟨r, t1, t2, h1, h2, rfl⟩
  · exact lp h
  · intro e he
    rw [List.mem_append] at he
    rcases he with he | he
    · exact lp h1.toPartial e he
    · obtain ⟨k, c, hm, rfl⟩ := mem_dropEvs h2 e he
      exact hd (k, c) hm

theorem Task.only_awaits {t : Task} {P : Req → Prop} (hb : ∀ s, (t.body s).Only P) {tr : List Ev} {q : Req}
    (h : t.Awaits tr q) : P q := by
  obtain ⟨s', t1, t2, h1, h2, rfl⟩ := h
  exact (hb _).awaits h2

theorem relayTask_only {pull mon spy push tr} (h : (relayTask pull mon spy push).Partial tr) :
    ∀ e ∈ tr, Within (relayChans pull mon spy push) e.q := by
  refine Task.only (fun s => motionBody_only) ?_ h
  intro kc hkc x hx
  simp [Req.on] at hx
  subst hx
  simp only [relayTask, relayChans, List.mem_append] at hkc ⊢
  rcases hkc with (((h | h) | h) | h)
  · simp [h]
  · simp [h]
  · simp [h]
  · simp [h]

end Verif
