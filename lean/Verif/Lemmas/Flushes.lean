import Verif.Lemmas.RuntimeProgress
/-!
# What is flushed
-/
namespace Verif
section
variable {L : List End}

/-- Of all files and streams, only these are flushed. -/
def FlushIn (L : List End) (q : Req) : Prop := ∀ h, q = .ioFlush h → .handle h ∈ L

theorem motionRead_flushes {pull : Pull} {b : Bool} : MOnly (FlushIn L) (motionRead pull b) := by
  cases pull <;> cases b <;> simp only [motionRead] <;> first
    | exact monly_throw _
    | exact monly_pure _
    | (refine MOnly.bind (monly_ask (by intro h e; cases e)) ?_
       intro a; cases a <;> first | exact monly_pure _ | exact monly_throw _)

theorem motionClose_flushes {push : Push} (hp : ∀ e, push.target = some e → e ∈ L) : MOnly (FlushIn L) (motionClose push) := by
  cases push with
  | none => exact monly_pure _
  | sender j c => exact monly_ask (by intro h e; cases e)
  | io j c =>
    refine MOnly.bind (monly_ask (by intro h e; cases e; exact hp _ rfl)) ?_
    intro a; cases a <;> simp <;> first | exact monly_pure _ | exact monly_throw _

theorem motionWrite_flushes {push : Push} {d : Bytes} : MOnly (FlushIn L) (motionWrite push d) := by
  cases push with
  | none => exact monly_pure _
  | sender j c =>
    refine MOnly.bind (monly_ask (by intro h e; cases e)) ?_
    intro a; cases a <;> simp <;> first | exact monly_pure _ | exact monly_throw _
  | io j c =>
    refine MOnly.bind (monly_ask (by intro h e; cases e)) ?_
    intro a; cases a <;> first | exact monly_pure _ | exact monly_throw _


theorem writeOne_flushes {x : IOW} {push : Push} {n : Nat} : MOnly (FlushIn L) (writeOne x push n) := by
  cases x with
  | finished => exact monly_pure _
  | skipped => exact monly_pure _
  | data d =>
    simp only [writeOne]
    split
    · exact MOnly.bind motionWrite_flushes fun _ => monly_pure _
    · refine MOnly.tryCatch (MOnly.bind motionWrite_flushes fun _ => monly_pure _) ?_
      intro e; cases e <;> first | exact monly_pure _ | exact monly_throw _

theorem spyOne_flushes {x : IOW} {spy : Option Nat} {push : Push} : MOnly (FlushIn L) (spyOne spy x push) := by
  unfold spyOne
  split
  · refine MOnly.bind (monly_ask (by intro h e; cases e)) ?_
    intro a; cases a <;> simp <;> first | exact monly_pure _ | exact monly_throw _
  · exact monly_pure _

theorem pushAll_flushes {x : IOW} {spy : Option Nat} {pushs : List Push} {n : Nat} : MOnly (FlushIn L) (pushAll x spy pushs n) := by
  induction pushs generalizing n with
  | nil => exact monly_pure _
  | cons p ps ih => exact MOnly.bind writeOne_flushes fun _ => MOnly.bind spyOne_flushes fun _ => ih

theorem worker_flushes {pull mon pushs spy b} : MOnly (FlushIn L) (motionWorker pull mon pushs spy b) := by
  unfold motionWorker
  refine MOnly.bind motionRead_flushes fun x => ?_
  split
  · exact monly_pure _
  · refine MOnly.bind ?_ fun _ => MOnly.bind pushAll_flushes fun n => MOnly.bind ?_ fun _ => ?_
    · unfold notifyRead
      split
      · refine MOnly.bind (monly_ask (by intro h e; cases e)) ?_
        intro a; cases a <;> simp
        · split <;> exact monly_throw _
        · exact monly_pure _
      · exact monly_pure _
    · unfold notifyWritten
      split
      · refine MOnly.bind (monly_ask (by intro h e; cases e)) ?_
        intro a; cases a <;> simp
        · split <;> exact monly_throw _
        · exact monly_pure _
      · exact monly_pure _
    · split <;> exact monly_pure _

theorem relay_flushes {pull mon spy push n} (hp : ∀ e, push.target = some e → e ∈ L) : (motionBody pull mon spy push n).Only (FlushIn L) := by
  unfold motionBody
  refine Prog.Only.bind (p := ExceptT.run _) ?_ ?_
  · refine MOnly.bind worker_flushes fun r => ?_
    generalize (if r.read = true then n + 1 else n) = m
    show MOnly _ (if r.finished = true then _ else _)
    have closeMon : ∀ m, MOnly (FlushIn L) (closeMon m) := by
      intro m
      cases m with
      | none => exact monly_pure _
      | some c => exact monly_ask (by intro h e; cases e)
    split
    · refine MOnly.bind ?_ fun _ => MOnly.bind (closeMon _) fun _ => MOnly.bind (closeMon _) fun _ => monly_pure _
      exact MOnly.bind (motionClose_flushes hp) fun _ => monly_pure _
    · exact monly_pure _
  · intro a
    rcases a with e | (n | n) <;> exact trivial

theorem regulator_flushes {pull push spy ctl n} : (regulatorBody pull push spy ctl n).Only (FlushIn L) := by
  have point : (controlPoint ctl).Only (FlushIn L) := by
    cases ctl with
    | none => exact trivial
    | some c =>
      refine Prog.Only.bind (Prog.only_req (by intro h e; cases e)) fun a => ?_
      cases a with
      | got _ => exact Prog.Only.bind (Prog.only_req (by intro h e; cases e)) fun _ => trivial
      | _ => exact trivial
  unfold regulatorBody
  refine Prog.Only.bind (p := ExceptT.run _) worker_flushes fun a => ?_
  rcases a with e | r
  · cases e with
    | outputClosed j why d =>
      dsimp only
      split
      · exact trivial
      · split
        · exact trivial
        · exact Prog.Only.bind point fun _ => trivial
    | _ => exact trivial
  · dsimp only
    split
    · refine Prog.Only.bind ?_ fun _ => trivial
      cases ctl with
      | none => exact trivial
      | some c => exact Prog.only_req (by intro h e; cases e)
    · exact Prog.Only.bind point fun _ => trivial

theorem junctionLoop_flushes {pushs spy pulls i acc} : MOnly (FlushIn L) (junctionLoop pushs spy pulls i acc) := by
  induction pulls generalizing i acc with
  | nil => exact monly_pure _
  | cons p ps ih =>
    simp only [junctionLoop]
    split
    · exact ih
    · exact MOnly.bind worker_flushes fun _ => ih

theorem iterationLoop_flushes {pushs spy G i f n} : MOnly (FlushIn L) (iterationLoop pushs spy G i f n) := by
  induction G generalizing i f n with
  | nil => exact monly_pure _
  | cons g G ih =>
    simp only [iterationLoop, junctionMotionWorker]
    refine MOnly.bind junctionLoop_flushes fun r => ?_
    split
    · exact monly_pure _
    · exact ih

theorem dropPull_flushes {p : Pull} : MOnly (FlushIn L) (dropPull p) := by
  cases p with
  | receiver j c => exact monly_ask (by intro h e; cases e)
  | _ => exact monly_pure _

theorem removeFinished_flushes {fs G} : MOnly (FlushIn L) (removeFinished fs G) := by
  induction fs generalizing G with
  | nil => exact monly_pure _
  | cons x fs ih =>
    obtain ⟨i, j⟩ := x
    simp only [removeFinished]
    split
    · split
      · exact MOnly.bind dropPull_flushes fun _ => ih
      · exact MOnly.bind (monly_pure _) fun _ => ih
    · exact MOnly.bind (monly_pure _) fun _ => ih

theorem closeAll_flushes {pushs : List Push} (hp : ∀ p ∈ pushs, ∀ e, p.target = some e → e ∈ L) : MOnly (FlushIn L) (closeAll pushs) := by
  induction pushs with
  | nil => exact monly_pure _
  | cons p ps ih => exact MOnly.bind (motionClose_flushes (hp p (by simp))) fun _ => ih fun q hq => hp q (by simp [hq])

theorem dropAll_flushes {ps : List Pull} : MOnly (FlushIn L) (dropAll ps) := by
  induction ps with
  | nil => exact monly_pure _
  | cons p ps ih => exact MOnly.bind dropPull_flushes fun _ => ih

theorem wait_flushes {b : BackOff} : MOnly (FlushIn L) (ExceptT.lift b.wait : M _) :=
  Prog.Only.bind (p := b.wait) (Prog.Only.bind (Prog.only_req (by intro h e; cases e)) fun _ => trivial) fun _ => trivial

theorem junctionBody_flushes {pushs spy s} (hp : ∀ p ∈ pushs, ∀ e, p.target = some e → e ∈ L) : (junctionBody pushs spy s).Only (FlushIn L) := by
  unfold junctionBody
  refine Prog.Only.bind (p := ExceptT.run _) ?_ ?_
  · unfold iteration
    refine MOnly.bind iterationLoop_flushes fun x => ?_
    obtain ⟨f, any, n⟩ := x
    refine MOnly.bind removeFinished_flushes fun G => ?_
    dsimp only
    split
    · exact MOnly.bind (closeAll_flushes hp) fun _ => monly_pure _
    · split
      · exact monly_pure _
      · exact MOnly.bind wait_flushes fun _ => monly_pure _
  · intro a
    rcases a with e | (_ | _)
    · exact Prog.Only.bind (p := ExceptT.run _) dropAll_flushes fun _ => trivial
    · exact trivial
    · exact trivial

/-- A component flushes only what it writes to. -/
theorem node_flushes {n : Node} {tr : List Ev} {h : Nat} (hq : n.task.Awaits tr (.ioFlush h)) : .handle h ∈ n.targets := by
  cases n with
  | relay pull mon spy push =>
    exact Task.only_awaits (t := (Node.relay pull mon spy push).task) (P := FlushIn _) (fun s => relay_flushes fun e he => by simp [Node.targets, he]) hq h rfl
  | regulator pull push spy ctl =>
    exact Task.only_awaits (t := (Node.regulator pull push spy ctl).task) (P := FlushIn _) (fun s => regulator_flushes) hq h rfl
  | junction inputs pushs spy =>
    exact Task.only_awaits (t := (Node.junction inputs pushs spy).task) (P := FlushIn _) (fun s => junctionBody_flushes fun p hp e he => List.mem_filterMap.mpr ⟨p, hp, he⟩) hq h rfl

end
end Verif
