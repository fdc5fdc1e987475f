import Verif.Lemmas.Edge
import Verif.Lemmas.Only
import Verif.Model.Buffer
import Verif.Model.Poll
/-!
# The three activities of a buffer, as trees
-/
namespace Verif

/-- The end of the input half. -/
def inEnd (ch : BufferChans) (n : Nat) : Prog (Nat ⊕ Except MErr Nat) :=
  .op (.close .data ch.inner) fun _ => .op (.close .mon ch.mIn) fun _ => .ret (.inr (.ok n))

/-- The input half. -/
def inTree (ch : BufferChans) (j : PullJourney) (b : Breakable) (n : Nat) : Prog (Nat ⊕ Except MErr Nat) :=
  .op (.recv .data ch.input) fun
    | some d => .op (.send .data ch.inner d) fun
      | true => .op (.send .mon ch.mIn (.wrote 0)) fun
        | true => .ret (.inl (n + 1))
        | false => .ret (.inr (.error (.monitorWrite j)))
      | false => match b with
        | .terminate => .ret (.inr (.error (.outputClosed ⟨0, none, 0, b⟩ .channelClosed d)))
        | .consume => .op (.send .mon ch.mIn (.wrote 0)) fun
          | true => .ret (.inl (n + 1))
          | false => .ret (.inr (.error (.monitorWrite j)))
        | .finish => .op (.send .mon ch.mIn (.wrote 0)) fun
          | true => inEnd ch (n + 1)
          | false => .ret (.inr (.error (.monitorWrite j)))
    | none => .op (.send .mon ch.mIn (.wrote 0)) fun
      | true => inEnd ch (n + 1)
      | false => .ret (.inr (.error (.monitorWrite j)))

theorem bufferIn_tree (ch : BufferChans) (j : PullJourney) (out : Push) (n : Nat) :
    (bufferIn ch j out).body (n : Nat) = inTree ch j out.breakable n := by
  show Prog.op _ _ = Prog.op _ _
  congr 1
  funext r
  generalize out.breakable = b
  cases r with
  | none =>
    show Prog.op _ _ = Prog.op _ _
    congr 1; funext r; cases r <;> rfl
  | some d =>
    cases b <;> (show Prog.op _ _ = Prog.op _ _; congr 1; funext r; cases r)
    · show Prog.op _ _ = Prog.op _ _
      congr 1; funext r; cases r <;> rfl
    · show Prog.op _ _ = Prog.op _ _
      congr 1; funext r; cases r <;> rfl
    · show Prog.op _ _ = Prog.op _ _
      congr 1; funext r; cases r <;> rfl
    · show Prog.op _ _ = Prog.op _ _
      congr 1; funext r; cases r <;> rfl
    · rfl
    · show Prog.op _ _ = Prog.op _ _
      congr 1; funext r; cases r <;> rfl

/-- What a relay does with what it has read, notification of reading aside. -/
def outRest (ch : BufferChans) (out : Push) (n : Nat) (x : IOW) : Prog (Nat ⊕ Except MErr Nat) := do
  let r ← (do
    let r ← (do
      let unfinished ← pushAll x ch.spy [out] 1
      notifyWritten { read := some ch.mOut } (.receiver ⟨0, 0⟩ ch.inner)
      if unfinished = 0 then pure { finished := true, read := true }
      else pure { finished := decide (x = .finished), read := true } : M WorkerResult)
    let readCount := if r.read then n + 1 else n
    if r.finished then do
      closeAll [out]
      closeMon (some ch.mOut)
      closeMon none
      pure (Sum.inr (α := Nat) readCount)
    else pure (Sum.inl readCount) : M (Nat ⊕ Nat))
  match r with
  | .ok (.inl n) => pure (.inl n)
  | .ok (.inr n) => pure (.inr (.ok n))
  | .error e => pure (.inr (.error e))

/-- A response of a channel as a message or an end. -/
def iow : Option Bytes → IOW
  | some d => .data d
  | none => .finished

/-- The output half. -/
def outTree (ch : BufferChans) (out : Push) (n : Nat) : Prog (Nat ⊕ Except MErr Nat) :=
  .op (.recv .data ch.inner) fun x => .op (.send .mon ch.mOut (.read 0)) fun
    | true => outRest ch out n (iow x)
    | false => .ret (.inr (.error (.monitorRead 0)))

theorem bufferOut_tree (ch : BufferChans) (out : Push) (n : Nat) : (bufferOut ch out).body (n : Nat) = outTree ch out n := by
  show Prog.op _ _ = Prog.op _ _
  congr 1
  funext r
  cases r with
  | none =>
    show Prog.op _ _ = Prog.op _ _
    congr 1; funext r; cases r <;> rfl
  | some d =>
    show Prog.op _ _ = Prog.op _ _
    congr 1; funext r; cases r <;> rfl

/-- The second look of the count. -/
def countSecond (sender : Option Nat) (mIn mOut : Nat) (s : Total) (size : Nat) (moved : Bool) : Prog (Total ⊕ TotalEnd) :=
  .op (.tryRecv .mon mOut) fun
    | .got (.wrote _) => .ret (.inr .wrongMessage)
    | .got (.read _) => if size = 0 then .ret (.inr .underflow) else totalRest sender mIn mOut s.backOff true (size - 1) s.last
    | .empty => totalRest sender mIn mOut s.backOff moved size s.last
    | .closed => totalRest sender mIn mOut s.backOff moved size s.last

/-- The count. -/
def countTree (sender : Option Nat) (mIn mOut : Nat) (s : Total) : Prog (Total ⊕ TotalEnd) :=
  .op (.tryRecv .mon mIn) fun
    | .got (.read _) => .ret (.inr .wrongMessage)
    | .got (.wrote _) => countSecond sender mIn mOut s (s.size + 1) true
    | .empty => countSecond sender mIn mOut s s.size false
    | .closed => countSecond sender mIn mOut s s.size false

theorem total_tree (sender : Option Nat) (mIn mOut : Nat) (s : Total) : totalBody sender mIn mOut s = countTree sender mIn mOut s := by
  have second : ∀ size moved, countSecond sender mIn mOut s size moved = (req (.tryRecv .mon mOut) >>= fun y => match y with
      | .got (.wrote _) => pure (.inr .wrongMessage)
      | .got (.read _) => if size = 0 then pure (.inr .underflow) else totalRest sender mIn mOut s.backOff true (size - 1) s.last
      | _ => totalRest sender mIn mOut s.backOff moved size s.last) := by
    intro size moved
    show Prog.op _ _ = Prog.op _ _
    congr 1; funext r
    cases r with
    | got m => cases m <;> rfl
    | empty => rfl
    | closed => rfl
  show Prog.op _ _ = Prog.op _ _
  congr 1; funext r
  cases r with
  | got m => cases m <;> simp only [second] <;> rfl
  | empty => simp only [second]; rfl
  | closed => simp only [second]; rfl

end Verif
