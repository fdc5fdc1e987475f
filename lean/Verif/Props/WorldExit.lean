import Verif.Props.RuntimeFlow
import Verif.Lemmas.WorldExit
import Verif.Props.WorldEndsExample
/-!
# C89: What pipes hold and what a program ends with
-/
namespace Verif
section
variable {w : Waiter} {cs : List Capture} {cap : Caps} {room : Nat} {prog : Str → Program} {T : List Happening}

/-- **C89** No more lies between the code and a program than a pipe holds, in either direction. -/
theorem C89_pipes (h : w.WorldRun cs cap room prog T) (x : Str) :
    (inPipe x T).length ≤ room ∧ ∀ p : Port, w.sys cs (.part (.launch, x) p.piece) ≠ none → (outPipe x p T).length ≤ room := by
  induction h with
  | start => simp [inPipe, outPipe, fedTo, historyOf, putOut]
  | @next T a hT ha ih =>
    cases ha with
    | core _ _ => simpa [inPipe, outPipe] using ih
    | @feed y d m t hd h1 h2 h3 h4 h5 h6 =>
      refine ⟨?_, fun p hp => by simpa [outPipe] using ih.2 p hp⟩
      by_cases e : y = x
      · subst e
        have := (hT.taken y).length_le
        simp only [inPipe, fedTo_append, fedTo_feed, if_true, historyOf_append, historyOf_feed, List.append_nil, List.length_drop, List.length_append] at h6 ⊢
        omega
      · simpa [inPipe, e] using ih.1
    | @draw y q d t hd h1 h2 h3 h4 =>
      refine ⟨by simpa [inPipe] using ih.1, fun p hp => ?_⟩
      have := ih.2 p hp
      simp only [outPipe, drawnFrom_append, drawnFrom_draw, historyOf_append, historyOf_draw, List.append_nil, List.length_drop, List.flatten_append, List.length_append] at this ⊢
      omega
    | @prog y e h1 h2 h3 h4 =>
      by_cases e' : y = x
      · subst e'
        refine ⟨?_, fun p hp => ?_⟩
        · have := ih.1
          simp only [inPipe, fedTo_append, fedTo_prog, historyOf_append, historyOf_prog, if_true, List.append_nil, List.length_drop, takenIn_append, List.length_append] at this ⊢
          omega
        · have h5 := ih.2 p hp
          have h6 := (hT.drawn y p).length_le
          simp only [outPipe, drawnFrom_append, drawnFrom_prog, historyOf_append, historyOf_prog, if_true, List.append_nil, List.length_drop, putOut_append, List.length_append] at h5 ⊢
          cases e with
          | put q d =>
            by_cases hq : q = p
            · subst hq
              rcases h4.2 with h7 | ⟨_, h7⟩
              · exact absurd h7 hp
              · simp only [outPipe, List.length_drop] at h7
                simp only [putOut, List.flatMap_cons, List.flatMap_nil, if_true, List.append_nil] at h7 ⊢
                simp only [putOut] at h6
                omega
            · simpa [putOut, hq] using h5
          | _ => simpa [putOut] using h5
      · simpa [inPipe, outPipe, e'] using ih

variable {c : Config} {R : Map Hop} {order : List (Str × Watch)} {w' : Waiter}

/-- The text for what a program has ended with: its exit code in decimal notation, or an underscore if it was killed. -/
def EndText (k : Option Int) (m : Bytes) : Prop := match k with
  | some n => ∃ s, Decimal n s ∧ m = s.map fun c => c.toNat.toUInt8
  | none => m = [95]

theorem endText {k : Option Int} {m : Bytes} (h : ExitText (statusOf k) m) : EndText k m := by
  cases k <;> exact h

/-- **C89** At every moment nothing has come through an exit port, or one message: then the program has ended, the message is the text of its exit code, and everything to and from the program had ended before. -/
theorem C89_exit (hc : c.connection = hopSets R) (hw : getWaiter c = .ok w) (hp : w.regulatorSettings order = .ok (cs, w')) (hC : Complete (R.map (·.2)))
    (hT : w'.WorldRun cs cap room prog T) {i : Nat} {h : Hop} (hi : (R.map (·.2))[i]? = some h) (hx : h.isExit) :
    receivedFrom (.chan i) (proj h.reader (coreOf T)) = [] ∨
    ∃ l k m, historyOf h.src.name T = l ++ [.exit k] ∧ ¬ Exited l ∧ receivedFrom (.chan i) (proj h.reader (coreOf T)) = [m] ∧ EndText k m ∧
      ∀ p ∈ relayPieces, w'.RelayOver cs (coreOf T) h.src.name p := by
  have hwr := ((assembled hc hw hp).exitSys (cs := cs) hi hx).1
  have hfrom : h.from = (.launch, h.src.name) := by
    show (h.src.ty, h.src.name) = _
    rw [hx.1]
  rcases C65_exit hc hw hp hC hT.core hi hx with h0 | ⟨τ₁, τ₂, n, s, m, h1, h2, _, h3, h4, h5⟩
  · exact Or.inl h0
  · right
    have hs := mem_statuses (s := s) (by rw [h4]; simp)
    rw [hwr, hfrom] at hs
    obtain ⟨k, hk, rfl⟩ := hT.status hs
    obtain ⟨l, hl, hn⟩ := hT.final hk
    refine ⟨l, k, m, hl, hn, h3, endText h5, fun p hp t ht => ?_⟩
    rw [← hfrom] at ht ⊢
    rw [h1, proj_append]
    have hd := h2 p hp t ht
    have hpar := hT.core.exec.tasks _ _ ht
    rw [h1, proj_append] at hpar
    cases hu : proj (.part h.from p) τ₂ with
    | nil => simpa using hd
    | cons e u =>
      rw [hu] at hpar
      exact absurd hpar hd.stops

/-- **C89** In the end, if nothing fails but programs, every exit port has told what its program has ended with. -/
theorem C89_exit_complete (hc : c.connection = hopSets R) (hw : getWaiter c = .ok w) (hp : w.regulatorSettings order = .ok (cs, w')) (hC : Complete (R.map (·.2)))
    (hT : w'.WorldRun cs cap room prog T) (ho : w'.Over cs (coreOf T)) (hf : ∀ i, ∀ f ∈ acts (proj i (coreOf T)), f.trouble = false)
    {i : Nat} {h : Hop} (hi : (R.map (·.2))[i]? = some h) (hx : h.isExit) :
    ∃ l k m, historyOf h.src.name T = l ++ [.exit k] ∧ ¬ Exited l ∧ receivedFrom (.chan i) (proj h.reader (coreOf T)) = [m] ∧ EndText k m := by
  obtain ⟨_, _, m, h1, _⟩ := C65_exit_complete hc hw hp hC hT.core ho hf hi hx
  rcases C89_exit hc hw hp hC hT hi hx with h0 | ⟨l, k, m', h2, h3, h4, h5, _⟩
  · rw [h0] at h1; cases h1
  · exact ⟨l, k, m', h2, h3, h4, h5⟩

end

/-- What the program called grind has ended with has come to the drain called code: an exit code of 0. -/
example : (∃ l, historyOf "grind".toList quernAll = l ++ [.exit (some 0)]) ∧ receivedFrom (.chan 4) (proj (.part (.drain, "code".toList) .main) (coreOf quernAll)) = [[48]] ∧
    ∃ l k m, historyOf "grind".toList quernAll = l ++ [.exit k] ∧ ¬ Exited l ∧ receivedFrom (.chan 4) (proj (.part (.drain, "code".toList) .main) (coreOf quernAll)) = [m] ∧ EndText k m := by
  refine ⟨?_, by decide +kernel, ?_⟩
  · obtain ⟨l, hl, _⟩ := quern_runs.final (x := "grind".toList) (k := some 0) (by decide +kernel)
    exact ⟨l, hl⟩
  · exact C89_exit_complete (c := quernConfig) (R := quern) (order := []) rfl quern_built rfl quern_complete quern_runs quern_over.1 (quern_runs.core.calm (by decide +kernel)) (i := 4)
      (h := ⟨⟨.launch, "grind".toList, .exit⟩, none, ⟨.drain, "code".toList⟩, ⟨.terminate, 0⟩, none⟩) rfl ⟨rfl, rfl⟩
theorem quernTrace_runs (n : Nat) : quernWaiter.WorldRun [] quernCaps 2 quernProgs (quernTrace n) := Waiter.worldDrive_runs _ _

/-- The pipe to it has been full. -/
example : inPipe "grind".toList (quernTrace 8) = [3, 4] ∧ (inPipe "grind".toList (quernTrace 8)).length ≤ 2 := ⟨by decide +kernel, (C89_pipes (quernTrace_runs 8) _).1⟩

end Verif
