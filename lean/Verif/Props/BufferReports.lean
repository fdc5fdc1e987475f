import Verif.Lemmas.History
import Verif.Props.BufferCount
/-!
# Property C24: what a buffer reports, and when its count ends
-/
namespace Verif

/-- The size last reported on channel `c`. -/
def lastReport (c : Nat) (tr : List Ev) : Nat := ((sentOn .size c tr).getLast?).getD 0

/-- Both notification channels have just been found empty and closed. -/
def EndSeen (mIn mOut : Nat) (tr : List Ev) : Prop :=
  ∃ u, tr = u ++ [⟨.stat .mon mIn, (true, true)⟩, ⟨.stat .mon mOut, (true, true)⟩]

section
variable {sender : Option Nat} {mIn mOut : Nat}

theorem endSeen_snoc {tr : List Ev} {e : Ev} (h : EndSeen mIn mOut (tr ++ [e])) :
    e = ⟨.stat .mon mOut, (true, true)⟩ ∧ ∃ u, tr = u ++ [⟨.stat .mon mIn, (true, true)⟩] := by
  obtain ⟨u, h⟩ := h
  rw [show u ++ [(⟨.stat .mon mIn, (true, true)⟩ : Ev), ⟨.stat .mon mOut, (true, true)⟩] =
    (u ++ [⟨.stat .mon mIn, (true, true)⟩]) ++ [⟨.stat .mon mOut, (true, true)⟩] by simp] at h
  obtain ⟨h1, h2⟩ := List.append_inj' h rfl
  simp at h2
  exact ⟨h2, u, h1⟩

/-- What the count has to do with at each request. -/
def CountAsks (sender : Option Nat) (mIn mOut : Nat) (tr : List Ev) (q : Req) : Prop :=
  ¬ EndSeen mIn mOut tr ∧
  (∀ c, sender = some c → ∀ c' v, q = .send .size c' v → c' = c ∧ v ≠ lastReport c tr ∧ v + nGot .mon mOut tr = nGot .mon mIn tr) ∧
  (∀ c, sender = some c → q = .stat .mon mIn → lastReport c tr + nGot .mon mOut tr = nGot .mon mIn tr) ∧
  (sender = none → ∀ c' v, q ≠ .send .size c' v)

/-- What the count leaves behind. -/
def CountLeaves (sender : Option Nat) (mIn mOut : Nat) (tr : List Ev) : TotalEnd → Prop
  | .done n => EndSeen mIn mOut tr ∧ n + nGot .mon mOut tr = nGot .mon mIn tr ∧ ∀ c, sender = some c → lastReport c tr = n
  | .sendError => ∃ c v u, sender = some c ∧ tr = u ++ [⟨.send .size c v, false⟩]
  | _ => True

/-- Between two rounds. -/
def CountHas (sender : Option Nat) (mIn mOut : Nat) (tr : List Ev) (s : Total) : Prop :=
  ¬ EndSeen mIn mOut tr ∧ s.size + nGot .mon mOut tr = nGot .mon mIn tr ∧ ∀ c, sender = some c → lastReport c tr = s.size ∧ s.last = s.size

theorem lastReport_snoc (c : Nat) (tr : List Ev) (e : Ev) : lastReport c (tr ++ [e]) = (sentOf .size c e).getD (lastReport c tr) := by
  simp only [lastReport, sentOn, List.filterMap_append, List.filterMap_cons, List.filterMap_nil]
  cases sentOf .size c e <;> simp

theorem rest_keeps (hne : mIn ≠ mOut) {b : BackOff} {moved : Bool} {size last : Nat} {tr : List Ev} (h0 : ¬ EndSeen mIn mOut tr)
    (h1 : size + nGot .mon mOut tr = nGot .mon mIn tr) (h2 : ∀ c, sender = some c → lastReport c tr = last) :
    (totalRest sender mIn mOut b moved size last).Keeps (CountAsks sender mIn mOut) (Onward (CountHas sender mIn mOut) (CountLeaves sender mIn mOut)) tr := by
  have notSeen : ∀ {tr : List Ev} {e : Ev}, e.q ≠ .stat .mon mOut → ¬ EndSeen mIn mOut (tr ++ [e]) := by
    intro tr e he h
    exact he (by rw [(endSeen_snoc h).1])
  -- the end of the round
  have fin : ∀ {tr last}, ¬ EndSeen mIn mOut tr → size + nGot .mon mOut tr = nGot .mon mIn tr →
      (∀ c, sender = some c → lastReport c tr = size ∧ last = size) →
      ((if moved then pure (.inl ⟨size, last, b.reset.1⟩)
        else do
          let (b, _) ← b.wait
          pure (.inl ⟨size, last, b⟩)) : Prog (Total ⊕ TotalEnd)).Keeps
        (CountAsks sender mIn mOut) (Onward (CountHas sender mIn mOut) (CountLeaves sender mIn mOut)) tr := by
    intro tr last h0 h1 h2
    cases moved with
    | true => exact ⟨h0, h1, h2⟩
    | false =>
      refine ⟨⟨h0, by simp, by simp, by simp⟩, fun r => ?_⟩
      exact ⟨notSeen (by simp), by rw [nGot_snoc, nGot_snoc]; simpa [gotOf] using h1, fun c hc => by simpa [lastReport_snoc, sentOf] using h2 c hc⟩
  -- the checks
  have rest : ∀ {tr last}, ¬ EndSeen mIn mOut tr → size + nGot .mon mOut tr = nGot .mon mIn tr →
      (∀ c, sender = some c → lastReport c tr = size ∧ last = size) →
      ((do
        let (e, c) ← req (.stat .mon mIn)
        let (e', c') ← (if e && c then req (.stat .mon mOut) else pure (false, false) : Prog (Bool × Bool))
        if e && c && e' && c' then pure (.inr (.done size))
        else if moved then pure (.inl ⟨size, last, b.reset.1⟩)
        else do
          let (b, _) ← b.wait
          pure (.inl ⟨size, last, b⟩)) : Prog (Total ⊕ TotalEnd)).Keeps
        (CountAsks sender mIn mOut) (Onward (CountHas sender mIn mOut) (CountLeaves sender mIn mOut)) tr := by
    intro tr last h0 h1 h2
    refine ⟨⟨h0, by simp, fun c hc _ => by rw [(h2 c hc).1]; exact h1, by simp⟩, ?_⟩
    rintro ⟨e, c⟩
    have k0 : ¬ EndSeen mIn mOut (tr ++ [⟨.stat .mon mIn, (e, c)⟩]) := notSeen (by simp [hne])
    have k1 : size + nGot .mon mOut (tr ++ [⟨.stat .mon mIn, (e, c)⟩]) = nGot .mon mIn (tr ++ [⟨.stat .mon mIn, (e, c)⟩]) := by
      rw [nGot_snoc, nGot_snoc]; simpa [gotOf] using h1
    have k2 : ∀ d, sender = some d → lastReport d (tr ++ [⟨.stat .mon mIn, (e, c)⟩]) = size ∧ last = size := fun d hd => by
      simpa [lastReport_snoc, sentOf] using h2 d hd
    by_cases hec : (e && c) = true
    · have he : e = true := by cases e <;> simp_all
      have hc : c = true := by cases c <;> simp_all
      subst he hc
      refine ⟨⟨k0, by simp, fun c hc hq => by simp [Ne.symm hne] at hq, by simp⟩, ?_⟩
      rintro ⟨e', c'⟩
      have l1 : size + nGot .mon mOut (tr ++ [⟨.stat .mon mIn, (true, true)⟩] ++ [⟨.stat .mon mOut, (e', c')⟩]) =
          nGot .mon mIn (tr ++ [⟨.stat .mon mIn, (true, true)⟩] ++ [⟨.stat .mon mOut, (e', c')⟩]) := by
        rw [nGot_snoc _ _ (tr ++ _), nGot_snoc _ _ (tr ++ _)]; simpa [gotOf] using k1
      have l2 : ∀ d, sender = some d → lastReport d (tr ++ [⟨.stat .mon mIn, (true, true)⟩] ++ [⟨.stat .mon mOut, (e', c')⟩]) = size ∧ last = size :=
        fun d hd => by rw [lastReport_snoc]; simpa [sentOf] using k2 d hd
      by_cases hec' : (e' && c') = true
      · have he : e' = true := by cases e' <;> simp_all
        have hc : c' = true := by cases c' <;> simp_all
        subst he hc
        exact ⟨⟨tr, by simp⟩, l1, fun d hd => (l2 d hd).1⟩
      · have l0 : ¬ EndSeen mIn mOut (tr ++ [⟨.stat .mon mIn, (true, true)⟩] ++ [⟨.stat .mon mOut, (e', c')⟩]) := by
          intro h
          have h := (endSeen_snoc h).1
          simp at h
          simp [h] at hec'
        have := fin l0 l1 l2
        cases e' <;> cases c' <;> first | exact this | simp at hec'
    · have := fin k0 k1 k2
      cases e <;> cases c <;> first | exact this | simp at hec
  unfold totalRest reportSize
  cases hs : sender with
  | none =>
    rw [hs] at rest
    exact rest h0 h1 (by simp)
  | some c =>
    have h2 := h2 c hs
    rw [hs] at rest
    by_cases hl : last ≠ size
    · simp only [hl, if_true, ne_eq, not_false_eq_true]
      refine ⟨⟨h0, ?_, by simp, by simp⟩, fun r => ?_⟩
      · intro d hd c' v hq
        simp at hd hq
        obtain ⟨rfl, rfl⟩ := hq
        subst hd
        exact ⟨rfl, by rw [h2]; exact Ne.symm hl, h1⟩
      · cases r with
        | false => exact ⟨c, size, tr, rfl, rfl⟩
        | true =>
          refine rest (notSeen (by simp)) (by rw [nGot_snoc, nGot_snoc]; simpa [gotOf] using h1) fun d hd => ?_
          simp at hd; subst hd
          simp [lastReport_snoc, sentOf]
    · have : last = size := by simpa using hl
      subst this
      simp only [ne_eq, not_true_eq_false, if_false]
      exact rest h0 h1 fun d hd => by simp at hd; subst hd; exact ⟨h2, rfl⟩

theorem count_keeps (hne : mIn ≠ mOut) (tr : List Ev) (s : Total) (h : CountHas sender mIn mOut tr s) :
    (totalBody sender mIn mOut s).Keeps (CountAsks sender mIn mOut) (Onward (CountHas sender mIn mOut) (CountLeaves sender mIn mOut)) tr := by
  obtain ⟨h0, h1, h2⟩ := h
  rw [total_tree]
  have notSeen : ∀ {tr : List Ev} {e : Ev}, e.q ≠ .stat .mon mOut → ¬ EndSeen mIn mOut (tr ++ [e]) := by
    intro tr e he h
    exact he (by rw [(endSeen_snoc h).1])
  have second : ∀ {tr size moved}, ¬ EndSeen mIn mOut tr → size + nGot .mon mOut tr = nGot .mon mIn tr →
      (∀ c, sender = some c → lastReport c tr = s.last) →
      (countSecond sender mIn mOut s size moved).Keeps (CountAsks sender mIn mOut) (Onward (CountHas sender mIn mOut) (CountLeaves sender mIn mOut)) tr := by
    intro tr size moved h0 h1 h2
    refine ⟨⟨h0, by simp, by simp, by simp⟩, fun r => ?_⟩
    have l2 : ∀ c, sender = some c → lastReport c (tr ++ [⟨.tryRecv .mon mOut, r⟩]) = s.last := fun c hc => by
      rw [lastReport_snoc]; simpa [sentOf] using h2 c hc
    cases r with
    | got m =>
      cases m with
      | wrote m => exact trivial
      | read m =>
        show Prog.Keeps _ _ (if size = 0 then _ else _) _
        split
        · exact trivial
        · refine rest_keeps hne (notSeen (by simp)) ?_ l2
          rw [nGot_snoc, nGot_snoc]; simp [gotOf, Ne.symm hne]; omega
    | empty => exact rest_keeps hne (notSeen (by simp)) (by rw [nGot_snoc, nGot_snoc]; simpa [gotOf] using h1) l2
    | closed => exact rest_keeps hne (notSeen (by simp)) (by rw [nGot_snoc, nGot_snoc]; simpa [gotOf] using h1) l2
  refine ⟨⟨h0, by simp, by simp, by simp⟩, fun r => ?_⟩
  have l2 : ∀ c, sender = some c → lastReport c (tr ++ [⟨.tryRecv .mon mIn, r⟩]) = s.last := fun c hc => by
    rw [lastReport_snoc, (h2 c hc).2]; simpa [sentOf] using (h2 c hc).1
  cases r with
  | got m =>
    cases m with
    | wrote m => 
      refine second (notSeen (by simp)) ?_ l2
      rw [nGot_snoc, nGot_snoc]; simp [gotOf, hne]; omega
    | read m => exact trivial
  | empty => exact second (notSeen (by simp)) (by rw [nGot_snoc, nGot_snoc]; simpa [gotOf] using h1) l2
  | closed => exact second (notSeen (by simp)) (by rw [nGot_snoc, nGot_snoc]; simpa [gotOf] using h1) l2

theorem count_starts : CountHas sender mIn mOut [] (totalTask sender mIn mOut).init := by
  refine ⟨?_, rfl, fun c _ => ⟨rfl, rfl⟩⟩
  rintro ⟨u, h⟩
  simp at h

/-- **C24**, every change is reported: whenever the count has handled what there was and checks whether there is more to come, the
size last reported (0 if none) is the number of notifications of writing handled so far minus that of notifications of reading. -/
theorem C24_current {c : Nat} (hne : mIn ≠ mOut) {tr : List Ev} {r : Bool × Bool}
    (h : (totalTask (some c) mIn mOut).Partial (tr ++ [⟨.stat .mon mIn, r⟩])) :
    lastReport c tr + (gotOn .mon mOut tr).length = (gotOn .mon mIn tr).length := by
  rcases Task.keeps_request (t := totalTask (some c) mIn mOut) (count_keeps hne) count_starts h with h | ⟨_, _, h⟩
  · exact h.2.2.1 c rfl rfl
  · simp at h

/-- **C24**, only changes are reported, and to the monitor only. -/
theorem C24_changed {c c' v : Nat} (hne : mIn ≠ mOut) {tr : List Ev} {r : Bool}
    (h : (totalTask (some c) mIn mOut).Partial (tr ++ [⟨.send .size c' v, r⟩])) : c' = c ∧ v ≠ lastReport c tr := by
  rcases Task.keeps_request (t := totalTask (some c) mIn mOut) (count_keeps hne) count_starts h with h | ⟨_, _, h⟩
  · have := h.2.1 c rfl c' v rfl
    exact ⟨this.1, this.2.1⟩
  · simp at h

/-- **C24**, the count ends normally exactly when it finds both notification channels empty and closed one after the
other; what it ends with is what it has reported last. -/
theorem C24_ends (hne : mIn ≠ mOut) {tr : List Ev} {n : Nat}
    (h : LoopRuns (totalTask sender mIn mOut).body (totalTask sender mIn mOut).init tr (.done n)) :
    EndSeen mIn mOut tr ∧ n + (gotOn .mon mOut tr).length = (gotOn .mon mIn tr).length ∧ ∀ c, sender = some c → lastReport c tr = n :=
  keeps_loop (count_keeps hne) h count_starts

/-- **C24**, having found both channels empty and closed the count does nothing more. -/
theorem C24_then_ends (hne : mIn ≠ mOut) {tr : List Ev} {e : Ev} (h : (totalTask sender mIn mOut).Partial (tr ++ [e])) (hs : EndSeen mIn mOut tr) :
    ∃ k c, e = ⟨.close k c, ()⟩ := by
  rcases Task.keeps_request (t := totalTask sender mIn mOut) (count_keeps hne) count_starts h with h | h
  · exact absurd hs h.1
  · exact h

end

/-- An empty closed channel stays empty. -/
theorem over_empty {cap : Caps} {st st' : Store} {es : List Ev} {k : Kind} {c : Nat} (h : execAll cap st es = some st') (hq : (st k c).q = [])
    (hc : (st k c).closed = true) : (st' k c).q = [] := by
  induction es generalizing st with
  | nil => simp [execAll] at h; subst h; exact hq
  | cons e es ih =>
    simp only [execAll] at h
    split at h
    · simp at h
    · rename_i st1 he
      obtain ⟨h1, h2, h3⟩ := exec_chan he k c
      refine ih h ?_ (by rw [h2, hc]; rfl)
      cases hs : sentOf k c e with
      | some v => have := (h3 v hs).1; rw [hc] at this; simp at this
      | none =>
        rw [hs, hq] at h1
        simp at h1
        exact h1.2

/-- **C24**, in the end: when the count of a buffer has ended normally, no notification was left unhandled, and what it ended with (and reported last) is
the number of notifications of writing sent minus that of notifications of reading sent. -/
theorem C24_final {ι : Type} [DecidableEq ι] {cap : Caps} {sys : ι → Option Task} {τ : List (ι × Ev)} {a b t : ι}
    {ch : BufferChans} {j : PullJourney} {out : Push} (h : BufferOwn cap sys τ a b t ch j out)
    {t1 t2 : List Ev} {n : Nat} (hr : LoopRuns (bufferCount ch).body (bufferCount ch).init t1 (.done n)) (ht : proj t τ = t1 ++ t2) :
    n + (sentOn .mon ch.mOut (proj b τ)).length = (sentOn .mon ch.mIn (proj a τ)).length ∧
    ∀ c, ch.size = some c → lastReport c t1 = n := by
  obtain ⟨⟨u, hu⟩, hn, hl⟩ := C24_ends h.mons hr
  refine ⟨?_, hl⟩
  obtain ⟨st, hst⟩ := Option.isSome_iff_exists.mp h.run.chans
  obtain ⟨f1, f2, _⟩ := h.fifos hst
  have empty : ∀ {c u v}, proj t τ = u ++ ⟨.stat .mon c, (true, true)⟩ :: v → (st .mon c).q = [] := by
    intro c u v he
    obtain ⟨τ1, τ2, rfl, _, _⟩ := proj_split he
    rw [List.map_append] at hst
    obtain ⟨s1, x1, x2⟩ := execAll_split hst
    obtain ⟨s2, x2, x3⟩ := execAll_cons x2
    simp only [exec] at x2
    split at x2
    · next hc =>
      simp at x2 hc
      subst x2
      exact over_empty x3 hc.1 hc.2
    · simp at x2
  have e1 : (st .mon ch.mIn).q = [] := empty (u := u) (v := ⟨.stat .mon ch.mOut, (true, true)⟩ :: t2) (by rw [ht, hu]; simp)
  have e2 : (st .mon ch.mOut).q = [] := empty (u := u ++ [⟨.stat .mon ch.mIn, (true, true)⟩]) (v := t2) (by rw [ht, hu]; simp)
  rw [f1, f2, e1, e2, List.append_nil, List.append_nil, ht]
  have hd : t2 <+: dropEvs (bufferCount ch).drops := Task.after hr (by rw [← ht]; exact h.run.tasks t _ h.cnt)
  rw [gotOn_append, gotOn_append, gotOn_drops hd, gotOn_drops hd]
  simpa using hn

/-! ### The hypotheses are met: a message goes through a buffer, and all ends -/

namespace BufferEnd
open C22 (msg ch out)

/-- What the count does. -/
def counted : List Ev := [⟨.tryRecv .mon 0, .got (.wrote 0)⟩, ⟨.tryRecv .mon 1, .empty⟩, ⟨.send .size 0 (1 : Nat), true⟩, ⟨.stat .mon 0, (true, false)⟩,
  ⟨.tryRecv .mon 0, .got (.wrote 0)⟩, ⟨.tryRecv .mon 1, .got (.read 0)⟩, ⟨.stat .mon 0, (true, true)⟩, ⟨.stat .mon 1, (false, true)⟩,
  ⟨.tryRecv .mon 0, .closed⟩, ⟨.tryRecv .mon 1, .got (.read 0)⟩, ⟨.send .size 0 (0 : Nat), true⟩, ⟨.stat .mon 0, (true, true)⟩, ⟨.stat .mon 1, (true, true)⟩]

def trace : List (Nat × Ev) :=
  [(0, ⟨.send .data 0 msg, true⟩), (1, ⟨.recv .data 0, some msg⟩), (1, ⟨.send .data 1 msg, true⟩), (1, ⟨.send .mon 0 (.wrote 0), true⟩)] ++
  (counted.take 4).map (fun e => (3, e)) ++
  [(0, ⟨.close .data 0, ()⟩), (1, ⟨.recv .data 0, none⟩), (1, ⟨.send .mon 0 (.wrote 0), true⟩), (1, ⟨.close .data 1, ()⟩), (1, ⟨.close .mon 0, ()⟩),
   (2, ⟨.recv .data 1, some msg⟩), (2, ⟨.send .mon 1 (.read 0), true⟩), (2, ⟨.send .data 2 msg, true⟩),
   (2, ⟨.recv .data 1, none⟩), (2, ⟨.send .mon 1 (.read 0), true⟩), (2, ⟨.close .data 2, ()⟩), (2, ⟨.close .mon 1, ()⟩)] ++
  (counted.drop 4).map (fun e => (3, e))

theorem buffer : BufferSys C24.cap C24.sys trace 1 2 3 ch ⟨1, 2⟩ out 8 8 := by
  refine ⟨⟨⟨by decide +kernel, fun i t hi => ?_⟩, rfl, rfl, rfl, by decide, by decide, by decide, by decide +kernel, by decide, by decide, by decide⟩, rfl, rfl⟩
  match i, hi with
  | 1, hi => simp [C24.sys] at hi; subst hi; exact Task.checks_partial (by decide +kernel)
  | 2, hi => simp [C24.sys] at hi; subst hi; exact Task.checks_partial (by decide +kernel)
  | 3, hi => simp [C24.sys] at hi; subst hi; exact Task.checks_partial (by decide +kernel)

theorem ended : LoopRuns (bufferCount ch).body (bufferCount ch).init counted (.done 0) := by
  have h : (bufferCount ch).replay counted = some (.inl (.done 0, [])) := rfl
  obtain ⟨t1, h1, h2⟩ := Task.replayFrom_runs h
  rw [List.append_nil] at h2
  rw [h2]; exact h1

example : 0 + (sentOn .mon 1 (proj 2 trace)).length = (sentOn .mon 0 (proj 1 trace)).length ∧ ∀ c, ch.size = some c → lastReport c counted = 0 :=
  C24_final buffer.toBufferOwn ended (t2 := []) (by decide +kernel)

example : lastReport 0 (counted.take 11) + (gotOn .mon 1 (counted.take 11)).length = (gotOn .mon 0 (counted.take 11)).length :=
  C24_current (by decide) (r := (true, true)) (Task.checks_partial (by decide +kernel))

example : (0 : Nat) = 0 ∧ (0 : Nat) ≠ lastReport 0 (counted.take 10) :=
  C24_changed (mIn := 0) (mOut := 1) (by decide) (r := true) (Task.checks_partial (by decide +kernel))

example : ∃ k c, (⟨.close .size 0, ()⟩ : Ev) = ⟨.close k c, ()⟩ :=
  C24_then_ends (sender := some 0) (mIn := 0) (mOut := 1) (by decide) (tr := counted) (Task.checks_partial (by decide +kernel))
    ⟨counted.take 11, rfl⟩

end BufferEnd
end Verif
