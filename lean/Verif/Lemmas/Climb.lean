import Verif.Lemmas.Accuracy
import Verif.Lemmas.Manager
/-!
# Sizes go up one by one
-/
namespace Verif

/-- The last of some numbers, `a` if there are none. -/
def lastOf (a : Nat) (l : List Nat) : Nat := l.getLast?.getD a

/-- No number is by more than one greater than the one before it, the first being compared with `a`. -/
def Climb : Nat → List Nat → Prop
  | _, [] => True
  | a, b :: l => b ≤ a + 1 ∧ Climb b l

@[simp] theorem lastOf_nil (a : Nat) : lastOf a [] = a := rfl
@[simp] theorem lastOf_cons (a b : Nat) (l : List Nat) : lastOf a (b :: l) = lastOf b l := by
  cases l with
  | nil => rfl
  | cons c l => simp [lastOf, List.getLast?_cons]
theorem lastOf_append (a : Nat) (l m : List Nat) : lastOf a (l ++ m) = lastOf (lastOf a l) m := by
  induction l generalizing a with
  | nil => rfl
  | cons b l ih => simp [ih]

theorem climb_append {a : Nat} {l m : List Nat} : Climb a (l ++ m) ↔ Climb a l ∧ Climb (lastOf a l) m := by
  induction l generalizing a with
  | nil => simp [Climb]
  | cons b l ih => simp [Climb, ih, and_assoc]

/-- As many steps up as there are numbers, at most. -/
theorem Climb.last_le {a : Nat} {l : List Nat} (h : Climb a l) : lastOf a l ≤ a + l.length := by
  induction l generalizing a with
  | nil => simp
  | cons b l ih =>
    have := ih h.2
    have := h.1
    simp; omega

theorem climb_same {a v : Nat} {l : List Nat} (h : ∀ x ∈ l, x = v) (hv : v ≤ a + 1) : Climb a l ∧ (l ≠ [] → lastOf a l = v) := by
  induction l generalizing a with
  | nil => simp [Climb]
  | cons b l ih =>
    obtain rfl := h b (by simp)
    obtain ⟨i1, i2⟩ := ih (a := b) (fun x hx => h x (by simp [hx])) (by omega)
    refine ⟨⟨hv, i1⟩, fun _ => ?_⟩
    rw [lastOf_cons]
    by_cases hl : l = []
    · subst hl; rfl
    · exact i2 hl

theorem reported_last (c : Nat) (tr : List Ev) : reported c tr = lastOf 0 (gotOn .size c tr) := rfl

section
variable {tr : List Ev} {c mIn mOut : Nat}

/-- Going round again, the count has reported what is new. -/
theorem rest_sent {b : BackOff} {moved : Bool} {size last : Nat} {s : Total} (h : (totalRest (some c) mIn mOut b moved size last).Runs tr (.inl s)) :
    s.last = size ∧ (last ≠ size → size ∈ sentOn .size c tr) := by
  unfold totalRest at h
  rw [Prog.runs_bind] at h
  obtain ⟨t1, ⟨l, ok⟩, t2, rfl, h0, h⟩ := h
  have hl : l = size ∧ (ok = true → last ≠ size → size ∈ sentOn .size c t1) := by
    unfold reportSize at h0
    change Prog.Runs (if last ≠ size then _ else _) _ _ at h0
    split at h0
    · rw [Prog.runs_bind] at h0
      obtain ⟨t3, ok', t4, rfl, h1, h2⟩ := h0
      rw [Prog.runs_req] at h1
      subst h1
      simp at h2
      obtain ⟨rfl, rfl, rfl⟩ := h2
      refine ⟨rfl, fun h _ => ?_⟩
      subst h
      simp [sentOn, sentOf]
    · next hn =>
      have hn : last = size := by simpa using hn
      simp at h0
      obtain ⟨rfl, rfl, rfl⟩ := h0
      exact ⟨hn, fun _ h => absurd hn h⟩
  obtain ⟨rfl, hl⟩ := hl
  change Prog.Runs (if ok = false then _ else _) _ _ at h
  split at h
  · simp at h
  · next hok =>
    have hs : s.last = l := by
      rw [Prog.runs_bind] at h
      obtain ⟨t3, ⟨e, c⟩, t4, rfl, _, h⟩ := h
      simp only [] at h
      rw [Prog.runs_bind] at h
      obtain ⟨t5, ⟨e', c'⟩, t6, rfl, _, h⟩ := h
      change Prog.Runs (if (e && c && e' && c') = true then _ else _) _ _ at h
      split at h
      · simp at h
      · split at h
        · simp at h; rw [h.2]
        · rw [Prog.runs_bind] at h
          obtain ⟨t7, ⟨b', o⟩, t8, rfl, _, h⟩ := h
          simp at h; rw [h.2]
    refine ⟨hs, fun hn => ?_⟩
    rw [sentOn_append]
    exact List.mem_append_left _ (hl (by simpa using hok) hn)

theorem count_sent {s s' : Total} (h : (countTree (some c) mIn mOut s).Runs tr (.inl s')) :
    s'.last = s'.size ∧ (s.last ≠ s'.size → s'.size ∈ sentOn .size c tr) := by
  have rest : ∀ {b moved size} {e e' : Ev} {t : List Ev}, (totalRest (some c) mIn mOut b moved size s.last).Runs t (.inl s') →
      s'.last = s'.size ∧ (s.last ≠ s'.size → s'.size ∈ sentOn .size c (e :: e' :: t)) := by
    intro b moved size e e' t h
    have h1 := (rest_runs h).1 _ rfl
    obtain ⟨h2, h3⟩ := rest_sent h
    subst h1
    refine ⟨h2, fun hn => ?_⟩
    rw [sentOn_cons, sentOn_cons]
    exact List.mem_append_right _ (List.mem_append_right _ (h3 hn))
  have second : ∀ {size moved} {e : Ev} {t : List Ev}, (countSecond (some c) mIn mOut s size moved).Runs t (.inl s') →
      s'.last = s'.size ∧ (s.last ≠ s'.size → s'.size ∈ sentOn .size c (e :: t)) := by
    intro size moved e t h
    obtain ⟨z, t', rfl, h⟩ := h
    cases z with
    | got m =>
      cases m with
      | wrote m => exact absurd h.2 (by simp)
      | read m =>
        change Prog.Runs (if size = 0 then _ else _) _ _ at h
        split at h
        · exact absurd h.2 (by simp)
        · exact rest h
    | empty => exact rest h
    | closed => exact rest h
  obtain ⟨y, t', rfl, h⟩ := h
  cases y with
  | got m =>
    cases m with
    | read m => exact absurd h.2 (by simp)
    | wrote m => exact second h
  | empty => exact second h
  | closed => exact second h

/-- Only the size there is is reported in the second half of a round. -/
theorem rest_sizes {size : Nat} {t : List Ev} (h : ∀ e ∈ t, RestReq size e.q) : ∀ v ∈ sentOn .size c t, v = size := by
  intro v hv
  unfold sentOn at hv
  obtain ⟨e, he, hs⟩ := List.mem_filterMap.mp hv
  obtain ⟨v', rfl⟩ := sent_req (by rw [hs]; simp)
  have : v' = v := by simpa [sentOf] using hs
  subst this
  exact (h _ he).2.2.2 _ _ rfl

theorem sent_tries {y z : TryRes MonMsg} {t : List Ev} :
    sentOn .size c (⟨.tryRecv .mon mIn, y⟩ :: ⟨.tryRecv .mon mOut, z⟩ :: t) = sentOn .size c t := by
  rw [sentOn_cons, sentOn_cons]; rfl

theorem count_climbs_rounds (hne : mIn ≠ mOut) {s s' : Total} (h : LoopRounds (totalBody (some c) mIn mOut) s tr s') (hs : s.last = s.size) :
    s'.last = s'.size ∧ Climb s.size (sentOn .size c tr) ∧ lastOf s.size (sentOn .size c tr) = s'.size := by
  induction h with
  | nil => exact ⟨hs, trivial, rfl⟩
  | @next s s1 s2 t t' hr hrest ih =>
    rw [total_tree] at hr
    obtain ⟨h1, h2⟩ := count_sent hr
    obtain ⟨i1, i2, i3⟩ := ih h1
    rcases count_round hr with ⟨m, _, hx⟩ | ⟨y, z, rest, rfl, h | h | ⟨size', k1, k2, k3, _⟩⟩
    · simp at hx
    · simp at h
    · simp at h
    · have k3 := k3 _ rfl
      subst k3
      rw [sent_tries] at h2
      have k4 := rest_sizes (c := c) k2
      have k5 : took y ≤ 1 := by cases y <;> simp [took]
      obtain ⟨j1, j2⟩ := climb_same (a := s.size) k4 (by omega)
      have k6 : lastOf s.size (sentOn .size c rest) = s1.size := by
        by_cases hl : sentOn .size c rest = []
        · rw [hl] at h2 ⊢
          rw [lastOf_nil]
          exact Classical.byContradiction fun hn => by simpa using h2 (by omega)
        · exact j2 hl
      refine ⟨i1, ?_, ?_⟩
      · rw [sentOn_append, sent_tries, climb_append, k6]; exact ⟨j1, i2⟩
      · rw [sentOn_append, sent_tries, lastOf_append, k6]; exact i3

/-- The sizes reported go up one by one at most; what came in has been reported, but for the last. -/
theorem count_climbs (hne : mIn ≠ mOut) (h : (totalTask (some c) mIn mOut).Partial tr) :
    Climb 0 (sentOn .size c tr) ∧ nGot .mon mIn tr ≤ nGot .mon mOut tr + lastOf 0 (sentOn .size c tr) + 1 := by
  have lp : ∀ {tr : List Ev}, LoopPartial (totalBody (some c) mIn mOut) (totalTask (some c) mIn mOut).init tr →
      Climb 0 (sentOn .size c tr) ∧ nGot .mon mIn tr ≤ nGot .mon mOut tr + lastOf 0 (sentOn .size c tr) + 1 := by
    rintro tr ⟨s, t1, t2, h1, h2, rfl⟩
    obtain ⟨a1, _, _⟩ := count_rounds hne h1
    obtain ⟨_, b2, b3⟩ := count_climbs_rounds hne h1 rfl
    have init : (totalTask (some c) mIn mOut).init.size = 0 := rfl
    rw [init] at a1 b2 b3
    rw [total_tree] at h2
    rw [sentOn_append, climb_append, lastOf_append, b3]
    simp only [nGot, gotOn_append, List.length_append] at a1 ⊢
    rcases count_body h2 with rfl | ⟨y, rfl, h⟩ | ⟨y, z, rest, rfl, h⟩
    · simp [Climb, b2]; omega
    · have e1 : sentOn .size c [(⟨.tryRecv .mon mIn, y⟩ : Ev)] = [] := by rw [sentOn_cons]; rfl
      have e2 : (gotOn .mon mIn [(⟨.tryRecv .mon mIn, y⟩ : Ev)]).length ≤ 1 := by rw [gotOn_cons]; cases y <;> simp [gotOf]
      rw [e1]
      simp only [Climb, lastOf_nil]
      exact ⟨⟨b2, trivial⟩, by omega⟩
    · rw [sent_tries]
      have k5 : took y ≤ 1 := by cases y <;> simp [took]
      rcases h with ⟨rfl, _⟩ | ⟨rfl, _⟩ | ⟨size', h3, h4⟩
      · obtain ⟨n1, n2, _⟩ := count_shape (mIn := mIn) (mOut := mOut) hne (y := y) (z := z) (rest := []) (size := 0) (by simp)
        simp only [nGot] at n1 n2
        refine ⟨⟨b2, trivial⟩, ?_⟩
        simp; omega
      · obtain ⟨n1, n2, _⟩ := count_shape (mIn := mIn) (mOut := mOut) hne (y := y) (z := z) (rest := []) (size := 0) (by simp)
        simp only [nGot] at n1 n2
        refine ⟨⟨b2, trivial⟩, ?_⟩
        simp; omega
      · obtain ⟨n1, n2, _⟩ := count_shape (mIn := mIn) (mOut := mOut) hne (y := y) (z := z) h4
        simp only [nGot] at n1 n2
        obtain ⟨j1, j2⟩ := climb_same (a := s.size) (rest_sizes (c := c) h4) (by omega)
        refine ⟨⟨b2, j1⟩, ?_⟩
        by_cases hl : sentOn .size c rest = []
        · rw [hl, lastOf_nil]; omega
        · rw [j2 hl]; omega
  rcases h with h | ⟨r, t1, t2, h1, h2, rfl⟩
  · exact lp h
  · have := lp h1.toPartial
    simpa only [nGot, sentOn_append, gotOn_append, sentOn_drops h2, gotOn_drops h2, List.append_nil] using this

end

end Verif
