import Verif.Lemmas.Reservoir
import Verif.Props.Transit
/-!
# Property C84: flow control bounds what a buffer holds
-/
namespace Verif

section
variable {c : Config} {R : Map Hop} {w w' : Waiter} {order : List (Str × Watch)} {cs : List Capture} {τ : List (Who × Ev)}

/-- **C84** From the moment its manager asks it to pause, a regulator writes at most one message until its manager asks again. -/
theorem C84_paused (hc : c.connection = hopSets R) (hw : getWaiter c = .ok w) (hp : w.regulatorSettings order = .ok (cs, w')) (hC : Complete (R.map (·.2)))
    {a : Capture} (ha : a ∈ cs) {τ₁ τ₂ : List (Who × Ev)} {r : Bool}
    (hr : w'.Run cs (realCaps (R.map (·.2))) (τ₁ ++ (.manager a.regulator, ⟨.send .ctl (w'.idOf (.regulator, a.regulator)) (), r⟩) :: τ₂))
    (h1 : requests (w'.idOf (.regulator, a.regulator)) (proj (.manager a.regulator) τ₁) % 2 = 0)
    (h2 : requests (w'.idOf (.regulator, a.regulator)) (proj (.manager a.regulator) τ₂) = 0) :
    (offers (proj (.part (.regulator, a.regulator) .main) τ₂)).length ≤ 1 :=
  (assembled hc hw hp).halted hC (attended hc hw hp) ha hr h1 h2

/-- **C84** At every moment of every run, a buffer its manager looks after and to which a way through regulators leads from the regulator the manager controls holds at most the high watermark (or one more than the
low one) and what fits into this way, and twenty-nine messages more. -/
theorem C84_bounded (hc : c.connection = hopSets R) (hw : getWaiter c = .ok w) (hp : w.regulatorSettings order = .ok (cs, w')) (hC : Complete (R.map (·.2)))
    (hr : w'.Run cs (realCaps (R.map (·.2))) τ) {a : Capture} (ha : a ∈ cs) {x : Str} (hx : x ∈ a.buffers) {i b n : Nat} {l : List Nat} {g h : Hop}
    (hl : Along (R.map (·.2)) [.regulator] (i :: l) n) (hb : (i :: l).getLast? = some b) (hg : (R.map (·.2))[i]? = some g) (hh : (R.map (·.2))[b]? = some h)
    (hfrom : g.from = (.regulator, a.regulator)) (hto : h.to = (.buffer, x)) :
    (received (proj (.part (.buffer, x) .input) τ)).length ≤ (received (proj (.part (.buffer, x) .output) τ)).length + max a.high (a.low + 1) + n + 29 := by
  have A := assembled hc hw hp
  have T := attended hc hw hp
  have hn := A.toRigged.chans_nodup T ha
  have hwr : g.writer = .part (.regulator, a.regulator) .main := by
    have h1 : g.src.ty = .regulator := congrArg Prod.fst hfrom
    unfold Hop.writer; rw [h1, hfrom]
  have hre : h.reader = .part (.buffer, x) .input := by
    have h1 : h.dst.ty = .buffer := congrArg Prod.fst hto
    unfold Hop.reader; rw [h1, hto]
  -- while it runs
  have even : ∀ {τ}, w'.Run cs (realCaps (R.map (·.2))) τ → ended (w'.idOf (.buffer, x)) (proj (.manager a.regulator) τ) = false →
      requests (w'.idOf (.regulator, a.regulator)) (proj (.manager a.regulator) τ) % 2 = 0 →
      (received (proj (.part (.buffer, x) .input) τ)).length ≤ (received (proj (.part (.buffer, x) .output) τ)).length + max a.high (a.low + 1) + 19 := by
    intro τ hr he h0
    obtain ⟨k1, _, _, k4⟩ := A.counted hC T hr ha hx
    have := manager_low (hr.exec.tasks _ _ (T.manages ha)) hn (List.mem_map.mpr ⟨x, hx, rfl⟩) he h0 k1
    omega
  -- as long as the count has not ended
  have alive : ∀ {τ}, w'.Run cs (realCaps (R.map (·.2))) τ → ended (w'.idOf (.buffer, x)) (proj (.manager a.regulator) τ) = false →
      (received (proj (.part (.buffer, x) .input) τ)).length ≤ (received (proj (.part (.buffer, x) .output) τ)).length + max a.high (a.low + 1) + n + 20 := by
    intro τ hr he
    by_cases h0 : requests (w'.idOf (.regulator, a.regulator)) (proj (.manager a.regulator) τ) % 2 = 0
    · have := even hr he h0
      omega
    · obtain ⟨τ₁, ⟨j, e⟩, τ₂, rfl, q1, q2⟩ := last_split (fun y : Who × Ev => decide (y.1 = .manager a.regulator) && isRequest (w'.idOf (.regulator, a.regulator)) y.2) (l := τ) (by
        intro hz
        apply h0
        rw [List.countP_eq_zero] at hz
        have : requests (w'.idOf (.regulator, a.regulator)) (proj (.manager a.regulator) τ) = 0 := by
          unfold requests
          rw [List.countP_eq_zero]
          intro e he hq
          exact hz _ (mem_proj.mp he) (by simp [hq])
        rw [this])
      simp only [Bool.and_eq_true, decide_eq_true_eq] at q1
      obtain ⟨rfl, q1⟩ := q1
      obtain ⟨r, rfl⟩ : ∃ r, e = ⟨.send .ctl (w'.idOf (.regulator, a.regulator)) (), r⟩ := by
        obtain ⟨q, r⟩ := e
        cases q with
        | send k c v =>
          cases k <;> simp [isRequest] at q1
          subst q1
          exact ⟨r, rfl⟩
        | _ => simp [isRequest] at q1
      have h2 : requests (w'.idOf (.regulator, a.regulator)) (proj (.manager a.regulator) τ₂) = 0 := by
        unfold requests
        rw [List.countP_eq_zero] at q2 ⊢
        intro e he hq
        exact q2 _ (mem_proj.mp he) (by simp [hq])
      have h1 : requests (w'.idOf (.regulator, a.regulator)) (proj (.manager a.regulator) τ₁) % 2 = 0 := by
        rw [proj_append, proj_cons_self, requests_append] at h0
        unfold requests at h0 h2 ⊢
        rw [List.countP_cons, h2] at h0
        simp [isRequest] at h0
        omega
      have he1 : ended (w'.idOf (.buffer, x)) (proj (.manager a.regulator) τ₁) = false := by
        rw [proj_append, ended_append] at he
        simp at he; simp [he.1]
      have i1 := even hr.initial he1 h1
      have i2 := C84_paused hc hw hp hC ha hr h1 h2
      have i3 := C83_since hc hw hp hC hr hl hb hg hh
      have i4 : (acceptedBy (.chan i) (proj g.writer ((.manager a.regulator, (⟨.send .ctl (w'.idOf (.regulator, a.regulator)) (), r⟩ : Ev)) :: τ₂))).length ≤ 1 := by
        rw [hwr, proj_cons_ne (by simp)]
        refine Nat.le_trans ?_ i2
        unfold acceptedBy
        exact List.length_filterMap_le _ _
      rw [A.bufferSource hC hr hh (by rw [hto]) _ (by intro e he; rw [proj_append]; exact List.mem_append_right _ he), hre] at i3
      have i5 : (received (proj (.part (.buffer, x) .output) τ₁)).length ≤
          (received (proj (.part (.buffer, x) .output) (τ₁ ++ (.manager a.regulator, (⟨.send .ctl (w'.idOf (.regulator, a.regulator)) (), r⟩ : Ev)) :: τ₂))).length := by
        rw [proj_append, received_append, List.length_append]; omega
      have i6 : (received (proj (.part (.buffer, x) .input) (τ₁ ++ (.manager a.regulator, (⟨.send .ctl (w'.idOf (.regulator, a.regulator)) (), r⟩ : Ev)) :: τ₂))).length =
          (received (proj (.part (.buffer, x) .input) τ₁)).length + (received (proj (.part (.buffer, x) .input) ((.manager a.regulator, (⟨.send .ctl (w'.idOf (.regulator, a.regulator)) (), r⟩ : Ev)) :: τ₂))).length := by
        rw [proj_append, received_append, List.length_append]
      omega
  cases he : ended (w'.idOf (.buffer, x)) (proj (.manager a.regulator) τ) with
  | false =>
    have := alive hr he
    omega
  | true =>
    obtain ⟨τ₁, τ₂, rfl, h1, h2⟩ := A.gone hC T hr ha hx he
    have := alive hr.initial h1
    rw [show proj (Who.part (.buffer, x) .output) (τ₁ ++ τ₂) = _ from proj_append _ _ _, received_append, List.length_append]
    omega

end
end Verif
