import Verif.Lemmas.Accuracy
import Verif.Lemmas.Attended
import Verif.Props.FlowControl
import Verif.Props.Flow
import Verif.Props.RuntimeEnds
/-!
# Property C70: what the buffers of a pipeline report, and to whom
-/
namespace Verif

section
variable {c : Config} {hs : List Hop} {w : Waiter} {cs : List Capture} {cap : Caps} {τ : List (Who × Ev)}

/-- The activities of a buffer are next to each other among everything polled. -/
theorem joined_buffer {rs : List CompRef} (hn : rs.Nodup) {x : Str} (hx : (.buffer, x) ∈ rs) {a : PullEnd} {b : PushEnd} {m : Bool} {ch : BufferChans} {j : PullJourney} {out : Push}
    (hk : w.comps.get (.buffer, x) = some (.buffer (some a) (some b) m))
    (B : BufferOwn cap (w.sys cs) τ (.part (.buffer, x) .input) (.part (.buffer, x) .output) (.part (.buffer, x) .count) ch j out) :
    ∃ pre post, w.joined cs rs = pre ++ bufferActs (.part (.buffer, x) .input) (.part (.buffer, x) .output) (.part (.buffer, x) .count) ch j out ++ post ∧
      ∀ y ∈ bufferActs (.part (.buffer, x) .input) (.part (.buffer, x) .output) (.part (.buffer, x) .count) ch j out, ∀ z ∈ pre ++ post, y.1 ≠ z.1 := by
  obtain ⟨l1, l2, rfl⟩ := List.append_of_mem hx
  have n1 : (.buffer, x) ∉ l1 := by
    intro h
    rw [List.nodup_append] at hn
    exact hn.2.2 _ h _ List.mem_cons_self rfl
  have n2 : (.buffer, x) ∉ l2 := by
    intro h
    rw [List.nodup_append, List.nodup_cons] at hn
    exact hn.2.1.1 h
  have apart : ∀ (ty : ComponentType) (rs : List CompRef), ((.buffer, x) ∉ rs ∨ ty ≠ .buffer) → ∀ i ∈ (rs.filter fun r => decide (r.1 = ty)).flatMap fun r => pieces.map (Who.part r),
      ∀ p, i ≠ .part (.buffer, x) p := by
    intro ty rs h i hi p he
    subst he
    obtain ⟨r, h1, h2⟩ := List.mem_flatMap.mp hi
    obtain ⟨p', _, h3⟩ := List.mem_map.mp h2
    cases h3
    rw [List.mem_filter] at h1
    rcases h with h | h
    · exact h h1.1
    · exact h (of_decide_eq_true h1.2).symm
  let f : Who → Option (Who × Task) := fun i => (w.sys cs i).map fun t => (i, t)
  let parts (rs : List CompRef) (ty : ComponentType) : List Who := (rs.filter fun r => decide (r.1 = ty)).flatMap fun r => pieces.map (Who.part r)
  let X := parts (l1 ++ (.buffer, x) :: l2) .launch ++ parts (l1 ++ (.buffer, x) :: l2) .regulator ++ parts (l1 ++ (.buffer, x) :: l2) .faucet ++ cs.map (fun c => Who.manager c.regulator) ++
    parts (l1 ++ (.buffer, x) :: l2) .drain ++ parts l1 .buffer
  let Y := parts l2 .buffer ++ parts (l1 ++ (.buffer, x) :: l2) .junction
  have far : ∀ i ∈ X ++ Y, ∀ p, i ≠ .part (.buffer, x) p := by
    intro i hi p
    simp only [X, Y, List.mem_append] at hi
    rcases hi with (((((hi | hi) | hi) | hi) | hi) | hi) | (hi | hi)
    · exact apart _ _ (Or.inr (by decide)) i hi p
    · exact apart _ _ (Or.inr (by decide)) i hi p
    · exact apart _ _ (Or.inr (by decide)) i hi p
    · obtain ⟨c, _, rfl⟩ := List.mem_map.mp hi
      simp
    · exact apart _ _ (Or.inr (by decide)) i hi p
    · exact apart _ _ (Or.inl n1) i hi p
    · exact apart _ _ (Or.inl n2) i hi p
    · exact apart _ _ (Or.inr (by decide)) i hi p
  refine ⟨X.filterMap f, Y.filterMap f, ?_, ?_⟩
  · have mid : (pieces.map (Who.part (.buffer, x))).filterMap f = bufferActs (.part (.buffer, x) .input) (.part (.buffer, x) .output) (.part (.buffer, x) .count) ch j out := by
      have s1 : w.sys cs (.part (.buffer, x) .main) = none := by simp [Waiter.sys, hk, Comp.node, Comp.other]
      have s2 : w.sys cs (.part (.buffer, x) .error) = none := by simp [Waiter.sys, hk, Comp.node, Comp.other]
      have s3 : w.sys cs (.part (.buffer, x) .exit) = none := by simp [Waiter.sys, hk, Comp.node, Comp.other]
      simp [pieces, f, s1, s2, s3, B.ina, B.outb, B.cnt, bufferActs]
    rw [← mid, ← List.filterMap_append, ← List.filterMap_append]
    unfold Waiter.joined pollOrder
    show List.filterMap f _ = _
    congr 1
    simp [X, Y, parts, List.filter_append]
  · intro y hy z hz
    have : z.1 ∈ X ++ Y := by
      rw [← List.filterMap_append] at hz
      obtain ⟨i, hi, hf⟩ := List.mem_filterMap.mp hz
      simp only [f, Option.map_eq_some_iff] at hf
      obtain ⟨t, _, rfl⟩ := hf
      exact hi
    intro he
    simp only [bufferActs, List.mem_cons, List.not_mem_nil, or_false] at hy
    rcases hy with rfl | rfl | rfl <;> exact far _ this _ he.symm

/-- The size reported by a buffer and what it has taken in and given out differ at most by the notifications on their way. -/
theorem report_near {ι : Type} [DecidableEq ι] {cap : Caps} {sys : ι → Option Task} {a b t : ι} {ch : BufferChans} {j : PullJourney} {out : Push} {τ₁ τ₂ : List (ι × Ev)} {c v : Nat} {r : Bool}
    {ci co : Nat} (h : BufferSys cap sys (τ₁ ++ (t, ⟨.send .size c v, r⟩) :: τ₂) a b t ch j out ci co) :
    v + heard (proj b τ₁) ≤ heard (proj a τ₁) + co + 1 ∧ heard (proj a τ₁) ≤ v + heard (proj b τ₁) + ci + 1 := by
  have h0 := h.prefix
  have hv := C24_reports h.toBufferOwn
  obtain ⟨st, hst⟩ := Option.isSome_iff_exists.mp h0.run.chans
  obtain ⟨f1, f2, _⟩ := h0.fifos hst
  obtain ⟨_, _, _, g4, _, g6⟩ := h0.ends
  rw [gotOn_proj g4, gotOn_proj g6] at hv
  have l1 := room_le hst .mon ch.mIn h0.capIn (by simp [Store.init])
  have l2 := room_le hst .mon ch.mOut h0.capOut (by simp [Store.init])
  have n1 := in_near (h0.run.tasks a _ h0.ina)
  have n2 := out_near (h0.run.tasks b _ h0.outb)
  simp only [nSent, f1, f2, List.length_append] at n1 n2
  omega

end

section
variable {c : Config} {R : Map Hop} {w w' : Waiter} {order : List (Str × Watch)} {cs : List Capture} {cap : Caps} {τ : List (Who × Ev)}

/-- Whatever is assembled as `getWaiter` does. -/
theorem Rigged.no_underflow {hs : List Hop} (A : Rigged c hs w') (T : Attended cs w') (hC : Complete hs) {rs : List CompRef} (hn : rs.Nodup) (hrs : ∀ r, Mentioned hs r → r ∈ rs)
    (hr : w'.Run cs (realCaps hs) τ) {k : Nat} (hP : Polled (realCaps hs) (w'.joined cs rs) τ k) {x : Str} (hx : Mentioned hs (.buffer, x)) :
    ∃ a b m, w'.comps.get (.buffer, x) = some (.buffer (some a) (some b) m) ∧
      let t := totalTask (if m = true then some (w'.idOf (.buffer, x)) else none) (2 * w'.idOf (.buffer, x)) (2 * w'.idOf (.buffer, x) + 1)
      w'.sys cs (.part (.buffer, x) .count) = some t ∧
      ∀ e t1 t2, LoopRuns t.body t.init t1 e → proj (.part (.buffer, x) .count) τ = t1 ++ t2 → e ≠ .underflow ∧ e ≠ .wrongMessage := by
  obtain ⟨a, b, m, hk, B⟩ := A.bufferOwn hC T hr hx
  obtain ⟨pre, post, hj, hd⟩ := joined_buffer hn (hrs _ hx) hk B
  rw [hj] at hP
  have hP' := Polled.among (by simp [bufferActs]) hd hP
  exact ⟨a, b, m, hk, B.cnt, (C24_never_underflows (ci := 8) (co := 8) (Nat.le_refl _) hP' { B with capIn := rfl, capOut := rfl }).2⟩

/-- **C70** With the capacities of the code, and everything polled as in the code, the count of no buffer ever subtracts from zero, nor gets a notification of the wrong kind. -/
theorem C70_no_underflow (hc : c.connection = hopSets R) (hw : getWaiter c = .ok w) (hp : w.regulatorSettings order = .ok (cs, w')) (hC : Complete (R.map (·.2)))
    {rs : List CompRef} (hn : rs.Nodup) (hrs : ∀ r, Mentioned (R.map (·.2)) r → r ∈ rs) (hr : w'.Run cs (realCaps (R.map (·.2))) τ) {k : Nat}
    (hP : Polled (realCaps (R.map (·.2))) (w'.joined cs rs) τ k) {x : Str} (hx : Mentioned (R.map (·.2)) (.buffer, x)) :
    ∃ size mIn mOut, w'.sys cs (.part (.buffer, x) .count) = some (totalTask size mIn mOut) ∧
      ∀ e t1 t2, LoopRuns (totalTask size mIn mOut).body (totalTask size mIn mOut).init t1 e → proj (.part (.buffer, x) .count) τ = t1 ++ t2 → e ≠ .underflow ∧ e ≠ .wrongMessage := by
  obtain ⟨_, _, _, _, h1, h2⟩ := (assembled hc hw hp).toRigged.no_underflow (attended hc hw hp) hC hn hrs hr hP hx
  exact ⟨_, _, _, h1, h2⟩

/-- **C70** A size reported by a buffer is never off by more than nine: that many messages and ends it has taken in, but not given out again. -/
theorem C70_accurate (hc : c.connection = hopSets R) (hw : getWaiter c = .ok w) (hp : w.regulatorSettings order = .ok (cs, w')) (hC : Complete (R.map (·.2)))
    {τ₁ τ₂ : List (Who × Ev)} {x : Str} {ch v : Nat} {r : Bool} (hr : w'.Run cs (realCaps (R.map (·.2))) (τ₁ ++ (.part (.buffer, x) .count, ⟨.send .size ch v, r⟩) :: τ₂))
    (hx : Mentioned (R.map (·.2)) (.buffer, x)) :
    let taken := (received (proj (.part (.buffer, x) .input) τ₁)).length + endings (proj (.part (.buffer, x) .input) τ₁)
    let given := (received (proj (.part (.buffer, x) .output) τ₁)).length + endings (proj (.part (.buffer, x) .output) τ₁)
    v + given ≤ taken + 9 ∧ taken ≤ v + given + 9 := by
  have A := assembled hc hw hp
  have T := attended hc hw hp
  obtain ⟨a, b, m, hk, B⟩ := A.bufferOwn hC T hr hx
  have := report_near (ci := 8) (co := 8) { B with capIn := rfl, capOut := rfl }
  simp only [heard] at this
  dsimp only
  omega

/-- **C70** What a manager hears of a buffer it looks after is what the count of this buffer has reported, in order, beginning with the first. What a regulator is asked is what its
manager has asked. -/
theorem C70_told (hc : c.connection = hopSets R) (hw : getWaiter c = .ok w) (hp : w.regulatorSettings order = .ok (cs, w')) (hC : Complete (R.map (·.2)))
    (hr : w'.Run cs cap τ) {a : Capture} (ha : a ∈ cs) :
    (∀ x ∈ a.buffers, gotOn .size (w'.idOf (.buffer, x)) (proj (.manager a.regulator) τ) <+: sentOn .size (w'.idOf (.buffer, x)) (proj (.part (.buffer, x) .count) τ)) ∧
    gotOn .ctl (w'.idOf (.regulator, a.regulator)) (proj (.part (.regulator, a.regulator) .main) τ) <+: sentOn .ctl (w'.idOf (.regulator, a.regulator)) (proj (.manager a.regulator) τ) := by
  have A := assembled hc hw hp
  have T := attended hc hw hp
  obtain ⟨st, hst⟩ := Option.isSome_iff_exists.mp hr.exec.chans
  exact ⟨fun x hx => ⟨_, (A.sizes hC T hr ha hx hst).symm⟩, ⟨_, (A.controls hC T hr ha hst).symm⟩⟩

/-- What a buffer has taken in and not given out again: messages, and perhaps the end. -/
def kept (x : Str) (τ : List (Who × Ev)) : Nat :=
  ((received (proj (.part (.buffer, x) .input) τ)).length + endings (proj (.part (.buffer, x) .input) τ)) -
    ((received (proj (.part (.buffer, x) .output) τ)).length + endings (proj (.part (.buffer, x) .output) τ))

/-- **C70** A regulator is only asked to pause if its buffers have held enough: each at some time before (that of its last report its manager has heard), together at least the
high watermark, but for nine for each buffer. -/
theorem C70_justified (hc : c.connection = hopSets R) (hw : getWaiter c = .ok w) (hp : w.regulatorSettings order = .ok (cs, w')) (hC : Complete (R.map (·.2)))
    {a : Capture} (ha : a ∈ cs) {τ₁ τ₂ : List (Who × Ev)} {r : Bool}
    (hr : w'.Run cs (realCaps (R.map (·.2))) (τ₁ ++ (.manager a.regulator, ⟨.send .ctl (w'.idOf (.regulator, a.regulator)) (), r⟩) :: τ₂))
    (hodd : requests (w'.idOf (.regulator, a.regulator)) (proj (.manager a.regulator) τ₁) % 2 = 0) :
    ∃ f : Str → List (Who × Ev), (∀ x ∈ a.buffers, f x <+: τ₁) ∧ a.high ≤ (a.buffers.map fun x => kept x (f x)).sum + 9 * a.buffers.length := by
  have A := assembled hc hw hp
  have T := attended hc hw hp
  have hocc := (C19_requests (hr.exec.tasks _ _ (T.manages ha)) (A.chans_nodup T ha) (u := proj (.manager a.regulator) τ₁)
    (e := ⟨.send .ctl (w'.idOf (.regulator, a.regulator)) (), r⟩) (v := proj (.manager a.regulator) τ₂) (by simp [proj]) (by simp [isRequest])).1 hodd
  have one : ∀ x ∈ a.buffers, ∃ f, f <+: τ₁ ∧ holds (w'.idOf (.buffer, x)) (proj (.manager a.regulator) τ₁) ≤ kept x f + 9 := by
    intro x hx
    by_cases hz : holds (w'.idOf (.buffer, x)) (proj (.manager a.regulator) τ₁) = 0
    · exact ⟨[], List.nil_prefix, by omega⟩
    · have hrep : holds (w'.idOf (.buffer, x)) (proj (.manager a.regulator) τ₁) ∈ gotOn .size (w'.idOf (.buffer, x)) (proj (.manager a.regulator) τ₁) := by
        unfold holds at hz ⊢
        split
        · rename_i he; simp [he] at hz
        · rename_i he
          simp only [he] at hz
          unfold reported at hz ⊢
          cases hl : (gotOn .size (w'.idOf (.buffer, x)) (proj (.manager a.regulator) τ₁)).getLast? with
          | none => simp [hl] at hz
          | some v => exact List.mem_of_getLast? hl
      generalize holds (w'.idOf (.buffer, x)) (proj (.manager a.regulator) τ₁) = v at hrep
      have hr1 : w'.Run cs (realCaps (R.map (·.2))) τ₁ := by
        have := Waiter.Run.take hr τ₁.length
        rwa [List.take_left] at this
      have hsent := ((C70_told hc hw hp hC hr1 ha).1 x hx).subset hrep
      unfold sentOn at hsent
      obtain ⟨e, he, hs⟩ := List.mem_filterMap.mp hsent
      obtain ⟨v', rfl⟩ := sent_req (by rw [hs]; simp)
      have : v' = v := by simpa [sentOf] using hs
      subst this
      obtain ⟨u1, u2, hu⟩ := List.append_of_mem (mem_proj.mp he)
      subst hu
      refine ⟨u1, List.prefix_append _ _, ?_⟩
      have := (C70_accurate hc hw hp hC hr1 (A.watched T ha hx)).1
      unfold kept
      omega
  have pick : ∃ f : Str → List (Who × Ev), ∀ x ∈ a.buffers, f x <+: τ₁ ∧ holds (w'.idOf (.buffer, x)) (proj (.manager a.regulator) τ₁) ≤ kept x (f x) + 9 := by
    refine ⟨fun x => if h : x ∈ a.buffers then Classical.choose (one x h) else [], fun x hx => ?_⟩
    simp only [hx, dif_pos]
    exact Classical.choose_spec (one x hx)
  obtain ⟨f, hf⟩ := pick
  refine ⟨f, fun x hx => (hf x hx).1, Nat.le_trans hocc ?_⟩
  unfold occupancy
  rw [List.map_map]
  generalize a.buffers = l at hf
  clear one hocc
  induction l with
  | nil => simp
  | cons x l ih =>
    have h1 := (hf x (by simp)).2
    have h2 := ih fun y hy => hf y (by simp [hy])
    simp only [List.map_cons, List.sum_cons, List.length_cons, Function.comp_apply] at h2 ⊢
    omega

end

/-! ## An example: the pipeline of `C69_refuted` -/

theorem weir_nodup : weirOrder.Nodup := by decide +kernel
theorem weir_listed : ∀ r, Mentioned (weir.map (·.2)) r → r ∈ weirOrder := by
  rintro r ⟨h, hm, hr⟩
  have : ∀ h ∈ weir.map (·.2), (h.src.ty, h.src.name) ∈ weirOrder ∧ (h.dst.ty, h.dst.name) ∈ weirOrder := by decide +kernel
  rcases hr with rfl | rfl
  · exact (this h hm).1
  · exact (this h hm).2

/-- The execution that ends in the hang is polled as in the code. -/
example : ∃ τ, weirReady.2.Run weirReady.1 weirCaps τ ∧ Polled weirCaps weirActs τ 0 := by
  obtain ⟨τ, as, st, S, _, _⟩ := weir_jams
  refine ⟨τ, ⟨⟨by rw [S.store]; rfl, ?_⟩, ?_, ?_⟩, S.polled⟩
  · intro i t ht
    have hm := sys_joined weir_order ht
    have hm' : (i, t) ∈ as.map Actor.key := by rw [S.keys]; exact hm
    obtain ⟨a, ha, hk⟩ := List.mem_map.mp hm'
    cases hk
    exact (S.left a ha).partial
  · intro x hx hn
    obtain ⟨⟨i, t⟩, hm, hi⟩ := List.mem_map.mp (S.known x hx)
    rw [← hi, joined_sys hm] at hn
    cases hn
  · intro τ₁ τ₂ r e hs
    have := S.known (.part r .exit, e) (by rw [hs]; simp)
    rw [weir_who] at this
    simp at this

/-- The pipeline with some input, to its end. -/
def weirReal := weirReady.2.drive weirReady.1 weirCaps (fun h => if h = 0 then [[1, 10], [2, 10]] else if h = 1 then [[3, 10]] else []) .err
  (List.replicate 40 (weirReady.2.everyone weirReady.1)).flatten
theorem weirReal_runs : weirReady.2.Run weirReady.1 weirCaps weirReal := Waiter.runs_sound (by decide +kernel)

/-- A size greater than nothing is reported. -/
example : ∃ τ₁ τ₂ ch v r, 0 < v ∧ weirReady.2.Run weirReady.1 weirCaps (τ₁ ++ (.part (.buffer, "tank".toList) .count, ⟨.send .size ch v, r⟩) :: τ₂) := by
  have h : weirReal.any (fun x => decide (x.1 = .part (.buffer, "tank".toList) .count) && (match x.2.q with
    | .send .size _ v => decide (0 < v)
    | _ => false)) = true := by decide +kernel
  rw [List.any_eq_true] at h
  obtain ⟨⟨i, q, r⟩, hm, h⟩ := h
  rw [Bool.and_eq_true] at h
  obtain ⟨h1, h2⟩ := h
  have h1 := of_decide_eq_true h1
  simp only at h1 h2
  subst h1
  split at h2
  · rename_i ch v
    obtain ⟨τ₁, τ₂, hs⟩ := List.append_of_mem hm
    exact ⟨τ₁, τ₂, ch, v, r, of_decide_eq_true h2, by rw [← hs]; exact weirReal_runs⟩
  · cases h2

/-- The regulator is asked to pause. -/
example : ∃ a ∈ weirReady.1, ∃ τ₁ τ₂ r, requests (weirReady.2.idOf (.regulator, a.regulator)) (proj (.manager a.regulator) τ₁) % 2 = 0 ∧
    weirReady.2.Run weirReady.1 weirCaps (τ₁ ++ (.manager a.regulator, ⟨.send .ctl (weirReady.2.idOf (.regulator, a.regulator)) (), r⟩) :: τ₂) := by
  have h : (List.range weirReal.length).any (fun n => match weirReal[n]? with
      | some (.manager r, ⟨.send .ctl c _, _⟩) => decide (r = "gate".toList) && decide (c = weirReady.2.idOf (.regulator, "gate".toList)) &&
          decide (requests c (proj (.manager r) (weirReal.take n)) % 2 = 0)
      | _ => false) = true := by decide +kernel
  rw [List.any_eq_true] at h
  obtain ⟨n, _, h⟩ := h
  split at h
  · rename_i r c v x hn
    simp only [Bool.and_eq_true, decide_eq_true_eq] at h
    obtain ⟨⟨h1, h2⟩, h3⟩ := h
    subst h1 h2
    have hs : weirReal = weirReal.take n ++ (Who.manager "gate".toList, ⟨.send .ctl _ v, x⟩) :: weirReal.drop (n + 1) := by
      obtain ⟨hl, he⟩ := List.getElem?_eq_some_iff.mp hn
      rw [← he, List.getElem_cons_drop, List.take_append_drop]
    refine ⟨⟨0, 1, "gate".toList, ["tank".toList]⟩, ?_, weirReal.take n, weirReal.drop (n + 1), x, h3, ?_⟩
    · have : weirReady.1 = [⟨0, 1, "gate".toList, ["tank".toList]⟩] := by decide +kernel
      rw [this]; simp
    · show weirReady.2.Run weirReady.1 weirCaps (weirReal.take n ++ (Who.manager "gate".toList, ⟨.send .ctl _ v, x⟩) :: weirReal.drop (n + 1))
      rw [← hs]; exact weirReal_runs
  · cases h

end Verif
