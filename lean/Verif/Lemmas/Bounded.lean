import Verif.Lemmas.RuntimeEnds
/-!
# How often the activities of a runtime get anything forward
-/
namespace Verif
section
variable {c : Config} {hs : List Hop} {w : Waiter} {cs : List Capture} {cap : Caps}

/-- Finitely many bounds can be added up. -/
theorem total_bound {α β : Type} {P : β → Prop} {f : α → β → Nat} {l : List α} (h : ∀ x ∈ l, ∃ K, ∀ τ, P τ → f x τ ≤ K) : ∃ K, ∀ τ, P τ → (l.map fun x => f x τ).sum ≤ K := by
  induction l with
  | nil => exact ⟨0, by simp⟩
  | cons x l ih =>
    obtain ⟨K1, h1⟩ := h x (by simp)
    obtain ⟨K2, h2⟩ := ih fun y hy => h y (by simp [hy])
    refine ⟨K1 + K2, fun τ hτ => ?_⟩
    have a1 := h1 τ hτ
    have a2 := h2 τ hτ
    simp only [List.map_cons, List.sum_cons]
    omega

/-- At most one message comes from an exit port. -/
theorem Rigged.exitOnce (A : Rigged c hs w) (hC : Complete hs) {τ : List (Who × Ev)} (hr : w.Run cs cap τ) {i : Nat} {h : Hop} (hi : hs[i]? = some h) (hx : h.isExit) {n : Node}
    (hn : w.node h.reader = some n) : (receivedFrom (.chan i) (proj h.reader τ)).length ≤ 1 := by
  obtain ⟨_, _, e, hei, hse⟩ := A.exitSys (cs := cs) hi hx
  obtain ⟨F, _⟩ := A.exitFacts hC hr hi hx hn
  obtain ⟨k, s, m, b, _, rest, hrest⟩ := exit_partial (hr.exec.tasks _ _ hse)
  obtain ⟨st, hst⟩ := Option.isSome_iff_exists.mp hr.exec.chans
  have e1 := congrArg List.length (edge_prefix hst F.sent F.got)
  have e2 := (accepted_prefix hst i h.writer).length_le
  have e3 : offeredTo (.chan i) (proj h.writer τ) ++ offeredTo (.chan i) rest = [m] := by
    rw [← offeredTo_append, hrest, ← hei]; exact script_offered e k s m b
  have e4 := congrArg List.length e3
  simp only [List.length_append, List.length_cons, List.length_nil] at e1 e4
  omega

/-- `Limited`, as far as it matters. -/
structure Waiter.Limits (w : Waiter) (B : Nat) (τ : List (Who × Ev)) : Prop where
  lines : ∀ i n h, w.node i = some n → (receivedFrom (.handle h) (proj i τ)).length ≤ B
  statuses : ∀ r, timesAsked (proj (.part r .exit) τ) ≤ B

/-- How often an activity gets anything forward. -/
theorem Rigged.bounded_by (A : Rigged c hs w) (T : Attended cs w)
    (hC : Complete hs) (hcf : CircleFree hs) (hlh : ∀ a ∈ cs, a.low < a.high) (B : Nat) (i : Who) :
    ∃ K, ∀ τ, w.Run cs cap τ → w.Limits B τ → (proj i τ).countP (w.moves i) ≤ K := by
  have W := A.wired hC
  have mem_everyone : ∀ {i n}, w.node i = some n → i ∈ w.everyone cs := fun {i n} hn => sys_everyone (by rw [sys_node hn]; simp)
  have edge : ∀ a ch b, w.net.Edge a ch b → rankIn (Leads hs) (w.everyone cs) a < rankIn (Leads hs) (w.everyone cs) b := by
    intro a ch b he
    have ha : a ∈ w.everyone cs := by obtain ⟨n, _, hn, _⟩ := he; exact mem_everyone hn
    refine rankIn_lt hcf ha ?_
    rcases (A.edges hC a ch b).mp he with ⟨h, h1, h2, rfl, rfl, _⟩ | ⟨x, h1, _, rfl, rfl⟩
    · exact .hop (List.mem_of_getElem? h1) h2
    · exact .buffer h1
  obtain ⟨M, hM⟩ := received_bound (cap := cap) W edge (is := w.everyone cs) (fun i n hn => mem_everyone hn) (max B 1) ((w.everyone cs).length + 1)
  have fed : ∀ τ, w.Run cs cap τ → w.Limits B τ → w.net.Fed (max B 1) τ := by
    intro τ hr hl i n s hn hs' hno
    have hn : w.node i = some n := hn
    cases s with
    | handle h => have := hl.lines i n h hn; omega
    | chan ch =>
      obtain ⟨r, p, k, rfl, hme, _, _, hkn⟩ := A.node_inv hn
      rcases (A.sources hn ch).mp hs' with ⟨h, h1, h2⟩ | ⟨h1, h2, h3⟩
      · by_cases hx : h.isExit
        · have := A.exitOnce hC hr h1 hx (by rw [h2]; exact hn)
          rw [h2] at this
          omega
        · exact absurd ((A.edges hC _ ch _).mpr (Or.inl ⟨h, h1, hx, rfl, h2.symm, n, by rw [h2]; exact hn⟩)) (hno _ ch rfl)
      · obtain ⟨ty, x⟩ := r
        simp only at h1
        subst h1
        subst h2
        exact absurd ((A.edges hC _ ch _).mpr (Or.inr ⟨x, hme, by rw [← A.chans]; exact h3, rfl, rfl⟩)) (hno _ ch rfl)
  have recd : ∀ τ, w.Run cs cap τ → w.Limits B τ → ∀ {i n}, w.node i = some n → (received (proj i τ)).length ≤ M := by
    intro τ hr hl i n hn
    obtain ⟨E, U⟩ := A.run hC hr
    exact hM τ E U (fed τ hr hl) i n hn (Nat.lt_succ_of_le rankIn_le)
  have relays : ∀ {i n}, w.node i = some n → (∀ inputs pushs spy, n ≠ .junction inputs pushs spy) → ∃ K, ∀ τ, w.Run cs cap τ → w.Limits B τ → (proj i τ).length ≤ K := by
    intro i n hn hnj
    have hok : n.Ok := W.ok i n hn
    obtain ⟨K, hK⟩ := node_busy hok
    refine ⟨K * (M + 1), fun τ hr hl => ?_⟩
    exact Nat.le_trans ((hK _ (hr.exec.tasks i _ (sys_node hn))).2 hnj) (Nat.mul_le_mul_left _ (by have := recd τ hr hl hn; omega))
  have counts : ∀ {x}, Mentioned hs (.buffer, x) → ∃ K, ∀ τ, w.Run cs cap τ → w.Limits B τ → (proj (.part (.buffer, x) .count) τ).countP (fun e => !tellsNothing e) ≤ K := by
    intro x hm
    obtain ⟨a', b', m', hk'⟩ := A.bufferNodes hC rfl hm
    have hin : w.node (.part (.buffer, x) .input) = some (.relay a'.pull { written := some (2 * w.idOf (.buffer, x)) } none (.sender ⟨0, none, 0, b'.breakable⟩ (w.chans + w.idOf (.buffer, x)))) := by
      simp only [Waiter.node, hk', Comp.node]
    have hout : w.node (.part (.buffer, x) .output) = some (.relay (.receiver ⟨0, 0⟩ (w.chans + w.idOf (.buffer, x))) { read := some (2 * w.idOf (.buffer, x) + 1) } none b'.push) := by
      simp only [Waiter.node, hk', Comp.node]
    obtain ⟨K1, hK1⟩ := relays hin (by simp)
    obtain ⟨K2, hK2⟩ := relays hout (by simp)
    refine ⟨2 * (K1 + K2) + 3, fun τ hr hl => ?_⟩
    obtain ⟨ai, bo, m, hk, O⟩ := A.bufferOwn hC T hr hm
    obtain ⟨st, hst⟩ := Option.isSome_iff_exists.mp hr.exec.chans
    obtain ⟨f1, f2, _⟩ := O.fifos hst
    have h1 := total_length (hr.exec.tasks _ _ O.cnt)
    have g1 := congrArg List.length f1
    have g2 := congrArg List.length f2
    simp only [List.length_append] at g1 g2
    dsimp only at g1 g2 h1
    have s1 := sentOn_le (k := .mon) (ch := 2 * w.idOf (.buffer, x)) (proj (.part (.buffer, x) .input) τ)
    have s2 := sentOn_le (k := .mon) (ch := 2 * w.idOf (.buffer, x) + 1) (proj (.part (.buffer, x) .output) τ)
    have b1 := hK1 τ hr hl
    have b2 := hK2 τ hr hl
    omega
  cases hn : w.node i with
  | some n =>
    have hok : n.Ok := W.ok i n hn
    by_cases hj : ∃ inputs pushs spy, n = .junction inputs pushs spy
    · obtain ⟨inputs, pushs, spy, rfl⟩ := hj
      obtain ⟨K, hK⟩ := node_busy hok
      refine ⟨K * (M + 1), fun τ hr hl => ?_⟩
      have h1 : (proj i τ).countP (w.moves i) = busy (proj i τ) := by
        unfold busy acts
        rw [List.countP_map]
        congr 1
        funext e
        simp [Waiter.moves, hn]
      rw [h1]
      exact Nat.le_trans (hK _ (hr.exec.tasks i _ (sys_node hn))).1 (Nat.mul_le_mul_left _ (by have := recd τ hr hl hn; omega))
    · obtain ⟨K, hK⟩ := relays hn (fun a b d h => hj ⟨a, b, d, h⟩)
      exact ⟨K, fun τ hr hl => Nat.le_trans List.countP_le_length (hK τ hr hl)⟩
  | none =>
    cases ht : w.sys cs i with
    | none =>
      refine ⟨0, fun τ hr _ => ?_⟩
      have : proj i τ = [] := by
        rw [List.eq_nil_iff_forall_not_mem]
        intro e he
        exact hr.known _ (mem_proj.mp he) ht
      rw [this]; simp
    | some t =>
      rcases A.others hC ht hn with ⟨r, e, ch, g, rfl, hrl, rfl, rfl, hg, hx, hfr⟩ | ⟨r, m, rfl, hrb, hm, rfl, a, b, hk⟩ | ⟨r, a, rfl, ha, ha', _⟩ | ⟨r, x, rfl, _, rfl, _⟩
      rotate_right
      · refine ⟨1, fun τ hr _ => Nat.le_trans List.countP_le_length ?_⟩
        have := (dropTask_partial (hr.exec.tasks _ _ ht)).length_le
        simpa [dropEvs] using this
      · refine ⟨2 * B + 1, fun τ hr hl => ?_⟩
        have h1 := exit_length (hr.exec.tasks _ _ ht)
        have h2 := hl.statuses r
        have := List.countP_le_length (p := w.moves (.part r .exit)) (l := proj (.part r .exit) τ)
        omega
      · obtain ⟨ty, x⟩ := r
        simp only at hrb
        subst hrb
        obtain ⟨K, hK⟩ := counts hm
        refine ⟨K, fun τ hr hl => ?_⟩
        have h2 : (proj (.part (.buffer, x) .count) τ).countP (w.moves (.part (.buffer, x) .count)) = (proj (.part (.buffer, x) .count) τ).countP (fun e => !tellsNothing e) := by
          congr 1
          funext e
          simp [Waiter.moves, hn]
        rw [h2]; exact hK τ hr hl
      · subst ha'
        obtain ⟨K, hK⟩ := total_bound (l := a.buffers) (P := fun τ => w.Run cs cap τ ∧ w.Limits B τ) (f := fun x τ => (gotOn .size (w.idOf (.buffer, x)) (proj (.manager a.regulator) τ)).length) (by
          intro x hx
          obtain ⟨K, hK⟩ := counts (A.watched T ha hx)
          refine ⟨K, fun τ ⟨hr, hl⟩ => ?_⟩
          obtain ⟨st, hst⟩ := Option.isSome_iff_exists.mp hr.exec.chans
          obtain ⟨ai, bo, m, hk, O⟩ := A.bufferOwn hC T hr (A.watched T ha hx)
          have h1 := congrArg List.length (A.sizes hC T hr ha hx hst)
          rw [List.length_append] at h1
          have h2 := reports_length (c := w.idOf (.buffer, x)) (hr.exec.tasks _ _ O.cnt)
          have h3 := hK τ hr hl
          omega)
        refine ⟨2 * K + 2 * a.buffers.length + 2, fun τ hr hl => ?_⟩
        have h1 := manager_length (hlh a ha) (A.chans_nodup T ha) (hr.exec.tasks _ _ (T.manages ha))
        have h2 : (proj (.manager a.regulator) τ).countP (w.moves (.manager a.regulator)) = (proj (.manager a.regulator) τ).countP (fun e => !tellsNothing e) := by
          congr 1
        have h3 := hK τ ⟨hr, hl⟩
        rw [List.map_map, List.length_map] at h1
        have e1 : ((fun c => (gotOn Kind.size c (proj (Who.manager a.regulator) τ)).length) ∘ fun b : Str => w.idOf (.buffer, b)) = fun x => (gotOn .size (w.idOf (.buffer, x)) (proj (.manager a.regulator) τ)).length := rfl
        rw [e1] at h1
        rw [h2]
        omega

theorem Rigged.bounded (A : Rigged c hs w) (T : Attended cs w)
    (hC : Complete hs) (hcf : CircleFree hs) (hlh : ∀ a ∈ cs, a.low < a.high) (B : Nat) (i : Who) :
    ∃ K, ∀ τ, w.Run cs cap τ → Limited B τ → (proj i τ).countP (w.moves i) ≤ K := by
  obtain ⟨K, hK⟩ := A.bounded_by (cap := cap) T hC hcf hlh B i
  exact ⟨K, fun τ hr hl => hK τ hr ⟨fun i _ h _ => hl.lines i h, fun r => hl.statuses _⟩⟩

end
end Verif
