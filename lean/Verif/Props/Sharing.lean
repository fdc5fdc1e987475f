import Verif.Lemmas.JunctionShare
import Verif.Props.PriorityExample
/-!
# C104: inputs of the same number, in the running program
-/
namespace Verif

/-- Two in a list, by their places. -/
theorem pair_sublist {α : Type} {l : List α} {i k : Nat} {a b : α} (ha : l[i]? = some a) (hb : l[k]? = some b) (hik : i < k) : [a, b].Sublist l := by
  induction l generalizing i k with
  | nil => simp at ha
  | cons x l ih =>
    cases k with
    | zero => omega
    | succ k =>
      simp only [List.getElem?_cons_succ] at hb
      cases i with
      | zero =>
        simp only [List.getElem?_cons_zero, Option.some.injEq] at ha
        subst ha
        exact (List.singleton_sublist.mpr (List.mem_of_getElem? hb)).cons_cons x
      | succ i =>
        simp only [List.getElem?_cons_succ] at ha
        exact (ih ha hb (by omega)).cons x

section
variable {c : Config} {hs : List Hop} {w : Waiter}

/-- Inputs of a junction are in the order of their channels. -/
theorem Assembled.junctionOrder (A : Assembled c hs w) {j : CompRef} (hj : j.1 = .junction) {inputs pushs spy} (hn : w.node (.part j .main) = some (.junction inputs pushs spy))
    {i k : Nat} {f h : Hop} (hi : hs[i]? = some f) (hk : hs[k]? = some h) (hik : i < k) (hf : f.to = j) (hh : h.to = j) :
    ∃ p q, [(q, f.input.priority), (p, h.input.priority)].Sublist inputs ∧ q.source = some (.chan i) ∧ p.source = some (.chan k) := by
  obtain ⟨K, hK, he⟩ := A.comps j ⟨h, List.mem_of_getElem? hk, Or.inr hh⟩
  rw [expected_junction _ _ _ _ hj] at he
  have := plain_junction he
  subst this
  simp only [Waiter.node, hK, Comp.node, Option.some.injEq, Node.junction.injEq] at hn
  obtain ⟨rfl, _, _⟩ := hn
  refine ⟨(h.pullEnd w.idOf k).pull, (f.pullEnd w.idOf i).pull, ?_, rfl, rfl⟩
  have h1 : [(f, i), (h, k)].Sublist hs.zipIdx := pair_sublist (i := i) (k := k) (by simp [List.getElem?_zipIdx, hi]) (by simp [List.getElem?_zipIdx, hk]) hik
  have h2 := (h1.filter fun x => decide (x.1.to = j)).map fun x => (x.1.pullEnd w.idOf x.2, x.1.input.priority)
  have h3 := h2.map fun x : PullEnd × Int => (x.1.pull, x.2)
  simpa [pullEnds, hf, hh] using h3

/-- All inputs of a junction are from hops to it. -/
theorem Assembled.junctionFrom (A : Assembled c hs w) {j : CompRef} (hj : j.1 = .junction) {inputs pushs spy} (hn : w.node (.part j .main) = some (.junction inputs pushs spy))
    {x : Pull × Int} (hx : x ∈ inputs) : ∃ h ∈ hs, h.to = j ∧ x.2 = h.input.priority := by
  obtain ⟨r, p, K, e, hm, hK, he, hkn⟩ := A.node_inv hn
  cases e
  rw [expected_junction _ _ _ _ hj] at he
  have := plain_junction he
  subst this
  simp only [Comp.node, Option.some.injEq, Node.junction.injEq] at hkn
  obtain ⟨rfl, _, _⟩ := hkn
  obtain ⟨y, hy, rfl⟩ := List.mem_map.mp hx
  obtain ⟨z, hz, rfl⟩ := List.mem_map.mp (show y ∈ pullEnds _ _ _ from hy)
  rw [List.mem_filter] at hz
  exact ⟨z.1, List.mem_of_getElem? (List.mem_zipIdx_iff_getElem?.mp hz.1), by simpa using hz.2, rfl⟩

end

section
variable {c : Config} {R : Map Hop} {order : List (Str × Watch)} {w w' : Waiter} {cs : List Capture} {cap : Caps} {bad : CompRef → Bool} {τ₁ τ₂ : List (Who × Ev)}

/-- **C104** Two inputs of a junction of the same number, which is not the smallest: as long as there is something in the one that was connected first, at most one message is taken from the other. -/
theorem C104_starved (hc : c.connection = hopSets R) (hw : getWaiter c = .ok w) (hp : w.regulatorSettings order = .ok (cs, w')) (hC : Complete (R.map (·.2)))
    {j : CompRef} (hj : j.1 = .junction) (hr : w'.RunWith cs bad cap (τ₁ ++ τ₂)) {ch ch' : Nat} {g h r : Hop} (hg : (R.map (·.2))[ch']? = some g) (hh : (R.map (·.2))[ch]? = some h)
    (hlt : ch' < ch) (hgj : g.to = j) (hhj : h.to = j) (hsame : g.input.priority = h.input.priority) (hrm : r ∈ R.map (·.2)) (hrj : r.to = j) (hless : r.input.priority < g.input.priority)
    (hkeep : ∃ i f, (R.map (·.2))[i]? = some f ∧ f.from = j ∧ ¬ (f.input.breakable = .finish ∧ Gone cap (τ₁ ++ τ₂) i)) (hfull : ∀ υ, υ <+: τ₂ → Waits cap (τ₁ ++ υ) ch') :
    (receivedFrom (.chan ch) (proj (.part j .main) τ₂)).length ≤ 1 := by
  have A := assembled hc hw hp
  have W := A.wired hC
  obtain ⟨inputs, pushs, hn⟩ := A.junctionNode hj ⟨g, List.mem_of_getElem? hg, Or.inr hgj⟩
  obtain ⟨_, hin, hdi, hse, hnd, hne⟩ := W.ok (.part j .main) _ hn
  have hpt := junctionTask_partial (hr.node A hC hn (by simp [Who.isDrain, hj]))
  obtain ⟨k, hk⟩ := List.getElem?_of_mem hrm
  obtain ⟨pr, hpr, _⟩ := A.junctionInputs hj hn hk hrj
  obtain ⟨p, q, hpq, hq1, hp1⟩ := A.junctionOrder hj hn hg hh hlt hgj hhj
  rw [← hsame] at hpq
  apply Classical.byContradiction
  intro hlen
  obtain ⟨a, e1, b, e2, z, d1, d2, heq, k1, k4⟩ := got_twice (s := .chan ch) (tr := proj (.part j .main) τ₂) (by omega)
  rw [← List.cons_append, ← List.append_assoc] at heq
  obtain ⟨υ, υ', rfl, h1, h2⟩ := proj_split heq
  rw [← List.append_assoc] at hr
  have hpt' : LoopPartial (junctionBody pushs none) (junctionInit inputs) (proj (.part j .main) (τ₁ ++ υ) ++ e2 :: proj (.part j .main) υ') := by
    simpa [proj_append, proj_cons_self] using hpt
  have hbef := junction_before_same hdi hse hpt' k4 hpq hp1 hq1 hpr hless
  rcases before_run A hj hn hr.exec.chans hbef with ⟨υ₁, υ₂, st, h3, h4, h5, h6⟩ | ⟨st, h4, h5, _⟩ | h3
  · rw [List.append_eq_append_iff] at h3
    rcases h3 with ⟨z1, rfl, rfl⟩ | ⟨z1, rfl, rfl⟩
    · obtain ⟨st', h7, h8⟩ := hfull z1 ⟨υ₂ ++ (.part j .main, e2) :: υ', by simp⟩
      rw [h4] at h7
      cases h7
      exact h8 h5
    · have : Act.got (.chan ch) d1 ∈ acts (proj (.part j .main) (z1 ++ υ)) := by
        rw [proj_append, h1]
        simp [acts, k1]
      obtain ⟨s, h⟩ := h6 _ this
      cases h
  · obtain ⟨st', h7, h8⟩ := hfull υ ⟨_, rfl⟩
    rw [h4] at h7
    cases h7
    exact h8 h5
  · obtain ⟨i, f, h7, h8, h9⟩ := hkeep
    obtain ⟨k7, k8⟩ := h3 i f h7 h8
    refine h9 ⟨k7, ?_⟩
    have := k8.later hr.exec.chans
    rwa [List.append_assoc] at this

/-- **C104** An input of the smallest number that always has something gets its turns: from no other input of the junction are more than two messages more taken. -/
theorem C104_shared (hc : c.connection = hopSets R) (hw : getWaiter c = .ok w) (hp : w.regulatorSettings order = .ok (cs, w')) (hC : Complete (R.map (·.2)))
    {j : CompRef} (hj : j.1 = .junction) (hr : w'.RunWith cs bad cap (τ₁ ++ τ₂)) {ch' : Nat} {g : Hop} (hg : (R.map (·.2))[ch']? = some g) (hgj : g.to = j)
    (hmin : ∀ f ∈ R.map (·.2), f.to = j → g.input.priority ≤ f.input.priority)
    (hkeep : ∃ i f, (R.map (·.2))[i]? = some f ∧ f.from = j ∧ ¬ (f.input.breakable = .finish ∧ Gone cap (τ₁ ++ τ₂) i)) (hfull : ∀ υ, υ <+: τ₂ → Waits cap (τ₁ ++ υ) ch') (ch : Nat) :
    (receivedFrom (.chan ch) (proj (.part j .main) τ₂)).length ≤ (receivedFrom (.chan ch') (proj (.part j .main) τ₂)).length + 2 := by
  have A := assembled hc hw hp
  have W := A.wired hC
  obtain ⟨inputs, pushs, hn⟩ := A.junctionNode hj ⟨g, List.mem_of_getElem? hg, Or.inr hgj⟩
  obtain ⟨_, hin, hdi, hse, hnd, hne⟩ := W.ok (.part j .main) _ hn
  have hpt := junctionTask_partial (hr.node A hC hn (by simp [Who.isDrain, hj]))
  obtain ⟨q, hq1, hq2⟩ := A.junctionInputs hj hn hg hgj
  obtain ⟨stE, hstE⟩ := Option.isSome_iff_exists.mp hr.exec.chans
  rw [proj_append] at hpt
  refine junction_shares hdi hse hpt hq1 hq2 (fun x hx => ?_) ?_ ?_ ?_ (.chan ch)
  · obtain ⟨f, h1, h2, h3⟩ := A.junctionFrom hj hn hx
    rw [h3]
    exact hmin f h1 h2
  · intro hm
    obtain ⟨ev, h1, h2⟩ := List.mem_map.mp hm
    obtain ⟨u, v, h3⟩ := List.append_of_mem h1
    obtain ⟨υ, υ', rfl, _, _⟩ := proj_split h3
    obtain ⟨ch2, e1⟩ := empty_event h2
    subst e1
    have : ch2 = ch' := by simpa [act] using h2
    subst this
    obtain ⟨st, h4, h5⟩ := hfull υ ⟨_, rfl⟩
    rw [← List.append_assoc, List.map_append, List.map_cons] at hstE
    obtain ⟨st2, k1, k2⟩ := execAll_split hstE
    obtain ⟨st3, k3, _⟩ := execAll_cons k2
    rw [h4] at k1
    cases k1
    have := exec_try_empty k3
    simp_all
  · intro hm
    rw [← proj_append] at hm
    obtain ⟨ev, h1, h2⟩ := List.mem_map.mp hm
    obtain ⟨u, v, h3⟩ := List.append_of_mem h1
    obtain ⟨υ, υ', h6, _, _⟩ := proj_split h3
    obtain ⟨st, h4, h5⟩ := hfull τ₂ (List.prefix_refl _)
    rw [hstE] at h4
    cases h4
    rw [h6, List.map_append, List.map_cons] at hstE
    obtain ⟨st2, k1, k2⟩ := execAll_split hstE
    obtain ⟨st3, k3, k4⟩ := execAll_cons k2
    have hsp : (st3 .data ch').q = [] ∧ (st3 .data ch').closed = true := by
      rcases ended_event h2 with rfl | rfl
      · have := exec_recv_none k3
        simp_all
      · have := exec_try_closed k3
        simp_all
    exact h5 (execAll_spent k4 hsp.1 hsp.2)
  · intro hm
    rw [← proj_append] at hm
    obtain ⟨i, f, h7, h8, h9⟩ := hkeep
    exact h9 (allGone_run A hj hn hstE hm i f h7 h8)

end

namespace Example

/-- Three streams are merged, with these numbers. -/
def confluence (n₁ n₂ n₃ : Int) : List (Str × Hop) :=
  [("m_1".toList, ⟨⟨.faucet, "left".toList, .out⟩, none, ⟨.junction, "merge".toList⟩, ⟨.terminate, n₁⟩, none⟩),
   ("m_2".toList, ⟨⟨.faucet, "right".toList, .out⟩, none, ⟨.junction, "merge".toList⟩, ⟨.terminate, n₂⟩, none⟩),
   ("m_3".toList, ⟨⟨.faucet, "rush".toList, .out⟩, none, ⟨.junction, "merge".toList⟩, ⟨.terminate, n₃⟩, none⟩),
   ("m_4".toList, ⟨⟨.junction, "merge".toList, .out⟩, none, ⟨.drain, "lake".toList⟩, ⟨.terminate, 0⟩, none⟩)]
def confluenceConfig (n₁ n₂ n₃ : Int) : Config where
  faucet := [("left".toList, "-".toList), ("right".toList, "-".toList), ("rush".toList, "-".toList)]
  regulator := []
  drain := [("lake".toList, "-".toList)]
  launch := []
  connection := hopSets (confluence n₁ n₂ n₃)
def confluenceWaiter (n₁ n₂ n₃ : Int) : Waiter := ((getWaiter (confluenceConfig n₁ n₂ n₃)).ok?).getD Waiter.new
/-- `left` and `right` have delivered three lines each before the junction first looks; `rush` does nothing. -/
def confluenceTrace (n₁ n₂ n₃ : Int) := (confluenceWaiter n₁ n₂ n₃).drive [] estuaryCaps estuaryFeed (.code 3)
  (List.replicate 6 (Who.part (.faucet, "left".toList) .main) ++ List.replicate 6 (Who.part (.faucet, "right".toList) .main) ++ List.replicate 32 estuaryJoin)

/-- Whether there is something in a channel all the time. -/
def busy (cap : Caps) (τ₁ τ₂ : List (Who × Ev)) (ch : Nat) : Bool :=
  (List.range (τ₂.length + 1)).all fun n => match execAll cap Store.init ((τ₁ ++ τ₂.take n).map Prod.snd) with
    | some st => !(st .data ch).q.isEmpty
    | none => false
theorem busy_waits {cap : Caps} {τ₁ τ₂ : List (Who × Ev)} {ch : Nat} (h : busy cap τ₁ τ₂ ch = true) (υ : List (Who × Ev)) (hυ : υ <+: τ₂) : Waits cap (τ₁ ++ υ) ch := by
  have := List.all_eq_true.mp h υ.length (List.mem_range.mpr (Nat.lt_succ_of_le hυ.length_le))
  rw [← List.prefix_iff_eq_take.mp hυ] at this
  split at this
  · rename_i st hst
    exact ⟨st, hst, fun h => by simp [h] at this⟩
  · cases this

/-- `left` and `right` have the same number, `rush` a smaller one: while there are lines of `left`, at most one of `right` is taken; afterwards all of them. -/
example : (receivedFrom (.chan 1) (proj estuaryJoin (((confluenceTrace 5 5 1).take 19).drop 12))).length ≤ 1 ∧
    receivedFrom (.chan 1) (proj estuaryJoin (confluenceTrace 5 5 1)) = [[4, 10], [5, 10], [6, 10]] := by
  refine ⟨?_, by decide +kernel⟩
  have hb : getWaiter (confluenceConfig 5 5 1) = .ok (confluenceWaiter 5 5 1) := by decide +kernel
  have hr : (confluenceWaiter 5 5 1).RunWith [] (fun _ => false) estuaryCaps ((confluenceTrace 5 5 1).take 19) := Waiter.Run.plain (Waiter.runs_sound (by decide +kernel))
  rw [← List.take_append_drop 12 ((confluenceTrace 5 5 1).take 19)] at hr
  exact C104_starved (c := confluenceConfig 5 5 1) (R := confluence 5 5 1) (order := []) rfl hb rfl (complete_of (by decide +kernel) (by decide +kernel)) rfl hr
    (ch' := 0) (ch := 1) (g := ((confluence 5 5 1).map (·.2))[0]) (h := ((confluence 5 5 1).map (·.2))[1]) (r := ((confluence 5 5 1).map (·.2))[2]) rfl rfl (by decide) rfl rfl rfl
    (List.getElem_mem _) rfl (by decide) ⟨3, ((confluence 5 5 1).map (·.2))[3], rfl, rfl, fun h => absurd h.1 (by decide +kernel)⟩ (busy_waits (by decide +kernel))

/-- Their number is the smallest: they take turns. -/
example : (receivedFrom (.chan 0) (proj estuaryJoin (((confluenceTrace 1 1 5).take 22).drop 12))).length ≤
      (receivedFrom (.chan 1) (proj estuaryJoin (((confluenceTrace 1 1 5).take 22).drop 12))).length + 2 ∧
    receivedFrom (.chan 1) (proj estuaryJoin (((confluenceTrace 1 1 5).take 22).drop 12)) = [[4, 10], [5, 10]] := by
  refine ⟨?_, by decide +kernel⟩
  have hb : getWaiter (confluenceConfig 1 1 5) = .ok (confluenceWaiter 1 1 5) := by decide +kernel
  have hr : (confluenceWaiter 1 1 5).RunWith [] (fun _ => false) estuaryCaps ((confluenceTrace 1 1 5).take 22) := Waiter.Run.plain (Waiter.runs_sound (by decide +kernel))
  rw [← List.take_append_drop 12 ((confluenceTrace 1 1 5).take 22)] at hr
  exact C104_shared (c := confluenceConfig 1 1 5) (R := confluence 1 1 5) (order := []) rfl hb rfl (complete_of (by decide +kernel) (by decide +kernel)) rfl hr
    (ch' := 1) (g := ((confluence 1 1 5).map (·.2))[1]) rfl rfl (by decide +kernel) ⟨3, ((confluence 1 1 5).map (·.2))[3], rfl, rfl, fun h => absurd h.1 (by decide +kernel)⟩
    (busy_waits (by decide +kernel)) 0

end Example
end Verif
