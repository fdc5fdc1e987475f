import Verif.Lemmas.JunctionOrder
import Verif.Lemmas.WorldFinal
/-!
# C103: the numbers of the inputs of a junction, in the running program
-/
namespace Verif

/-- What is taken, in a trace, from the channels of hops whose number is larger than `n`. -/
def takenOver (hs : List Hop) (n : Int) (tr : List Ev) : List Bytes :=
  (acts tr).filterMap fun
    | .got (.chan ch) d => match hs[ch]? with
      | some h => if n < h.input.priority then some d else none
      | none => none
    | _ => none

/-- After `τ`, there is something in channel `ch`. -/
def Waits (cap : Caps) (τ : List (Who × Ev)) (ch : Nat) : Prop :=
  ∃ st, execAll cap Store.init (τ.map Prod.snd) = some st ∧ (st .data ch).q ≠ []

/-- After `τ`, channel `ch` has been closed. -/
def Gone (cap : Caps) (τ : List (Who × Ev)) (ch : Nat) : Prop :=
  ∃ st, execAll cap Store.init (τ.map Prod.snd) = some st ∧ (st .data ch).closed = true

theorem Gone.later {cap : Caps} {τ τ' : List (Who × Ev)} {ch : Nat} (h : Gone cap τ ch) (hs : (execAll cap Store.init ((τ ++ τ').map Prod.snd)).isSome = true) : Gone cap (τ ++ τ') ch := by
  obtain ⟨st, h1, h2⟩ := h
  obtain ⟨st', h3⟩ := Option.isSome_iff_exists.mp hs
  refine ⟨st', h3, ?_⟩
  rw [List.map_append] at h3
  obtain ⟨st1, k1, k2⟩ := execAll_split h3
  rw [h1] at k1
  cases k1
  exact (closed_iff k2 .data ch).mpr (Or.inl h2)

theorem takenOver_mem {hs : List Hop} {n : Int} {tr : List Ev} (h : takenOver hs n tr ≠ []) :
    ∃ a ev b ch d g, tr = a ++ ev :: b ∧ act ev = .got (.chan ch) d ∧ hs[ch]? = some g ∧ n < g.input.priority := by
  obtain ⟨d, hd⟩ := List.exists_mem_of_ne_nil _ h
  unfold takenOver at hd
  obtain ⟨x, hx, hf⟩ := List.mem_filterMap.mp hd
  obtain ⟨ev, he, rfl⟩ := List.mem_map.mp hx
  obtain ⟨a, b, rfl⟩ := List.append_of_mem he
  split at hf
  · rename_i ch d' e1
    split at hf
    · rename_i g hg
      split at hf
      · exact ⟨a, ev, b, ch, d', g, rfl, e1, hg, by assumption⟩
      · cases hf
    · cases hf
  · cases hf

theorem takenOver_append (hs : List Hop) (n : Int) (a b : List Ev) : takenOver hs n (a ++ b) = takenOver hs n a ++ takenOver hs n b := by
  simp [takenOver]

theorem takenOver_cons_le (hs : List Hop) (n : Int) (e : Ev) (b : List Ev) : (takenOver hs n (e :: b)).length ≤ 1 + (takenOver hs n b).length := by
  have : takenOver hs n (e :: b) = takenOver hs n [e] ++ takenOver hs n b := takenOver_append hs n [e] b
  rw [this, List.length_append]
  have : (takenOver hs n [e]).length ≤ 1 := by
    unfold takenOver
    refine Nat.le_trans (List.length_filterMap_le _ _) ?_
    simp [acts]
  omega

theorem takenOver_two {hs : List Hop} {n : Int} {tr : List Ev} (h : 2 ≤ (takenOver hs n tr).length) :
    ∃ a e1 b e2 c ch1 d1 g1 ch2 d2 g2, tr = a ++ e1 :: (b ++ e2 :: c) ∧ act e1 = .got (.chan ch1) d1 ∧ hs[ch1]? = some g1 ∧ n < g1.input.priority ∧
      act e2 = .got (.chan ch2) d2 ∧ hs[ch2]? = some g2 ∧ n < g2.input.priority := by
  induction tr with
  | nil => simp [takenOver, acts] at h
  | cons e tr ih =>
    by_cases h1 : takenOver hs n [e] = []
    · have : takenOver hs n (e :: tr) = takenOver hs n [e] ++ takenOver hs n tr := takenOver_append hs n [e] tr
      rw [h1, List.nil_append] at this
      rw [this] at h
      obtain ⟨a, e1, b, e2, c, ch1, d1, g1, ch2, d2, g2, rfl, hh⟩ := ih h
      exact ⟨e :: a, e1, b, e2, c, ch1, d1, g1, ch2, d2, g2, rfl, hh⟩
    · have h2 := takenOver_cons_le hs n e tr
      obtain ⟨b, e2, c, ch2, d2, g2, rfl, k1, k2, k3⟩ := takenOver_mem (hs := hs) (n := n) (tr := tr) (fun h3 => by rw [h3] at h2; simp at h2; omega)
      obtain ⟨a', e1, b', ch1, d1, g1, e3, k4, k5, k6⟩ := takenOver_mem h1
      have : e = e1 := by
        cases a' with
        | nil => simp at e3; exact e3.1
        | cons x a' => simp at e3
      subst this
      exact ⟨[], e, b, e2, c, ch1, d1, g1, ch2, d2, g2, rfl, k4, k5, k6, k1, k2, k3⟩

section
variable {c : Config} {R : Map Hop} {order : List (Str × Watch)} {w w' : Waiter} {cs : List Capture} {cap : Caps} {bad : CompRef → Bool} {τ₁ τ₂ : List (Who × Ev)}

/-- When a junction has given up an input, its outputs are of variation `F` and closed. -/
theorem allGone_run (A : Assembled c (R.map (·.2)) w') {j : CompRef} (hj : j.1 = .junction) {inputs pushs} (hn : w'.node (.part j .main) = some (.junction inputs pushs none))
    {st1 : Store} (hst1 : execAll cap Store.init (τ₁.map Prod.snd) = some st1) {s : End} (h3 : AllGone pushs s (proj (.part j .main) τ₁)) :
    ∀ i f, (R.map (·.2))[i]? = some f → f.from = j → f.input.breakable = .finish ∧ Gone cap τ₁ i := by
  intro i f hi hfj
  have hfw : f.writer = .part j .main := by
    have : f.src.ty = .junction := by rw [← hj, ← hfj]; rfl
    simp [Hop.writer, this, hfj]
  have ht : End.chan i ∈ (Node.junction inputs pushs none).targets := (A.targets hn i).mpr (Or.inl ⟨f, hi, hfw⟩)
  obtain ⟨o, ho, e⟩ := List.mem_filterMap.mp (show End.chan i ∈ pushs.filterMap Push.target from ht)
  refine ⟨by rw [← (A.varies hn o ho i e).1 f hi]; exact h3.1 o ho, st1, hst1, ?_⟩
  obtain ⟨_, t1, t, t2, d', rest, h4, h5, h6, h7⟩ := h3
  have h8 : (End.chan i, d') ∈ (offers t).map fun o => (o.to, o.d) := by
    rw [h6]
    exact List.mem_map.mpr ⟨_, ht, rfl⟩
  obtain ⟨x, hx, h9⟩ := List.mem_map.mp h8
  obtain ⟨why, h10⟩ := h7 x hx
  simp only [Prod.mk.injEq] at h9
  have h11 := mem_offers.mp hx
  rw [h9.1, h9.2, h10] at h11
  obtain ⟨y, hy, h12⟩ := List.mem_map.mp h11
  have hy' := refused_event h12 (by simp)
  have hmem : y ∈ proj (.part j .main) τ₁ := by rw [h4]; simp [hy]
  cases hcl : (st1 .data i).closed with
  | true => rfl
  | false =>
    subst hy'
    exact absurd (List.mem_map.mpr ⟨_, mem_proj.mp hmem, rfl⟩) ((open_history hst1 hcl).1 d')

/-- What `junction_before` says, with channels. -/
theorem before_run (A : Assembled c (R.map (·.2)) w') {j : CompRef} (hj : j.1 = .junction) {inputs pushs} (hn : w'.node (.part j .main) = some (.junction inputs pushs none))
    (hst : (execAll cap Store.init ((τ₁ ++ τ₂).map Prod.snd)).isSome = true) {ch' : Nat}
    (h2 : (∃ u ev' v, proj (.part j .main) τ₁ = u ++ ev' :: v ∧ act ev' = .empty (.chan ch') ∧ ∀ x ∈ v, ∃ e'', act x = .empty e'') ∨
      Act.ended (.chan ch') ∈ acts (proj (.part j .main) τ₁) ∨ AllGone pushs (.chan ch') (proj (.part j .main) τ₁)) :
    (∃ υ₁ υ₂ st, τ₁ = υ₁ ++ υ₂ ∧ execAll cap Store.init (υ₁.map Prod.snd) = some st ∧ (st .data ch').q = [] ∧
      ∀ a ∈ acts (proj (.part j .main) υ₂), ∃ s, a = .empty s) ∨
    (∃ st, execAll cap Store.init (τ₁.map Prod.snd) = some st ∧ (st .data ch').q = [] ∧ (st .data ch').closed = true) ∨
    (∀ i f, (R.map (·.2))[i]? = some f → f.from = j → f.input.breakable = .finish ∧ Gone cap τ₁ i) := by
  rw [Option.isSome_iff_exists] at hst
  obtain ⟨stE, hstE⟩ := hst
  rw [List.map_append] at hstE
  obtain ⟨st1, hst1, _⟩ := execAll_split hstE
  rcases h2 with ⟨u, ev', v, h3, h4, h5⟩ | h3 | h3
  · left
    obtain ⟨υ₁, υ₂, rfl, _, h7⟩ := proj_split h3
    rw [List.map_append, List.map_cons] at hst1
    obtain ⟨st2, k1, k2⟩ := execAll_split hst1
    obtain ⟨st3, k3, _⟩ := execAll_cons k2
    obtain ⟨ch2, e1⟩ := empty_event h4
    subst e1
    have : ch2 = ch' := by simpa [act] using h4
    subst this
    refine ⟨υ₁, (.part j .main, _) :: υ₂, st2, rfl, k1, ?_, ?_⟩
    · have := (exec_try_empty k3)
      simp_all
    · intro a ha
      rw [proj_cons_self, h7] at ha
      obtain ⟨x, hx, rfl⟩ := List.mem_map.mp ha
      rcases List.mem_cons.mp hx with rfl | hx
      · exact ⟨_, h4⟩
      · exact h5 x hx
  · right; left
    obtain ⟨ev', h4, h5⟩ := List.mem_map.mp h3
    obtain ⟨u, v, h6⟩ := List.append_of_mem h4
    obtain ⟨υ₁, υ₂, rfl, _, _⟩ := proj_split h6
    refine ⟨st1, hst1, ?_⟩
    rw [List.map_append, List.map_cons] at hst1
    obtain ⟨st2, k1, k2⟩ := execAll_split hst1
    obtain ⟨st3, k3, k4⟩ := execAll_cons k2
    have hsp : (st3 .data ch').q = [] ∧ (st3 .data ch').closed = true := by
      rcases ended_event h5 with rfl | rfl
      · have := exec_recv_none k3
        simp_all
      · have := exec_try_closed k3
        simp_all
    exact ⟨execAll_spent k4 hsp.1 hsp.2, (closed_iff k4 .data ch').mpr (Or.inl hsp.2)⟩
  · exact Or.inr (Or.inr (allGone_run A hj hn hst1 h3))

/-- **C103** When a junction takes a message from an input, then each of its inputs of a smaller number was empty at some time since when the junction has done nothing but look at inputs that were empty; or it
is at its end; or all outputs of the junction are of variation `F` and have been closed. -/
theorem C103_order (hc : c.connection = hopSets R) (hw : getWaiter c = .ok w) (hp : w.regulatorSettings order = .ok (cs, w')) (hC : Complete (R.map (·.2)))
    {j : CompRef} (hj : j.1 = .junction) {ev : Ev} (hr : w'.RunWith cs bad cap (τ₁ ++ (.part j .main, ev) :: τ₂)) {ch ch' : Nat} {d : Bytes} {h g : Hop}
    (he : act ev = .got (.chan ch) d) (hh : (R.map (·.2))[ch]? = some h) (hg : (R.map (·.2))[ch']? = some g) (hto : g.to = j) (hlt : g.input.priority < h.input.priority) :
    (∃ υ₁ υ₂ st, τ₁ = υ₁ ++ υ₂ ∧ execAll cap Store.init (υ₁.map Prod.snd) = some st ∧ (st .data ch').q = [] ∧
      ∀ a ∈ acts (proj (.part j .main) υ₂), ∃ s, a = .empty s) ∨
    (∃ st, execAll cap Store.init (τ₁.map Prod.snd) = some st ∧ (st .data ch').q = [] ∧ (st .data ch').closed = true) ∨
    (∀ i f, (R.map (·.2))[i]? = some f → f.from = j → f.input.breakable = .finish ∧ Gone cap τ₁ i) := by
  have A := assembled hc hw hp
  have W := A.wired hC
  obtain ⟨inputs, pushs, hn⟩ := A.junctionNode hj ⟨g, List.mem_of_getElem? hg, Or.inr hto⟩
  obtain ⟨_, hin, hdi, hse, hnd, hne⟩ := W.ok (.part j .main) _ hn
  have hpt := junctionTask_partial (hr.node A hC hn (by simp [Who.isDrain, hj]))
  rw [proj_append, proj_cons_self] at hpt
  have hht : h.to = j := by
    have hus := (junction_uses hdi hse JInv.init hpt).1 (.chan ch) d (by simp [acts, he])
    obtain ⟨p, hp1, hp2⟩ := hus
    have hsrc : End.chan ch ∈ (Node.junction inputs pushs none).sources := by
      obtain ⟨x, hx, rfl⟩ := List.mem_map.mp (mem_init.mp hp1)
      exact List.mem_filterMap.mpr ⟨x, hx, hp2⟩
    rcases (A.toRigged.sources hn ch).mp hsrc with ⟨f, h1, h2⟩ | ⟨h, _⟩
    · rw [hh] at h1
      cases h1
      simp only [Hop.reader, Who.part.injEq] at h2
      exact h2.1
    · rw [hj] at h; cases h
  obtain ⟨p, hp1, hp2⟩ := A.junctionInputs hj hn hh hht
  obtain ⟨q, hq1, hq2⟩ := A.junctionInputs hj hn hg hto
  obtain ⟨e', h1, h2⟩ := junction_before hdi hse hpt he hp1 hp2 hq1 hlt
  rw [hq2] at h1
  cases h1
  exact before_run A hj hn hr.exec.chans h2

/-- **C103** As long as there is something in an input of a junction, it takes at most one message from all inputs of a larger number together, unless all of its outputs are of variation `F`
and closed in the end. -/
theorem C103_served (hc : c.connection = hopSets R) (hw : getWaiter c = .ok w) (hp : w.regulatorSettings order = .ok (cs, w')) (hC : Complete (R.map (·.2)))
    {j : CompRef} (hj : j.1 = .junction) (hr : w'.RunWith cs bad cap (τ₁ ++ τ₂)) {ch' : Nat} {g : Hop} (hg : (R.map (·.2))[ch']? = some g) (hto : g.to = j)
    (hkeep : ∃ i f, (R.map (·.2))[i]? = some f ∧ f.from = j ∧ ¬ (f.input.breakable = .finish ∧ Gone cap (τ₁ ++ τ₂) i)) (hfull : ∀ υ, υ <+: τ₂ → Waits cap (τ₁ ++ υ) ch') :
    (takenOver (R.map (·.2)) g.input.priority (proj (.part j .main) τ₂)).length ≤ 1 := by
  apply Classical.byContradiction
  intro hlen
  obtain ⟨a, e1, b, e2, z, ch1, d1, g1, ch2, d2, g2, heq, k1, k2, k3, k4, k5, k6⟩ := takenOver_two (Nat.lt_of_not_le hlen)
  rw [← List.cons_append, ← List.append_assoc] at heq
  obtain ⟨υ, υ', rfl, h1, _⟩ := proj_split heq
  rw [← List.append_assoc] at hr
  rcases C103_order hc hw hp hC hj hr k4 k5 hg hto k6 with ⟨υ₁, υ₂, st, h3, h4, h5, h6⟩ | ⟨st, h4, h5, _⟩ | h3
  · rw [List.append_eq_append_iff] at h3
    rcases h3 with ⟨z1, rfl, rfl⟩ | ⟨z1, rfl, rfl⟩
    · obtain ⟨st', h7, h8⟩ := hfull z1 ⟨υ₂ ++ (.part j .main, e2) :: υ', by simp⟩
      rw [h4] at h7
      cases h7
      exact h8 h5
    · have : Act.got (.chan ch1) d1 ∈ acts (proj (.part j .main) (z1 ++ υ)) := by
        rw [proj_append, h1]
        simp [acts, k1]
      obtain ⟨s, h⟩ := h6 _ this
      cases h
  · obtain ⟨st', h7, h8⟩ := hfull υ ⟨_, rfl⟩
    rw [h4] at h7
    cases h7
    exact h8 h5
  · obtain ⟨i, f, h7, h8, h9⟩ := hkeep
    obtain ⟨k7, k8⟩ := h3 i f h7 h8
    refine h9 ⟨k7, ?_⟩
    have := k8.later hr.exec.chans
    rwa [List.append_assoc] at this

end

end Verif
