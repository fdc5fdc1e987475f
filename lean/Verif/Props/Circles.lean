import Verif.Lemmas.Circle
import Verif.Spec.Circles
import Verif.Props.RuntimeEnds
/-!
# Property C81: circles do not end by themselves
-/
namespace Verif

section
variable {c : Config} {hs : List Hop} {w : Waiter} {cs : List Capture} {cap : Caps} {τ : List (Who × Ev)} {via : Str → Prop}

/-- Everything an activity reads from has ended. -/
def Waiter.InputsEnded (w : Waiter) (τ : List (Who × Ev)) (i : Who) : Prop := ∃ n, w.node i = some n ∧ ∀ s ∈ n.sources, Act.ended s ∈ acts (proj i τ)

theorem Assembled.ledTo (A : Assembled c hs w) (hC : Complete hs) {a b : Who} (h : LeadsOn hs via a b) : ∃ n, w.node b = some n := by
  cases h with
  | inside h =>
    cases h with
    | hop hh hx => exact A.readerNode hC hh
    | exit hh hx hp => exact A.readerNode hC hh
    | buffer hm =>
      obtain ⟨n, m, _, h2, _⟩ := (A.edges hC _ _ _).mpr (Or.inr ⟨_, hm, rfl, rfl, rfl⟩)
      exact ⟨m, h2⟩
  | program hh hl hx _ =>
    obtain ⟨ch, hi⟩ := List.getElem?_of_mem hh
    obtain ⟨n, m, h1, _⟩ := (A.edges hC _ ch _).mpr (Or.inl ⟨_, hi, hx, rfl, rfl⟩)
    exact ⟨n, h1⟩

theorem Assembled.calm_fails (A : Assembled c hs w) (hC : Complete hs) (hr : w.Run cs cap τ) (hf : ∀ i, ∀ f ∈ acts (proj i τ), f.trouble = false) {i : Who} {n : Node} (hn : w.node i = some n) :
    ∀ f ∈ acts (proj i τ), f.fails = false := by
  obtain ⟨E, U⟩ := A.run hC hr
  exact fun f => C55_no_failures (A.wired hC) E U (A.inside hC hr hf) i n f hn

theorem Assembled.done_ended (A : Assembled c hs w) (hC : Complete hs) (hr : w.Run cs cap τ) (hf : ∀ i, ∀ f ∈ acts (proj i τ), f.trouble = false) {i : Who} {n : Node} (hn : w.node i = some n)
    {τ₁ τ₂ : List (Who × Ev)} (hs : τ = τ₁ ++ τ₂) (hd : n.task.Done (proj i τ₁)) : w.InputsEnded τ₁ i := by
  refine ⟨n, hn, (node_finished ((A.wired hC).ok i _ hn) hd ?_).ended⟩
  intro f hm
  refine A.calm_fails hC hr hf hn f ?_
  rw [hs, proj_append, acts_append]
  exact List.mem_append_left _ hm

/-- Before everything an activity reads from has ended, the same has happened to whatever leads to it. -/
theorem Assembled.before (A : Assembled c hs w) (hC : Complete hs) (hr : w.Run cs cap τ) (hf : ∀ i, ∀ f ∈ acts (proj i τ), f.trouble = false) (hp : ∀ x, via x → w.Patient cs τ x)
    {a b : Who} (ha : ∃ n, w.node a = some n) (h : LeadsOn hs via a b) (hb : w.InputsEnded τ b) : ∃ n < τ.length, w.InputsEnded (τ.take n) a := by
  have W := A.wired hC
  obtain ⟨n, hn⟩ := ha
  obtain ⟨m, hm, hend⟩ := hb
  -- along a channel
  have chan : ∀ {a' : Who} {ch : Nat}, .chan ch ∈ m.sources → (∀ τ₁ τ₂, τ = τ₁ ++ τ₂ → EdgeFacts τ₁ a' ch b) → ∃ τ₁ τ₂ e, τ = τ₁ ++ e :: τ₂ ∧ (Kind.data, ch) ∈ closings (proj a' τ₁) := by
    intro a' ch hsrc F
    obtain ⟨e, he, hact⟩ := List.mem_map.mp (hend _ hsrc)
    obtain ⟨τ₁, τ₂, rfl⟩ := List.append_of_mem (mem_proj.mp he)
    refine ⟨τ₁, τ₂, _, rfl, ?_⟩
    have F := F (τ₁ ++ [(b, e)]) τ₂ (by simp)
    obtain ⟨st, hst⟩ := Option.isSome_iff_exists.mp (Execution.prefix (τ := τ₁ ++ [(b, e)]) (τ' := τ₂) (by simpa using hr.exec)).chans
    obtain ⟨_, _, h3⟩ := edge_complete hst F.on F.writer F.reader F.sent F.got (by simp [proj, hact])
    rw [proj_append, closings_append, List.mem_append] at h3
    refine h3.resolve_right fun h => ?_
    have := mem_closings.mp h
    obtain ⟨e', he', hact'⟩ := List.mem_map.mp this
    have := mem_proj.mp he'
    simp only [List.mem_singleton, Prod.mk.injEq] at this
    rw [this.2, hact] at hact'
    cases hact'
  have pre : ∀ τ₁ τ₂, τ = τ₁ ++ τ₂ → w.Run cs cap τ₁ := by
    intro τ₁ τ₂ h
    have := hr.take τ₁.length
    rwa [h, List.take_left'] at this
    rfl
  have edge : ∀ {ch : Nat}, w.net.Edge a ch b → ∃ n < τ.length, w.InputsEnded (τ.take n) a := by
    rintro ch ⟨n', m', h1, h2, h3, h4⟩
    have e1 : n' = n := by have : w.node a = some n' := h1; rw [hn] at this; cases this; rfl
    have e2 : m' = m := by have : w.node b = some m' := h2; rw [hm] at this; cases this; rfl
    subst e1 e2
    obtain ⟨τ₁, τ₂, e, hs, hc⟩ := chan (a' := a) h4 fun τ₁ τ₂ hs => by
      obtain ⟨E, U⟩ := A.run hC (pre τ₁ τ₂ hs)
      exact Network.facts W E U ⟨n', m', h1, h2, h3, h4⟩
    refine ⟨τ₁.length, by rw [hs]; simp, n', hn, ?_⟩
    rw [show τ.take τ₁.length = τ₁ by rw [hs, List.take_left']; rfl]
    refine node_closes_last (W.ok a _ hn) ((pre _ _ hs).exec.tasks a _ (sys_node hn)) h3 hc fun f hfm => A.calm_fails hC hr hf hn f ?_
    rw [hs, proj_append, acts_append]
    exact List.mem_append_left _ hfm
  have ended : ∀ τ₁ e τ₂, τ = τ₁ ++ e :: τ₂ → n.task.Done (proj a τ₁) → ∃ n < τ.length, w.InputsEnded (τ.take n) a := by
    intro τ₁ e τ₂ hs hd
    refine ⟨τ₁.length, by rw [hs]; simp, ?_⟩
    rw [show τ.take τ₁.length = τ₁ by rw [hs, List.take_left']; rfl]
    exact A.done_ended hC hr hf hn hs hd
  cases h with
  | inside h =>
    cases h with
    | hop hh hx =>
      obtain ⟨ch, hi⟩ := List.getElem?_of_mem hh
      exact edge ((A.edges hC _ ch _).mpr (Or.inl ⟨_, hi, hx, rfl, rfl⟩))
    | buffer hme => exact edge ((A.edges hC _ _ _).mpr (Or.inr ⟨_, hme, rfl, rfl, rfl⟩))
    | @exit h p hh hx hpp =>
      obtain ⟨ch, hi⟩ := List.getElem?_of_mem hh
      have hsrc := (A.toRigged.exitFacts hC hr hi hx hm).2
      obtain ⟨τ₁, τ₂, e, hs, hc⟩ := chan hsrc fun τ₁ τ₂ hs => (A.toRigged.exitFacts hC (pre τ₁ τ₂ hs) hi hx hm).1
      obtain ⟨e', he', _⟩ := List.mem_map.mp (mem_closings.mp hc)
      have hwr := (A.exitSys (cs := cs) hi hx).1
      rw [hwr] at he'
      obtain ⟨τ₃, τ₄, h4⟩ := List.append_of_mem (mem_proj.mp he')
      refine ended τ₃ (.part h.from .exit, e') (τ₄ ++ e :: τ₂) (by rw [hs, h4]; simp) (hr.exits τ₃ (τ₄ ++ e :: τ₂) _ e' (by rw [hs, h4]; simp) p hpp _ (sys_node hn))
  | @program h hh hl hx hv =>
    obtain ⟨hd, hhd⟩ : ∃ hd, .handle hd ∈ m.sources := by
      have hty : h.from.1 = .launch := hl
      obtain ⟨r, p, k, e1, hme, hk, hpl, hkn⟩ := A.node_inv hm
      unfold Hop.writer at e1
      rw [hl] at e1
      simp only [Who.part.injEq] at e1
      obtain ⟨e1, e2⟩ := e1
      subst e1
      rw [expected_launch _ _ _ _ hty] at hpl
      rw [plain_launch hpl] at hkn
      cases hpo : h.src.port with
      | exit => exact absurd ⟨hl, hpo⟩ hx
      | out =>
        rw [hpo] at e2
        subst e2
        simp only [Comp.node, LaunchEnds.pipe, fromStream] at hkn
        split at hkn
        · cases hkn
        · exact ⟨_, by cases hkn; exact List.mem_singleton.mpr rfl⟩
      | err =>
        rw [hpo] at e2
        subst e2
        simp only [Comp.node, LaunchEnds.pipe, fromStream] at hkn
        split at hkn
        · cases hkn
        · exact ⟨_, by cases hkn; exact List.mem_singleton.mpr rfl⟩
    obtain ⟨e, he, hact⟩ := List.mem_map.mp (hend _ hhd)
    obtain ⟨τ₁, τ₂, hs⟩ := List.append_of_mem (mem_proj.mp he)
    have hfr : h.from = (.launch, h.src.name) := by rw [← hl]; rfl
    obtain ⟨p, hwr⟩ : ∃ p, h.writer = .part h.from p := by unfold Hop.writer; exact ⟨_, rfl⟩
    rw [hwr, hfr] at hs
    rw [hfr] at hn
    have := hp _ hv τ₁ τ₂ p e hd hs hact _ (sys_node hn)
    refine ended τ₁ _ τ₂ hs ?_
    rw [hfr]; exact this

/-- Where everything is led to from within, nothing ends. -/
theorem Assembled.unending (A : Assembled c hs w) (hC : Complete hs) (S : Who → Prop) (hS : ∀ b, S b → ∃ a, S a ∧ LeadsOn hs via a b) (hr : w.Run cs cap τ)
    (hf : ∀ i, ∀ f ∈ acts (proj i τ), f.trouble = false) (hp : ∀ x, via x → w.Patient cs τ x) {b : Who} (hb : S b) : ¬ w.InputsEnded τ b := by
  have : ∀ N m, m < N → ∀ b, S b → ¬ w.InputsEnded (τ.take m) b := by
    intro N
    induction N with
    | zero => intro m hm; omega
    | succ N ih =>
      intro m hm b hb h
      obtain ⟨a, ha, hab⟩ := hS b hb
      obtain ⟨a', _, ha'⟩ := hS a ha
      have hsplit := List.take_append_drop m τ
      obtain ⟨k, h1, h2⟩ := A.before hC (hr.take m) (fun i f hm => hf i f (by rw [← hsplit, proj_append, acts_append]; exact List.mem_append_left _ hm)) (fun x hx τ₁ τ₂ p e hd hs =>
        hp x hx τ₁ (τ₂ ++ τ.drop m) p e hd (by rw [← List.cons_append, ← List.append_assoc, ← hs, hsplit])) (A.ledTo hC ha') hab h
      rw [List.length_take] at h1
      rw [List.take_take, Nat.min_eq_left (by omega)] at h2
      exact ih k (by omega) a ha h2
  have := this (τ.length + 1) τ.length (Nat.lt_succ_self _) b hb
  rwa [List.take_length] at this

end

section
variable {c : Config} {R : Map Hop} {order : List (Str × Watch)} {w w' : Waiter} {cs : List Capture} {cap : Caps} {τ : List (Who × Ev)} {via : Str → Prop}

/-- **C81** As long as nothing goes wrong, nothing on a circle ends, nor anything a circle leads to, unless the circle goes through a program that ends before its input does. -/
theorem C81_circle (hc : c.connection = hopSets R) (hw : getWaiter c = .ok w) (hp : w.regulatorSettings order = .ok (cs, w')) (hC : Complete (R.map (·.2)))
    (hr : w'.Run cs cap τ) (hf : ∀ i, ∀ f ∈ acts (proj i τ), f.trouble = false) (hv : ∀ x, via x → w'.Patient cs τ x)
    {i j : Who} (hi : Relation.TransGen (LeadsOn (R.map (·.2)) via) i i) (hj : Relation.TransGen (LeadsOn (R.map (·.2)) via) i j) :
    ∃ t, w'.sys cs j = some t ∧ ¬ t.Done (proj j τ) := by
  have A := assembled hc hw hp
  have hS : ∀ b, Relation.TransGen (LeadsOn (R.map (·.2)) via) i b → ∃ a, Relation.TransGen (LeadsOn (R.map (·.2)) via) i a ∧ LeadsOn (R.map (·.2)) via a b := by
    intro b hb
    cases hb with
    | single h => exact ⟨i, hi, h⟩
    | tail h h' => exact ⟨_, h, h'⟩
  obtain ⟨a, _, ha⟩ := hS j hj
  obtain ⟨n, hn⟩ := A.ledTo hC ha
  refine ⟨n.task, sys_node hn, fun hd => ?_⟩
  exact A.unending hC _ hS hr hf hv hj (A.done_ended hC hr hf hn (τ₂ := []) (by simp) hd)

/-- So the program does not end either. -/
theorem C81_unending (hc : c.connection = hopSets R) (hw : getWaiter c = .ok w) (hp : w.regulatorSettings order = .ok (cs, w')) (hC : Complete (R.map (·.2)))
    (hr : w'.Run cs cap τ) (hf : ∀ i, ∀ f ∈ acts (proj i τ), f.trouble = false) {i : Who} (hi : Relation.TransGen (Leads (R.map (·.2))) i i) : ¬ w'.Over cs τ := by
  intro ho
  have hi' : Relation.TransGen (LeadsOn (R.map (·.2)) fun _ => False) i i := by
    have : ∀ {a b}, Relation.TransGen (Leads (R.map (·.2))) a b → Relation.TransGen (LeadsOn (R.map (·.2)) fun _ => False) a b := by
      intro a b h
      induction h with
      | single h => exact .single (.inside h)
      | tail _ h ih => exact .tail ih (.inside h)
    exact this hi
  obtain ⟨t, h1, h2⟩ := C81_circle hc hw hp hC hr hf (via := fun _ => False) (fun _ h => h.elim) hi' hi'
  exact h2 (ho _ _ h1)

/-- Where the program has ended, some program on every circle has ended what it printed before its input ended, if nothing went wrong. -/
theorem C81_ends (hc : c.connection = hopSets R) (hw : getWaiter c = .ok w) (hp : w.regulatorSettings order = .ok (cs, w')) (hC : Complete (R.map (·.2)))
    (hr : w'.Run cs cap τ) (hf : ∀ i, ∀ f ∈ acts (proj i τ), f.trouble = false) (ho : w'.Over cs τ) {i : Who} (hi : Relation.TransGen (LeadsOn (R.map (·.2)) via) i i) :
    ∃ x, via x ∧ ¬ w'.Patient cs τ x := by
  apply Classical.byContradiction
  intro hn
  obtain ⟨t, h1, h2⟩ := C81_circle hc hw hp hC hr hf (via := via) (fun x hx => Classical.byContradiction fun h => hn ⟨x, hx, h⟩) hi hi
  exact h2 (ho _ _ h1)

end

section Example

/-- `brook` has a circle through a program. -/
theorem brook_circle : Relation.TransGen (LeadsOn (brook.map (·.2)) fun x => x = "wheel".toList) (.part (.junction, "fork".toList) .main) (.part (.junction, "fork".toList) .main) := by
  have h1 : LeadsOn (brook.map (·.2)) (fun x => x = "wheel".toList) (.part (.junction, "fork".toList) .main) (.part (.buffer, "pond".toList) .input) :=
    .inside (.hop (h := (brook.map (·.2))[1]) (List.getElem_mem _) (by rintro ⟨h, _⟩; cases h))
  have h2 : LeadsOn (brook.map (·.2)) (fun x => x = "wheel".toList) (.part (.buffer, "pond".toList) .input) (.part (.buffer, "pond".toList) .output) :=
    .inside (.buffer ⟨(brook.map (·.2))[1], List.getElem_mem _, Or.inr rfl⟩)
  have h3 : LeadsOn (brook.map (·.2)) (fun x => x = "wheel".toList) (.part (.buffer, "pond".toList) .output) (.part (.launch, "wheel".toList) .input) :=
    .inside (.hop (h := (brook.map (·.2))[2]) (List.getElem_mem _) (by rintro ⟨h, _⟩; cases h))
  have h4 : LeadsOn (brook.map (·.2)) (fun x => x = "wheel".toList) (.part (.launch, "wheel".toList) .input) (.part (.launch, "wheel".toList) .error) :=
    .program (h := (brook.map (·.2))[4]) (List.getElem_mem _) rfl (by rintro ⟨_, h⟩; cases h) rfl
  have h5 : LeadsOn (brook.map (·.2)) (fun x => x = "wheel".toList) (.part (.launch, "wheel".toList) .error) (.part (.junction, "fork".toList) .main) :=
    .inside (.hop (h := (brook.map (·.2))[4]) (List.getElem_mem _) (by rintro ⟨_, h⟩; cases h))
  exact .tail (.tail (.tail (.tail (.single h1) h2) h3) h4) h5

/-- In one run the program has ended by itself. -/
example : ¬ brookWaiter.Patient [] brookAll "wheel".toList := by
  obtain ⟨x, rfl, h⟩ := C81_ends (c := brookConfig) (R := brook) (order := []) (via := fun x => x = "wheel".toList) rfl brook_built rfl brook_complete brookAll_runs brookAll_calm brookAll_over
    brook_circle
  exact h

/-- In another it does not. -/
def wheelTrace := brookWaiter.drive [] brookCaps (fun h => if h = 0 then [[1, 10]] else List.replicate 20 [7, 10]) (.code 3) (List.replicate 9 (brookWaiter.everyone [])).flatten
theorem wheel_runs : brookWaiter.Run [] brookCaps wheelTrace := Waiter.runs_sound (by decide +kernel)
theorem wheel_calm : ∀ i, ∀ f ∈ acts (proj i wheelTrace), f.trouble = false := wheel_runs.calm (by decide +kernel)
theorem wheel_patient : brookWaiter.Patient [] wheelTrace "wheel".toList := by
  intro τ₁ τ₂ p e h hs hact
  have : (wheelTrace.all fun x => match x.1, act x.2 with
    | .part (.launch, _) _, .ended (.handle _) => false
    | _, _ => true) = true := by decide +kernel
  have := List.all_eq_true.mp this (.part (.launch, "wheel".toList) p, e) (by rw [hs]; simp)
  simp only [hact] at this
  cases this
/-- The drain is not on the circle but is led to by it. -/
example : ∃ t, brookWaiter.sys [] (.part (.drain, "field".toList) .main) = some t ∧ ¬ t.Done (proj (.part (.drain, "field".toList) .main) wheelTrace) :=
  C81_circle (c := brookConfig) (R := brook) (order := []) (via := fun x => x = "wheel".toList) rfl brook_built rfl brook_complete wheel_runs wheel_calm
    (by rintro x rfl; exact wheel_patient) brook_circle
    (.single (.inside (.hop (h := (brook.map (·.2))[5]) (List.getElem_mem _) (by rintro ⟨h, _⟩; cases h))))

/-- A circle without a program: a junction and a buffer. -/
def eddy : List (Str × Hop) :=
  [("m_1".toList, ⟨⟨.faucet, "spring".toList, .out⟩, none, ⟨.junction, "fork".toList⟩, ⟨.terminate, 0⟩, none⟩),
   ("m_2".toList, ⟨⟨.junction, "fork".toList, .out⟩, none, ⟨.buffer, "pond".toList⟩, ⟨.terminate, 0⟩, none⟩),
   ("m_3".toList, ⟨⟨.buffer, "pond".toList, .out⟩, none, ⟨.junction, "fork".toList⟩, ⟨.terminate, 0⟩, none⟩),
   ("m_4".toList, ⟨⟨.junction, "fork".toList, .out⟩, none, ⟨.drain, "lake".toList⟩, ⟨.terminate, 0⟩, none⟩)]
def eddyConfig : Config where
  faucet := [("spring".toList, "-".toList)]
  regulator := []
  drain := []
  launch := []
  connection := hopSets eddy
def eddyWaiter : Waiter := ((getWaiter eddyConfig).ok?).getD Waiter.new
def eddyTrace := eddyWaiter.drive [] brookCaps brookFeed (.code 3) (List.replicate 20 (eddyWaiter.everyone [])).flatten
theorem eddy_built : getWaiter eddyConfig = .ok eddyWaiter := by decide +kernel
theorem eddy_complete : Complete (eddy.map (·.2)) := complete_of (by decide +kernel) (by decide +kernel)
theorem eddy_runs : eddyWaiter.Run [] brookCaps eddyTrace := Waiter.runs_sound (by decide +kernel)
theorem eddy_calm : ∀ i, ∀ f ∈ acts (proj i eddyTrace), f.trouble = false := eddy_runs.calm (by decide +kernel)

theorem eddy_circle : Relation.TransGen (Leads (eddy.map (·.2))) (.part (.junction, "fork".toList) .main) (.part (.junction, "fork".toList) .main) := by
  have h1 : Leads (eddy.map (·.2)) (.part (.junction, "fork".toList) .main) (.part (.buffer, "pond".toList) .input) :=
    .hop (h := (eddy.map (·.2))[1]) (List.getElem_mem _) (by rintro ⟨h, _⟩; cases h)
  have h2 : Leads (eddy.map (·.2)) (.part (.buffer, "pond".toList) .input) (.part (.buffer, "pond".toList) .output) :=
    .buffer ⟨(eddy.map (·.2))[1], List.getElem_mem _, Or.inr rfl⟩
  have h3 : Leads (eddy.map (·.2)) (.part (.buffer, "pond".toList) .output) (.part (.junction, "fork".toList) .main) :=
    .hop (h := (eddy.map (·.2))[2]) (List.getElem_mem _) (by rintro ⟨h, _⟩; cases h)
  exact .tail (.tail (.single h1) h2) h3

/-- The file has ended, the rest goes on for ever. -/
example : endings (proj (.part (.faucet, "spring".toList) .main) eddyTrace) = 1 ∧ 3 < (received (proj (.part (.junction, "fork".toList) .main) eddyTrace)).length ∧
    ¬ eddyWaiter.Over [] eddyTrace :=
  ⟨by decide +kernel, by decide +kernel, C81_unending (c := eddyConfig) (R := eddy) (order := []) rfl eddy_built rfl eddy_complete eddy_runs eddy_calm eddy_circle⟩

end Example
end Verif
