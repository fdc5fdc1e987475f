import Verif.Lemmas.JunctionOnce
import Verif.Props.VariationsExample
import Verif.Props.UnopenedEnds
/-!
# Properties C77 and C80: junctions nobody listens to any more
-/
namespace Verif

theorem got_twice {s : End} {tr : List Ev} (h : 2 ≤ (receivedFrom s tr).length) :
    ∃ a e1 b e2 c d1 d2, tr = a ++ e1 :: (b ++ e2 :: c) ∧ act e1 = .got s d1 ∧ act e2 = .got s d2 := by
  have one : ∀ tr, receivedFrom s tr ≠ [] → ∃ b e2 c d2, tr = b ++ e2 :: c ∧ act e2 = .got s d2 := by
    intro tr h
    obtain ⟨d, hd⟩ := List.exists_mem_of_ne_nil _ h
    unfold receivedFrom at hd
    obtain ⟨a, ha, hf⟩ := List.mem_filterMap.mp hd
    obtain ⟨e, he, rfl⟩ := List.mem_map.mp ha
    split at hf
    · rename_i s' d' hact
      split at hf
      · rename_i hs
        obtain ⟨b, c, rfl⟩ := List.append_of_mem he
        exact ⟨b, e, c, d', rfl, by rw [hact, hs]⟩
      · cases hf
    · cases hf
  induction tr with
  | nil => simp [receivedFrom] at h
  | cons e tr ih =>
    by_cases he : ∃ d, act e = .got s d
    · obtain ⟨d, hd⟩ := he
      have : receivedFrom s (e :: tr) = d :: receivedFrom s tr := by simp [receivedFrom, hd]
      rw [this] at h
      obtain ⟨b, e2, c, d2, rfl, h2⟩ := one tr (by intro h0; rw [h0] at h; simp at h)
      exact ⟨[], e, b, e2, c, d, d2, rfl, hd, h2⟩
    · have : receivedFrom s (e :: tr) = receivedFrom s tr := by
        unfold receivedFrom
        rw [acts_cons, List.filterMap_cons]
        split
        · rfl
        · rename_i hf
          split at hf
          · rename_i s' d' hact
            split at hf
            · rename_i hs
              exact absurd ⟨d', by rw [hact, hs]⟩ he
            · cases hf
          · cases hf
      rw [this] at h
      obtain ⟨a, e1, b, e2, c, d1, d2, rfl, h1, h2⟩ := ih h
      exact ⟨e :: a, e1, b, e2, c, d1, d2, rfl, h1, h2⟩

theorem act_accepted {e : Ev} {ch : Nat} {d : Bytes} (h : act e = .offer (.chan ch) d .ok) : e = ⟨.send .data ch d, true⟩ := by
  unfold act at h
  split at h <;> try (cases h; done)
  rename_i c' d' b
  cases b <;> simp at h
  obtain ⟨rfl, rfl⟩ := h
  rfl

/-- Nothing can go wrong with the request but that nobody listens at a channel. -/
def Quiet (q : Req) : Prop := ∀ r, (act ⟨q, r⟩).trouble = false

theorem worker_quiet {j : PullJourney} {ch : Nat} {pushs : List Push} (hs : AllSenders pushs) : MOnly Quiet (motionWorker (.receiver j ch) {} pushs none true) := by
  have all : ∀ (x : IOW) (ps : List Push) (n : Nat), (∀ p ∈ ps, p ∈ pushs) → MOnly Quiet (pushAll x none ps n) := by
    intro x ps
    induction ps with
    | nil => intro n _; exact monly_pure _
    | cons p ps ih =>
      intro n hp
      refine MOnly.bind ?_ fun _ => MOnly.bind (monly_pure _) fun _ => ih _ fun q hq => hp q (List.mem_cons_of_mem _ hq)
      obtain ⟨jo, c, rfl⟩ := hs p (hp p (List.mem_cons_self ..))
      have w : ∀ d, MOnly Quiet (motionWrite (.sender jo c) d) := by
        intro d
        refine MOnly.bind (monly_ask (by intro r; cases r <;> rfl)) ?_
        intro a; cases a <;> simp <;> first | exact monly_pure _ | exact monly_throw _
      cases x with
      | finished => exact monly_pure _
      | skipped => exact monly_pure _
      | data d =>
        simp only [writeOne]
        split
        · exact MOnly.bind (w d) fun _ => monly_pure _
        · refine MOnly.tryCatch (MOnly.bind (w d) fun _ => monly_pure _) ?_
          intro e; cases e <;> first | exact monly_pure _ | exact monly_throw _
  unfold motionWorker
  refine MOnly.bind (MOnly.bind (monly_ask (by intro r; cases r <;> rfl)) ?_) fun x => ?_
  · intro a; cases a <;> exact monly_pure _
  split
  · exact monly_pure _
  · refine MOnly.bind (monly_pure _) fun _ => MOnly.bind (all _ _ _ fun _ h => h) fun n => MOnly.bind (monly_pure _) fun _ => ?_
    split <;> exact monly_pure _

/-- Nothing goes wrong with a junction without spy but that nobody listens. -/
theorem junction_calm {inputs : List (Pull × Int)} {pushs : List Push} {tr : List Ev} (hd : DistinctInputs inputs) (hi : ∀ x ∈ inputs, ∃ j c, x.1 = .receiver j c) (hs : AllSenders pushs)
    (h : LoopPartial (junctionBody pushs none) (junctionInit inputs) tr) : ∀ a ∈ acts tr, a.trouble = false := by
  intro a ha
  rcases junction_acts hd hs JInv.init h ha with ⟨x, h1, h2, h3⟩ | ⟨_, _, rfl⟩ | ⟨_, rfl⟩
  · obtain ⟨e, he, rfl⟩ := List.mem_map.mp h3
    obtain ⟨y, hy, e1⟩ := List.mem_map.mp (mem_init.mp h2)
    obtain ⟨j, ch, e2⟩ := hi y hy
    unfold PollRun at h1
    rw [← e1, e2] at h1
    exact Prog.Only.partial (worker_quiet hs) (Prog.runs_partial h1) e he e.r
  · rfl
  · rfl

section
variable {c : Config} {hs : List Hop} {w : Waiter} {cs : List Capture} {cap : Caps} {τ : List (Who × Ev)} {bad : CompRef → Bool}

theorem Assembled.junctionNode (A : Assembled c hs w) {j : CompRef} (hj : j.1 = .junction) (hm : Mentioned hs j) :
    ∃ inputs pushs, w.node (.part j .main) = some (.junction inputs pushs none) := by
  obtain ⟨k, hk, he⟩ := A.comps j hm
  rw [expected_junction _ _ _ _ hj] at he
  have := plain_junction he
  subst this
  exact ⟨_, _, by simp only [Waiter.node, hk, Comp.node]; rfl⟩

theorem Assembled.junction_unopened (A : Assembled c hs w) {j : CompRef} (hj : j.1 = .junction) : w.unopened bad (.part j .main) = none := by
  cases hu : w.unopened bad (.part j .main) with
  | none => rfl
  | some t =>
    obtain ⟨r, h1, _, _, ⟨h3, _⟩ | ⟨h3, _⟩⟩ := A.unopened hu <;>
    · cases h1; rw [hj] at h3; cases h3

end

section
variable {c : Config} {R : Map Hop} {order : List (Str × Watch)} {w w' : Waiter} {cs : List Capture} {cap : Caps} {bad : CompRef → Bool} {τ : List (Who × Ev)}

/-- **C77**, variation `F` on all outputs of a junction: once everything it writes to has ended, it takes at most one message more from each of its inputs. -/
theorem C77_junction (hc : c.connection = hopSets R) (hw : getWaiter c = .ok w) (hp : w.regulatorSettings order = .ok (cs, w')) (hC : Complete (R.map (·.2)))
    {τ₁ τ₂ : List (Who × Ev)} (hr : w'.RunWith cs bad cap (τ₁ ++ τ₂)) {j : CompRef} (hj : j.1 = .junction) (hm : Mentioned (R.map (·.2)) j)
    (hF : ∀ h ∈ R.map (·.2), h.from = j → h.input.breakable = .finish)
    (hd : ∀ h ∈ R.map (·.2), h.from = j → ∀ t, w'.sysWith cs bad h.reader = some t → t.Done (proj h.reader τ₁)) (ch : Nat) :
    (receivedFrom (.chan ch) (proj (.part j .main) τ₂)).length ≤ 1 := by
  have A := assembled hc hw hp
  have W := A.wired hC
  obtain ⟨inputs, pushs, hn⟩ := A.junctionNode hj hm
  obtain ⟨_, hin, hdi, hse, hnd, hne⟩ := W.ok (.part j .main) _ hn
  have hpt := junctionTask_partial (hr.node A hC hn (by simp [Who.isDrain, hj]))
  apply Classical.byContradiction
  intro hlen
  obtain ⟨a, e1, b, e2, z, d1, d2, heq, h1, h2⟩ := got_twice (s := .chan ch) (tr := proj (.part j .main) τ₂) (by omega)
  have hop : ∀ t ∈ pushs.filterMap Push.target, ∃ ch g, t = .chan ch ∧ (R.map (·.2))[ch]? = some g ∧ g.from = j := by
    intro t ht
    obtain ⟨p, hp, e⟩ := List.mem_filterMap.mp ht
    obtain ⟨jo, ch, rfl⟩ := hse p hp
    simp only [Push.target, Option.some.injEq] at e
    subst e
    rcases (A.targets hn ch).mp (show .chan ch ∈ (Node.junction inputs pushs none).targets from ht) with ⟨g, h1, h2⟩ | ⟨h, _⟩
    · refine ⟨ch, g, rfl, h1, ?_⟩
      simp only [Hop.writer, Who.part.injEq] at h2
      exact h2.1
    · rw [hj] at h; cases h
  rw [proj_append, heq, ← List.append_assoc] at hpt
  obtain ⟨t, ht⟩ := junction_between hdi hse (by
    intro p hp
    obtain ⟨jo, ch', rfl⟩ := hse p hp
    obtain ⟨ch2, g, e, hg, hgf⟩ := hop (.chan ch') (List.mem_filterMap.mpr ⟨_, hp, rfl⟩)
    cases e
    rw [(A.varies hn _ hp ch' rfl).1 g hg]
    exact hF g (List.mem_of_getElem? hg) hgf) hpt h1 h2
  have hto := (junction_uses hdi hse JInv.init hpt).2.2 t d1 .ok (by simp [ht])
  obtain ⟨ch', g, rfl, hg, hgf⟩ := hop t hto
  obtain ⟨e, he, hact⟩ := List.mem_map.mp ht
  have := act_accepted hact
  subst this
  refine C77_closes hc hw hp hC hr hg (hd g (List.mem_of_getElem? hg) hgf) (.part j .main, _) (mem_proj.mp (show _ ∈ proj (.part j .main) τ₂ from ?_)) d1 rfl
  rw [heq]; simp [he]

/-- **C80** is false of the code: when something fatal has happened to a junction, whatever reads from it does not end unless it fails itself, so `start` never returns, and the failure is never
reported. -/
theorem C80_refuted (hc : c.connection = hopSets R) (hw : getWaiter c = .ok w) (hp : w.regulatorSettings order = .ok (cs, w')) (hC : Complete (R.map (·.2)))
    (hr : w'.RunWith cs bad cap τ) {j : CompRef} (hj : j.1 = .junction) (hf : Failed (StopsAt (R.map (·.2)) (.part j .main)) (proj (.part j .main) τ))
    {g : Hop} (hg : g ∈ R.map (·.2)) (hgj : g.from = j) (hb : bad g.to = false) (hq : ∀ f ∈ acts (proj g.reader τ), f.fails = false) :
    ¬ (∃ t, w'.sysWith cs bad g.reader = some t ∧ t.Done (proj g.reader τ) ∧ (∀ t', w'.sysWith cs bad (.part j .main) = some t' → t'.Done (proj (.part j .main) τ))) ∧
    ¬ w'.OverWith cs bad τ ∧ ∀ out, ¬ w'.Returns cs bad τ out := by
  have A := assembled hc hw hp
  have W := A.wired hC
  have hm : Mentioned (R.map (·.2)) j := ⟨g, hg, Or.inl hgj⟩
  obtain ⟨inputs, pushs, hn⟩ := A.junctionNode hj hm
  obtain ⟨hdis, hin, hdi, hse, hnd, hne⟩ := W.ok (.part j .main) _ hn
  have huj := A.junction_unopened (bad := bad) hj
  have hsj : w'.sysWith cs bad (.part j .main) = some (Node.junction inputs pushs none).task := by simp [Waiter.sysWith, huj, sys_node (cs := cs) hn]
  have hgr : ∃ p, g.reader = .part g.to p := ⟨_, rfl⟩
  have hug : w'.unopened bad g.reader = none := by
    obtain ⟨p, hp⟩ := hgr
    rw [hp]; exact unopened_good hb
  have hgw : g.writer = .part j .main := by
    have : g.src.ty = .junction := by rw [← hj, ← hgj]; rfl
    simp [Hop.writer, this, hgj]
  have hgx : ¬ g.isExit := by
    have : g.src.ty = .junction := by rw [← hj, ← hgj]; rfl
    simp [Hop.isExit, this]
  obtain ⟨ch, hi⟩ := List.getElem?_of_mem hg
  obtain ⟨m, hmn⟩ := A.readerNode hC hg
  have hsg : w'.sysWith cs bad g.reader = some m.task := by simp [Waiter.sysWith, hug, sys_node (cs := cs) hmn]
  obtain ⟨n', m', h1, h2, h3, h4⟩ := (A.edges hC g.writer ch g.reader).mpr (Or.inl ⟨g, hi, hgx, rfl, rfl⟩)
  have he : (w'.netWith bad).Edge g.writer ch g.reader :=
    ⟨n', m', netWith_of h1 (by rw [hgw]; simp [Who.isDrain, hj]), by simpa [Waiter.netWith, hug] using (show w'.node g.reader = some m' from h2), h3, h4⟩
  obtain ⟨E, U⟩ := A.runWith hC hr
  have F := Network.facts (netWith_wired W) E U he
  have main : ∀ t, w'.sysWith cs bad g.reader = some t → t.Done (proj g.reader τ) → (∀ t', w'.sysWith cs bad (.part j .main) = some t' → t'.Done (proj (.part j .main) τ)) → False := by
    intro t ht hd hdj
    rw [hsg] at ht; cases ht
    have fin := node_finished (W.ok g.reader _ hmn) hd hq
    have hmm : m = m' := by
      have : w'.node g.reader = some m' := h2
      rw [hmn] at this; cases this; rfl
    subst hmm
    obtain ⟨st, hst⟩ := Option.isSome_iff_exists.mp hr.exec.chans
    obtain ⟨_, _, e3⟩ := edge_complete hst F.on F.writer F.reader F.sent F.got (fin.ended _ h4)
    rw [hgw] at e3
    obtain ⟨r, t1, hrun, htr⟩ := hdj _ hsj
    have ht1 : proj (.part j .main) τ = t1 := by rw [htr]; exact List.append_nil _
    obtain ⟨k, hk, hkn⟩ : ∃ k, w'.comps.get j = some k ∧ k.node (w'.idOf j) w'.chans .main = some (.junction inputs pushs none) := by
      simp only [Waiter.node] at hn
      split at hn
      · cases hn
      · exact ⟨_, by assumption, hn⟩
    obtain ⟨x, y, rfl⟩ := node_junction hkn
    obtain ⟨e, rfl⟩ := (A.result hC hr (r := j) (x := r) ⟨_, hk, by
      rw [huj, if_neg (by simp)]
      show partGives (Comp.node (w'.idOf j) w'.chans (.junction x y) .main) _ _
      rw [hkn]
      exact ⟨t1, hrun, htr⟩⟩).mpr (Or.inr ⟨.main, hf⟩)
    rw [ht1] at e3
    have hto := (A.targets hn ch).mpr (Or.inl ⟨g, hi, hgw⟩)
    obtain ⟨p, hp, hpt⟩ := List.mem_filterMap.mp (show .chan ch ∈ pushs.filterMap Push.target from hto)
    obtain ⟨jo, ch', rfl⟩ := hse p hp
    cases hpt
    refine (C15_refuted_outputs_left_open hdi hse hrun).1 jo ch hp ?_ (mem_closings.mp e3)
    intro x hx hsrc
    exact hdis (.chan ch) (List.mem_filterMap.mpr ⟨x, hx, hsrc⟩) hto
  have nover : ¬ w'.OverWith cs bad τ := fun ho => main _ hsg (ho _ _ hsg) fun t' ht' => ho _ _ ht'
  exact ⟨fun ⟨t, h1, h2, h3⟩ => main t h1 h2 h3, nover, fun out h => nover h.1⟩

/-- **C80**, with the variation `T`: instead of ending the program, a reader that goes away keeps it from ever ending, if the pipe comes out of a junction with another reader who stays. -/
theorem C80_terminate_refuted (hc : c.connection = hopSets R) (hw : getWaiter c = .ok w) (hp : w.regulatorSettings order = .ok (cs, w')) (hC : Complete (R.map (·.2)))
    (hr : w'.RunWith cs bad cap τ) {ch : Nat} {h g : Hop} (hh : (R.map (·.2))[ch]? = some h) (hj : h.src.ty = .junction) (hv : h.input.breakable = .terminate)
    {d : Bytes} (hs : (h.writer, ⟨.send .data ch d, false⟩) ∈ τ) (hg : g ∈ R.map (·.2)) (hgj : g.from = h.from) (hb : bad g.to = false)
    (hq : ∀ f ∈ acts (proj g.reader τ), f.fails = false) : ∀ out, ¬ w'.Returns cs bad τ out := by
  have hhw : h.writer = .part h.from .main := by simp [Hop.writer, hj]
  rw [hhw] at hs
  exact (C80_refuted hc hw hp hC hr (j := h.from) hj ⟨_, List.mem_map.mpr ⟨_, mem_proj.mpr hs, rfl⟩, Or.inl ⟨h, hh, Or.inr hv⟩⟩ hg hgj hb hq).2.2

/-- What is true: none of this happens if all outputs of the junction have variation `C` or `F`: nothing fatal ever happens to it. -/
theorem C80_safe_partial (hc : c.connection = hopSets R) (hw : getWaiter c = .ok w) (hp : w.regulatorSettings order = .ok (cs, w')) (hC : Complete (R.map (·.2)))
    (hr : w'.RunWith cs bad cap τ) {j : CompRef} (hj : j.1 = .junction) (hm : Mentioned (R.map (·.2)) j)
    (hF : ∀ h ∈ R.map (·.2), h.from = j → h.input.breakable ≠ .terminate) : ¬ Failed (StopsAt (R.map (·.2)) (.part j .main)) (proj (.part j .main) τ) := by
  intro hf
  have A := assembled hc hw hp
  obtain ⟨inputs, pushs, hn⟩ := A.junctionNode hj hm
  obtain ⟨_, hin, hdi, hse, _⟩ := (A.wired hC).ok (.part j .main) _ hn
  obtain ⟨a, ha, ht⟩ := C77_forgiving hc hw hp hC hr (i := .part j .main) (by
    intro h hh hfe
    obtain ⟨p, e⟩ := hfe.part
    have hj' : h.from = j := by cases e; rfl
    refine ⟨?_, hF h hh hj'⟩
    have : h.src.ty = .junction := by rw [← hj, ← hj']; rfl
    simp [Hop.isExit, this]) hf
  have := junction_calm hdi hin hse (junctionTask_partial (hr.node A hC hn (by simp [Who.isDrain, hj]))) a ha
  rw [this] at ht; cases ht

end

section Example

/-- The file of one of the two the junction writes to cannot be created; the pipe has variation `T`. -/
def fieldBad (r : CompRef) : Bool := r == (.drain, "field".toList)
def fieldWaiter : Waiter := brookWaiter.shutting fieldBad
def fieldTrace := fieldWaiter.drive [] brookCaps brookFeed (.code 3) (List.replicate 9 (fieldWaiter.everyone [])).flatten
theorem field_opens (r : CompRef) (hr : r.1 = .faucet) (_ : brookConfig.Opens r) : fieldBad r = false := by
  obtain ⟨t, x⟩ := r
  cases hr
  simp [fieldBad]
theorem field_sys : fieldWaiter.sys [] = brookWaiter.sysWith [] fieldBad :=
  shutting_sys ((assembled (c := brookConfig) (R := brook) (order := []) rfl brook_built rfl).opened field_opens)
theorem field_runs : fieldWaiter.Run [] brookCaps fieldTrace := Waiter.runs_sound (by decide +kernel)

def toField : Hop := ⟨⟨.junction, "fork".toList, .out⟩, none, ⟨.drain, "field".toList⟩, ⟨.terminate, 0⟩, none⟩
def toPond : Hop := ⟨⟨.junction, "fork".toList, .out⟩, none, ⟨.buffer, "pond".toList⟩, ⟨.terminate, 0⟩, none⟩

/-- The junction has failed, so the buffer waits for ever and `start` does not return. -/
example : ∀ out, ¬ brookWaiter.Returns [] fieldBad fieldTrace out := by
  have hs : (fieldTrace.any fun x => decide (x.1 = .part (.junction, "fork".toList) .main) && match x.2 with
    | ⟨.send .data 5 _, false⟩ => true
    | _ => false) = true := by decide +kernel
  obtain ⟨⟨i, e⟩, hx, h⟩ := List.any_eq_true.mp hs
  simp only [Bool.and_eq_true, decide_eq_true_eq] at h
  obtain ⟨rfl, h⟩ := h
  split at h
  · exact C80_terminate_refuted (c := brookConfig) (R := brook) (order := []) rfl brook_built rfl brook_complete ((shutting_run field_sys).mp field_runs) (ch := 5) (h := toField)
      (g := toPond) (by decide +kernel) rfl rfl hx (by decide +kernel) rfl (by decide +kernel) (by decide +kernel)
  · cases h

/-- A junction between a file and two drains neither of which can create its file; the pipes have variation `F`. -/
def gulch : List (Str × Hop) :=
  [("m_1".toList, ⟨⟨.faucet, "spring".toList, .out⟩, none, ⟨.junction, "fork".toList⟩, ⟨.terminate, 0⟩, none⟩),
   ("m_2".toList, ⟨⟨.junction, "fork".toList, .out⟩, none, ⟨.drain, "field".toList⟩, ⟨.finish, 0⟩, none⟩),
   ("m_3".toList, ⟨⟨.junction, "fork".toList, .out⟩, none, ⟨.drain, "lake".toList⟩, ⟨.finish, 0⟩, none⟩)]
def gulchConfig : Config where
  faucet := [("spring".toList, "-".toList)]
  regulator := []
  drain := []
  launch := []
  connection := hopSets gulch
def gulchWaiter : Waiter := ((getWaiter gulchConfig).ok?).getD Waiter.new
def gulchBad (r : CompRef) : Bool := decide (r.1 = .drain)
def gulchShut : Waiter := gulchWaiter.shutting gulchBad
def gulchEarly : List Who := [.part (.drain, "field".toList) .main, .part (.drain, "lake".toList) .main]
def gulchTrace := gulchShut.drive [] brookCaps brookFeed (.code 3) (gulchEarly ++ (List.replicate 9 (gulchShut.everyone [])).flatten)
theorem gulch_built : getWaiter gulchConfig = .ok gulchWaiter := by decide +kernel
theorem gulch_complete : Complete (gulch.map (·.2)) := complete_of (by decide +kernel) (by decide +kernel)
theorem gulch_sys : gulchShut.sys [] = gulchWaiter.sysWith [] gulchBad :=
  shutting_sys ((assembled (c := gulchConfig) (R := gulch) (order := []) rfl gulch_built rfl).opened fun r hr _ => by simp [gulchBad, hr])
theorem gulch_runs : gulchShut.Run [] brookCaps gulchTrace := Waiter.runs_sound (by decide +kernel)

/-- Of the three lines the junction takes one, and one it does take. -/
example : (∀ ch, (receivedFrom (.chan ch) (proj (.part (.junction, "fork".toList) .main) (gulchTrace.drop 2))).length ≤ 1) ∧
    receivedFrom (.chan 0) (proj (.part (.junction, "fork".toList) .main) (gulchTrace.drop 2)) = [[1, 10]] := by
  refine ⟨fun ch => ?_, by decide +kernel⟩
  refine C77_junction (c := gulchConfig) (R := gulch) (order := []) rfl gulch_built rfl gulch_complete (bad := gulchBad) (cap := brookCaps) (τ₁ := gulchTrace.take 2) (by
    rw [List.take_append_drop]
    exact (shutting_run gulch_sys).mp gulch_runs) rfl ⟨(gulch.map (·.2))[1], List.getElem_mem _, Or.inl rfl⟩ (by decide +kernel) (fun h hh hj t ht => ?_) ch
  have hd : ((gulch.map (·.2)).all fun h => decide (h.from = (.junction, "fork".toList)) == false || match gulchShut.sys [] h.reader with
    | none => true
    | some t => t.finished (proj h.reader (gulchTrace.take 2))) = true := by decide +kernel
  have := List.all_eq_true.mp hd h hh
  rw [gulch_sys, ht] at this
  simp only [hj, Bool.or_eq_true] at this
  exact Task.finished_done (this.resolve_left (by decide +kernel))

/-- Nothing fatal happens to it. -/
example : ¬ Failed (StopsAt (gulch.map (·.2)) (.part (.junction, "fork".toList) .main)) (proj (.part (.junction, "fork".toList) .main) gulchTrace) :=
  C80_safe_partial (c := gulchConfig) (R := gulch) (order := []) rfl gulch_built rfl gulch_complete (bad := gulchBad) (cap := brookCaps) ((shutting_run gulch_sys).mp gulch_runs) rfl
    ⟨(gulch.map (·.2))[1], List.getElem_mem _, Or.inl rfl⟩ (by decide +kernel)

end Example
end Verif
