import Verif.Lemmas.Honest
import Verif.Model.Results
import Verif.Props.Unopened
import Verif.Props.Outcome
/-!
# The results of components and what happened to them
-/
namespace Verif

section
variable {c : Config} {hs : List Hop} {w : Waiter} {cs : List Capture} {cap : Caps} {bad : CompRef → Bool} {τ : List (Who × Ev)}

/-- What a part writes to, it writes to with the pipe variations of the hops. -/
def Node.Fits (S : End → Prop) : Node → Prop
  | .relay _ _ _ push => push.Fits S
  | .regulator _ push _ _ => push.Fits S
  | .junction inputs pushs _ => (∀ x ∈ inputs, ∃ j c, x.1 = .receiver j c) ∧ ∀ p ∈ pushs, p.Fits S

theorem node_honest {S : End → Prop} {n : Node} (h : n.Fits S) {tr : List Ev} {r : Except MErr Nat} (hg : n.Gives tr r) : (∃ e, r = .error e) ↔ Failed S tr := by
  cases n with
  | relay pull mon spy push =>
    obtain ⟨t1, h1, rfl⟩ := hg
    rw [failed_append]
    have := (relay_honest (pull := pull) (mon := mon) (spy := spy) h).runs trivial h1
    simp only [failed_drops, or_false]
    exact this
  | regulator pull push spy ctl =>
    obtain ⟨t1, h1, rfl⟩ := hg
    rw [failed_append]
    have := (regulator_honest (pull := pull) (spy := spy) (ctl := ctl) h).runs trivial h1
    simp only [failed_drops, or_false]
    exact this
  | junction inputs pushs spy =>
    obtain ⟨t1, h1, rfl⟩ := hg
    rw [failed_append]
    have := (junction_honest (spy := spy) h.2).runs (by
      intro p hp
      obtain ⟨x, hx, rfl⟩ := List.mem_map.mp (mem_init.mp hp)
      exact h.1 x hx) h1
    simp only [failed_drops, or_false]
    exact this

theorem end_fits {i : Nat} {h : Hop} (hi : hs[i]? = some h) (hx : ¬ h.isExit) (r : CompRef) (p : Piece) :
    (h.pushEnd w.idOf i).push.Fits (StopsAt hs (.part r p)) := by
  intro t ht
  cases ht
  show StopsAt hs (.part r p) (.chan i) ↔ h.input.breakable = .terminate
  have := get?_lt hi
  simp only [StopsAt, hi, Option.some.injEq, exists_eq_left', hx, false_or]
  constructor
  · rintro (h | ⟨h, _⟩)
    · exact h
    · omega
  · exact Or.inl

/-- Hops from exit ports come from launches. -/
theorem not_exit_of_from {h : Hop} {r : CompRef} (e : h.from = r) (hr : r.1 ≠ .launch) : ¬ h.isExit := by
  rintro ⟨h1, _⟩
  exact hr (by rw [← e]; exact h1)

theorem Assembled.fits (A : Assembled c hs w) {r : CompRef} {p : Piece} {n : Node} (h : w.node (.part r p) = some n) : n.Fits (StopsAt hs (.part r p)) := by
  obtain ⟨r', p', k, e, hm, _, he, hn⟩ := A.node_inv h
  simp only [Who.part.injEq] at e
  obtain ⟨rfl, rfl⟩ := e
  have headFits : r.1 ≠ .launch → ∀ {o}, (pushEnds w.idOf hs.zipIdx fun h => h.from = r).head? = some o → o.push.Fits (StopsAt hs (.part r p)) := by
    intro hl o ho
    obtain ⟨i, h, e1, e2, rfl⟩ := mem_pushEnds.mp (List.mem_of_mem_head? (by rw [ho]; rfl) : o ∈ _)
    exact end_fits e1 (not_exit_of_from (by simpa using e2) hl) r p
  have portFits : ∀ {o s}, s.port ≠ .exit → (pushEnds w.idOf hs.zipIdx fun h => h.src = s).head? = some o → o.push.Fits (StopsAt hs (.part r p)) := by
    intro o s hs' ho
    obtain ⟨i, h, e1, e2, rfl⟩ := mem_pushEnds.mp (List.mem_of_mem_head? (by rw [ho]; rfl) : o ∈ _)
    refine end_fits e1 ?_ r p
    rintro ⟨_, hx⟩
    have e2 : h.src = s := by simpa using e2
    rw [e2] at hx
    exact hs' hx
  cases hr : r.1 with
  | faucet =>
    rw [expected_faucet _ _ _ _ hr] at he
    rw [plain_faucet he] at hn
    cases ho : (pushEnds w.idOf hs.zipIdx fun h => h.from = r).head? with
    | none => rw [ho] at hn; cases p <;> simp [Comp.node] at hn
    | some o =>
      rw [ho] at hn
      cases p <;> simp [Comp.node] at hn
      subst hn
      exact headFits (by simp [hr]) ho
  | drain =>
    rw [expected_drain _ _ _ _ hr] at he
    rw [plain_drain he] at hn
    cases ho : (pullEnds w.idOf hs.zipIdx fun h => h.to = r).head?.map Prod.fst with
    | none => rw [ho] at hn; cases p <;> simp [Comp.node] at hn
    | some o =>
      rw [ho] at hn
      cases p <;> simp [Comp.node] at hn
      subst hn
      intro t ht
      unfold drainPush at ht ⊢
      split at ht
      · cases ht
      · rename_i hd
        cases ht
        rw [if_neg hd]
        simp [StopsAt, hr, Push.breakable, Push.journey]
  | regulator =>
    rw [expected_regulator _ _ _ _ hr] at he
    obtain ⟨m, rfl⟩ := plain_regulator he
    cases hi : (pullEnds w.idOf hs.zipIdx fun h => h.to = r).head?.map Prod.fst with
    | none => rw [hi] at hn; cases p <;> simp [Comp.node] at hn
    | some i =>
      cases ho : (pushEnds w.idOf hs.zipIdx fun h => h.from = r).head? with
      | none => rw [ho, hi] at hn; cases p <;> simp [Comp.node] at hn
      | some o =>
        rw [ho, hi] at hn
        cases p <;> simp [Comp.node] at hn
        subst hn
        exact headFits (by simp [hr]) ho
  | buffer =>
    rw [expected_buffer _ _ _ _ hr] at he
    obtain ⟨m, rfl⟩ := plain_buffer he
    cases hi : (pullEnds w.idOf hs.zipIdx fun h => h.to = r).head?.map Prod.fst with
    | none => rw [hi] at hn; cases p <;> simp [Comp.node] at hn
    | some i =>
      cases ho : (pushEnds w.idOf hs.zipIdx fun h => h.from = r).head? with
      | none => rw [ho, hi] at hn; cases p <;> simp [Comp.node] at hn
      | some o =>
        rw [ho, hi] at hn
        cases p <;> simp [Comp.node] at hn
        · subst hn
          intro t ht
          cases ht
          show StopsAt hs (.part r .input) (.chan (w.chans + w.idOf r)) ↔ o.breakable = .terminate
          have hnone : hs[w.chans + w.idOf r]? = none := List.getElem?_eq_none (by rw [A.chans]; omega)
          simp only [StopsAt, hnone, reduceCtorEq, false_and, exists_false, false_or, hr, true_and]
          have hu := A.headFrom (by simp [hr]) (by simp [hr]) ho
          obtain ⟨j, g, e1, e2, e3⟩ := mem_pushEnds.mp (List.mem_of_mem_head? (by rw [ho]; rfl) : o ∈ _)
          constructor
          · rintro ⟨_, h', h1, h2, h3⟩
            obtain ⟨j', h1⟩ := List.getElem?_of_mem h1
            have := (hu j').mpr ⟨h', h1, h2⟩
            rw [e3] at this
            have : j' = j := this
            subst this
            rw [e1] at h1; cases h1
            rw [e3]; exact h3
          · intro h'
            refine ⟨by rw [A.chans]; omega, g, List.mem_of_getElem? e1, by simpa using e2, ?_⟩
            rw [e3] at h'; exact h'
        · subst hn
          exact headFits (by simp [hr]) ho
  | junction =>
    rw [expected_junction _ _ _ _ hr] at he
    rw [plain_junction he] at hn
    cases p <;> simp [Comp.node] at hn
    subst hn
    refine ⟨?_, ?_⟩
    · intro x hx
      obtain ⟨y, _, rfl⟩ := List.mem_map.mp hx
      exact ⟨_, _, rfl⟩
    · intro q hq
      obtain ⟨o, ho, rfl⟩ := List.mem_map.mp hq
      obtain ⟨i, h, e1, e2, rfl⟩ := mem_pushEnds.mp ho
      exact end_fits e1 (not_exit_of_from (by simpa using e2) (by simp [hr])) r _
  | launch =>
    rw [expected_launch _ _ _ _ hr] at he
    rw [plain_launch he] at hn
    cases p with
    | input =>
      obtain ⟨h1, rfl⟩ := relayNode_some (by simpa only [Comp.node] using hn)
      simp only [LaunchEnds.pipe, LaunchEnds.toInput] at h1 ⊢
      split
      · next h0 => rw [h0] at h1; simp at h1
      · intro t ht
        cases ht
        simp [StopsAt, hr, Push.breakable, Push.journey]
    | output =>
      obtain ⟨h1, rfl⟩ := relayNode_some (by simpa only [Comp.node] using hn)
      cases ho : (pushEnds w.idOf hs.zipIdx fun h => h.src = ⟨.launch, r.2, .out⟩).head? with
      | none => simp [LaunchEnds.pipe, fromStream, ho] at h1
      | some o =>
        simp only [LaunchEnds.pipe, fromStream, ho]
        exact portFits (by simp) ho
    | error =>
      obtain ⟨h1, rfl⟩ := relayNode_some (by simpa only [Comp.node] using hn)
      cases ho : (pushEnds w.idOf hs.zipIdx fun h => h.src = ⟨.launch, r.2, .err⟩).head? with
      | none => simp [LaunchEnds.pipe, fromStream, ho] at h1
      | some o =>
        simp only [LaunchEnds.pipe, fromStream, ho]
        exact portFits (by simp) ho
    | main => simp [Comp.node] at hn
    | exit => simp [Comp.node] at hn
    | count => simp [Comp.node] at hn

/-! ## The other activities -/

theorem total_calm {S : End → Prop} {sender : Option Nat} {mIn mOut : Nat} (s : Total) : (totalBody sender mIn mOut s).Only fun q => ∀ r, ¬ (act ⟨q, r⟩).fatal S := by
  rw [total_tree]
  have rest : ∀ {b : BackOff} {moved : Bool} {size last : Nat}, (totalRest sender mIn mOut b moved size last).Only fun q => ∀ r, ¬ (act ⟨q, r⟩).fatal S := by
    intro b moved size last
    unfold totalRest
    refine Prog.Only.bind ?_ fun x => ?_
    · unfold reportSize
      cases sender with
      | none => exact trivial
      | some c =>
        show Prog.Only _ (if last ≠ size then _ else _)
        split
        · exact Prog.Only.bind (p := req _) (Prog.only_req fun r => by simp [act, Act.fatal]) fun _ => trivial
        · exact trivial
    obtain ⟨l, ok⟩ := x
    show Prog.Only _ (if ok = false then _ else _)
    split
    · exact trivial
    · refine Prog.Only.bind (p := req _) (Prog.only_req fun r => by simp [act, Act.fatal]) fun x => ?_
      obtain ⟨e, c⟩ := x
      refine Prog.Only.bind ?_ fun x => ?_
      · split
        · exact Prog.only_req fun r => by simp [act, Act.fatal]
        · exact trivial
      · obtain ⟨e', c'⟩ := x
        show Prog.Only _ (if (e && c && e' && c') = true then _ else _)
        split
        · exact trivial
        · split
          · exact trivial
          · refine Prog.Only.bind ?_ fun _ => trivial
            unfold BackOff.wait
            exact Prog.Only.bind (p := req _) (Prog.only_req fun r => by simp [act, Act.fatal]) fun _ => trivial
  have second : ∀ size moved, (countSecond sender mIn mOut s size moved).Only fun q => ∀ r, ¬ (act ⟨q, r⟩).fatal S := by
    intro size moved
    refine ⟨fun r => by simp [act, Act.fatal], fun z => ?_⟩
    cases z with
    | got m => cases m with
      | wrote m => exact trivial
      | read m =>
        show Prog.Only _ (if size = 0 then _ else _)
        split
        · exact trivial
        · exact rest
    | empty => exact rest
    | closed => exact rest
  refine ⟨fun r => by simp [act, Act.fatal], fun y => ?_⟩
  cases y with
  | got m => cases m with
    | wrote m => exact second _ _
    | read m => exact trivial
  | empty => exact second _ _
  | closed => exact second _ _

/-- What the count of a buffer does is harmless. -/
theorem count_harmless {S : End → Prop} {sender : Option Nat} {mIn mOut : Nat} {tr : List Ev} (h : (totalTask sender mIn mOut).Partial tr) : ¬ Failed S tr := by
  rintro ⟨a, ha, hf⟩
  obtain ⟨e, he, rfl⟩ := List.mem_map.mp ha
  have : ∀ e ∈ tr, ∀ r, ¬ (act ⟨e.q, r⟩).fatal S := by
    refine Task.only (P := fun q => ∀ r, ¬ (act ⟨q, r⟩).fatal S) (fun s => total_calm s) ?_ h
    intro kc _ r
    simp [act, Act.fatal]
  exact this e he e.r hf

theorem proj_unknown {i : Who} (hr : w.RunWith cs bad cap τ) (h : w.sysWith cs bad i = none) : proj i τ = [] := by
  cases hp : proj i τ with
  | nil => rfl
  | cons e l =>
    have : e ∈ proj i τ := by rw [hp]; simp
    exact absurd h (hr.known (i, e) (mem_proj.mp this))

/-- A component that is there is mentioned. -/
theorem Assembled.mentioned (A : Assembled c hs w) {r : CompRef} {k : Comp} (hk : w.comps.get r = some k) : Mentioned hs r := by
  by_cases hm : Mentioned hs r
  · exact hm
  · rw [A.only r hm] at hk; cases hk

theorem Assembled.faucetLeft (A : Assembled c hs w) {r : CompRef} (hm : Mentioned hs r) (hr : r.1 = .faucet) : ∃ g ∈ hs, g.from = r := by
  obtain ⟨h, hh, e | e⟩ := hm
  · exact ⟨h, hh, e⟩
  · exfalso
    obtain ⟨pre, post, heq⟩ := List.append_of_mem hh
    have := (A.all _ _ _ heq).2.2.2
    have ht : h.dst.ty = .faucet := by rw [← hr, ← e]; rfl
    unfold CanReceive at this
    rw [ht] at this
    exact this

theorem Assembled.drainEntered (A : Assembled c hs w) (hC : Complete hs) {r : CompRef} (hm : Mentioned hs r) (hr : r.1 = .drain) : ∃ g ∈ hs, g.to = r := by
  obtain ⟨h, hh, e | e⟩ := hm
  · exfalso
    have ht : h.src.ty = .drain := by rw [← hr, ← e]; rfl
    obtain ⟨pre, post, heq⟩ := List.append_of_mem hh
    have := (A.all _ _ _ heq).2.2.1
    unfold CanSend at this
    rw [ht] at this
    exact this
  · exact ⟨h, hh, e⟩

/-- Whether a file cannot be opened. -/
theorem Assembled.opens (A : Assembled c hs w) (hC : Complete hs) {r : CompRef} {k : Comp} (hk : w.comps.get r = some k) :
    (w.unopened bad (.part r .main)).isSome = true ↔ c.Opens r ∧ bad r = true := by
  have hm := A.mentioned hk
  obtain ⟨k', hk', he⟩ := A.comps r hm
  rw [hk] at hk'; cases hk'
  simp only [Waiter.unopened, hk, Config.Opens]
  cases hb : bad r with
  | false => simp
  | true =>
    simp only [↓reduceIte, and_true]
    cases hr : r.1 with
    | faucet =>
      rw [expected_faucet _ _ _ _ hr] at he
      obtain ⟨o, ho⟩ := A.hasFrom (A.faucetLeft hm hr)
      rw [plain_faucet he, ho]
      simp only [Comp.unopened]
      cases hg : c.faucet.get r.2 with
      | none => simp
      | some f => by_cases hf : f = ['-'] <;> simp [hf]
    | drain =>
      rw [expected_drain _ _ _ _ hr] at he
      obtain ⟨o, ho⟩ := A.hasTo (A.drainEntered hC hm hr)
      rw [plain_drain he, ho]
      simp only [Comp.unopened]
      cases hg : c.drain.get r.2 with
      | none =>
        have : ¬ (([] : Str) = "/dev/null".toList ∨ ([] : Str) = ['-'] ∨ ([] : Str) = ['_']) := by decide
        simp only [Option.getD_none, this, if_false]
        simp
      | some f =>
        generalize "/dev/null".toList = z
        by_cases hf : f = z ∨ f = ['-'] ∨ f = ['_']
        · simp [hf]; grind
        · simp [hf]; simpa using hf
    | junction => rw [expected_junction _ _ _ _ hr] at he; rw [plain_junction he]; simp [Comp.unopened]
    | launch => rw [expected_launch _ _ _ _ hr] at he; rw [plain_launch he]; simp [Comp.unopened]
    | buffer => rw [expected_buffer _ _ _ _ hr] at he; obtain ⟨m, rfl⟩ := plain_buffer he; simp [Comp.unopened]
    | regulator => rw [expected_regulator _ _ _ _ hr] at he; obtain ⟨m, rfl⟩ := plain_regulator he; simp [Comp.unopened]

/-- A part that moves data, or is not there. -/
theorem Assembled.part (A : Assembled c hs w) (hr : w.RunWith cs bad cap τ) {r : CompRef} {k : Comp} (hk : w.comps.get r = some k) {p : Piece}
    (hu : w.unopened bad (.part r p) = none) (ho : k.other (w.idOf r) p = none) {x : Except MErr Nat}
    (h : partGives (k.node (w.idOf r) w.chans p) (proj (.part r p) τ) x) : (∃ e, x = .error e) ↔ Failed (StopsAt hs (.part r p)) (proj (.part r p) τ) := by
  cases hn : k.node (w.idOf r) w.chans p with
  | none =>
    rw [hn] at h
    cases h
    rw [proj_unknown hr (by simp [Waiter.sysWith, hu, Waiter.sys, hk, hn, ho])]
    simp
  | some n =>
    rw [hn] at h
    exact node_honest (A.fits (by simp only [Waiter.node, hk, hn])) h

/-- A part that is not there. -/
theorem Waiter.absent (hr : w.RunWith cs bad cap τ) {r : CompRef} {k : Comp} (hk : w.comps.get r = some k) {p : Piece}
    (hu : w.unopened bad (.part r p) = none) (hn : k.node (w.idOf r) w.chans p = none) (ho : k.other (w.idOf r) p = none) {S : End → Prop} : ¬ Failed S (proj (.part r p) τ) := by
  rw [proj_unknown hr (by simp [Waiter.sysWith, hu, Waiter.sys, hk, hn, ho])]
  simp

theorem unopened_piece {r : CompRef} {p : Piece} (h : w.unopened bad (.part r .main) = none) : w.unopened bad (.part r p) = none := by
  cases p <;> first | exact h | rfl

theorem some_piece {P : Piece → Prop} : (∃ p, P p) ↔ P .main ∨ P .input ∨ P .output ∨ P .error ∨ P .exit ∨ P .count := by
  constructor
  · rintro ⟨p, h⟩; cases p <;> simp [h]
  · rintro (h | h | h | h | h | h) <;> exact ⟨_, h⟩

theorem structure_error {a b e : Except MErr Nat} : (∃ x, structureResult a b e = .error x) ↔ (∃ x, a = .error x) ∨ (∃ x, b = .error x) ∨ ∃ x, e = .error x := by
  cases a <;> cases b <;> cases e <;> simp [structureResult]

theorem buffer_error {a b : Except MErr Nat} : (∃ x, bufferResult a b = .error x) ↔ (∃ x, a = .error x) ∨ ∃ x, b = .error x := by
  cases a <;> cases b <;> simp [bufferResult]

theorem withExit_error {x : Except MErr Unit} {r : Except MErr Nat} : (∃ e, withExit x r = .error e) ↔ (∃ e, x = .error e) ∨ ∃ e, r = .error e := by
  cases x <;> simp [withExit]

theorem Task.Gives.done {t : Task} {tr : List Ev} {r : t.ρ} (h : t.Gives tr r) : t.Done tr := by
  obtain ⟨t1, h1, h2⟩ := h
  exact ⟨r, t1, h1, h2⟩

theorem Task.Gives.partial {t : Task} {tr : List Ev} {r : t.ρ} (h : t.Gives tr r) : t.Partial tr := by
  obtain ⟨t1, h1, h2⟩ := h
  exact Or.inr ⟨r, t1, _, h1, List.prefix_refl _, h2⟩

theorem exit_gives {S : End → Prop} {e : PushEnd} (h : S (.chan e.chan)) {tr : List Ev} {x : Except MErr Unit} (hg : (exitTask e).Gives tr x) : (∃ e, x = .error e) ↔ Failed S tr := by
  obtain ⟨t1, h5, rfl⟩ := hg
  have := (exit_honest h).runs trivial h5
  rw [failed_append]
  simp only [failed_drops, or_false]
  exact this

theorem other_launch {id : Nat} {a b d e f g h i j} {p : Piece} (hp : p ≠ .exit) : Comp.other id (.launch a b d e f g h i j) p = none := by
  cases j <;> cases p <;> first | rfl | exact absurd rfl hp

/-- A component's result is an error exactly if something went wrong with it. -/
theorem Assembled.result (A : Assembled c hs w) (hC : Complete hs) (hr : w.RunWith cs bad cap τ) {r : CompRef} {x : Except MErr Nat} (hg : w.Gives bad τ r x) :
    (∃ e, x = .error e) ↔ c.Breaks hs bad τ r := by
  obtain ⟨k, hk, hg⟩ := hg
  have hm := A.mentioned hk
  have hop := A.opens (bad := bad) hC hk
  unfold Config.Breaks
  by_cases hu : (w.unopened bad (.part r .main)).isSome = true
  · rw [if_pos hu] at hg
    obtain ⟨e, _, rfl⟩ := hg
    exact ⟨fun _ => Or.inl (hop.mp hu), fun _ => ⟨e, rfl⟩⟩
  · rw [if_neg hu] at hg
    rw [← hop]
    simp only [hu, Bool.false_eq_true, false_or]
    have hu : w.unopened bad (.part r .main) = none := by simpa using hu
    obtain ⟨k', hk', he⟩ := A.comps r hm
    rw [hk] at hk'; cases hk'
    have gone : ∀ p, k.node (w.idOf r) w.chans p = none → k.other (w.idOf r) p = none → ¬ Failed (StopsAt hs (.part r p)) (proj (.part r p) τ) :=
      fun p h1 h2 => Waiter.absent hr hk (unopened_piece hu) h1 h2
    have here : ∀ p y, k.other (w.idOf r) p = none → partGives (k.node (w.idOf r) w.chans p) (proj (.part r p) τ) y →
        ((∃ e, y = .error e) ↔ Failed (StopsAt hs (.part r p)) (proj (.part r p) τ)) :=
      fun p y h1 h2 => A.part hr hk (unopened_piece hu) h1 h2
    rw [some_piece]
    cases ht : r.1 with
    | faucet =>
      rw [expected_faucet _ _ _ _ ht] at he
      obtain ⟨o, ho⟩ := A.hasFrom (A.faucetLeft hm ht)
      rw [ho] at he
      cases plain_faucet he
      rw [here .main x rfl hg]
      simp [gone .input rfl rfl, gone .output rfl rfl, gone .error rfl rfl, gone .exit rfl rfl, gone .count rfl rfl]
    | drain =>
      rw [expected_drain _ _ _ _ ht] at he
      obtain ⟨o, ho⟩ := A.hasTo (A.drainEntered hC hm ht)
      rw [ho] at he
      cases plain_drain he
      rw [here .main x rfl hg]
      simp [gone .input rfl rfl, gone .output rfl rfl, gone .error rfl rfl, gone .exit rfl rfl, gone .count rfl rfl]
    | junction =>
      rw [expected_junction _ _ _ _ ht] at he
      cases plain_junction he
      rw [here .main x rfl hg]
      simp [gone .input rfl rfl, gone .output rfl rfl, gone .error rfl rfl, gone .exit rfl rfl, gone .count rfl rfl]
    | regulator =>
      obtain ⟨i, o, m, hk'⟩ := A.regulatorNode hC ht hm
      rw [hk] at hk'; cases hk'
      rw [here .main x rfl hg]
      simp [gone .input rfl rfl, gone .output rfl rfl, gone .error rfl rfl, gone .exit rfl rfl, gone .count rfl rfl]
    | buffer =>
      obtain ⟨i, o, m, hk'⟩ := A.bufferNodes hC ht hm
      rw [hk] at hk'; cases hk'
      obtain ⟨a, b, y, h1, h2, h3, _, _, rfl⟩ := hg
      rw [buffer_error, here .input a rfl h1, here .output b rfl h2]
      simp [gone .main rfl rfl, gone .error rfl rfl, gone .exit rfl rfl, count_harmless h3.partial]
    | launch =>
      rw [expected_launch _ _ _ _ ht] at he
      cases plain_launch he
      obtain ⟨a, b, e, h1, h2, h3, h4⟩ := hg
      have q1 := here .input a (other_launch (by simp)) h1
      have q2 := here .output b (other_launch (by simp)) h2
      have q3 := here .error e (other_launch (by simp)) h3
      cases hx : (pushEnds w.idOf hs.zipIdx fun h => h.src = ⟨.launch, r.2, .exit⟩).head? with
      | none =>
        rw [hx] at h4 gone
        simp only at h4
        subst h4
        rw [structure_error, q1, q2, q3]
        simp [gone .main rfl rfl, gone .exit rfl rfl, gone .count rfl rfl]
      | some o =>
        rw [hx] at h4 gone
        obtain ⟨y, h4, rfl⟩ := h4
        obtain ⟨y, rfl⟩ : ∃ z : Except MErr Unit, z = y := ⟨y, rfl⟩
        have q4 : (∃ e, y = .error e) ↔ Failed (StopsAt hs (.part r .exit)) (proj (.part r .exit) τ) := by
          obtain ⟨i, h, e1, e2, e3⟩ := mem_pushEnds.mp (List.mem_of_mem_head? (by rw [hx]; rfl) : o ∈ _)
          have e2 : h.src = ⟨.launch, r.2, .exit⟩ := by simpa using e2
          exact exit_gives (by rw [e3]; exact Or.inl ⟨h, e1, Or.inl ⟨by rw [e2], by rw [e2]⟩⟩) h4
        refine (withExit_error (x := y)).trans ?_
        rw [structure_error, q1, q2, q3, q4]
        simp only [gone .main rfl rfl, gone .count rfl rfl, false_or, or_false]
        grind

end
end Verif
