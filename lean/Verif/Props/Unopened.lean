import Verif.Model.Unopened
import Verif.Lemmas.Starved
import Verif.Lemmas.RuntimeRun
import Verif.Lemmas.Blame
import Verif.Props.FlowControl
/-!
# C62: what becomes of the rest when a file cannot be opened
-/
namespace Verif

section
variable {c : Config} {hs : List Hop} {w : Waiter} {cs : List Capture} {cap : Caps} {bad : CompRef → Bool} {τ : List (Who × Ev)}

theorem relayNode_ne {x : Pull × Push} {ins outs spy} : relayNode x ≠ some (.junction ins outs spy) := by
  unfold relayNode; split <;> simp

theorem node_junction {k : Comp} {id n : Nat} {p : Piece} {ins outs spy} (h : k.node id n p = some (.junction ins outs spy)) : ∃ a b, k = .junction a b := by
  unfold Comp.node at h
  split at h <;> first | exact ⟨_, _, rfl⟩ | exact absurd h relayNode_ne | (simp at h)

/-- Who has to open files. -/
theorem Assembled.unopened (A : Assembled c hs w) {i : Who} {t : Task} (h : w.unopened bad i = some t) :
    ∃ r, i = .part r .main ∧ bad r = true ∧ (∃ n, w.node i = some n) ∧
      ((r.1 = .faucet ∧ t = dropTask []) ∨
       (r.1 = .drain ∧ ∃ d x, w.comps.get r = some (.drain d (some x)) ∧ t = dropTask [(.data, x.chan)])) := by
  cases i with
  | manager => simp [Waiter.unopened] at h
  | part r p =>
    cases p with
    | main =>
      refine ⟨r, rfl, ?_⟩
      simp only [Waiter.unopened] at h
      cases hk : w.comps.get r with
      | none => rw [hk] at h; cases h
      | some k =>
        rw [hk] at h
        simp only at h
        cases hb : bad r with
        | false => rw [hb] at h; cases h
        | true =>
          rw [hb] at h
          simp only [↓reduceIte] at h
          refine ⟨rfl, ?_⟩
          have hm : Mentioned hs r := by
            by_cases hm : Mentioned hs r
            · exact hm
            · rw [A.only r hm] at hk; cases hk
          obtain ⟨k', hk', he⟩ := A.comps r hm
          rw [hk] at hk'; cases hk'
          cases k with
          | faucet f o =>
            cases o with
            | none => cases h
            | some o =>
              simp only [Comp.unopened] at h
              split at h
              · cases h
              · cases h
                refine ⟨by simp only [Waiter.node, hk, Comp.node]; exact ⟨_, rfl⟩, Or.inl ⟨?_, rfl⟩⟩
                cases hr : r.1 with
                | faucet => rfl
                | drain => rw [expected_drain _ _ _ _ hr] at he; cases he
                | junction => rw [expected_junction _ _ _ _ hr] at he; cases he
                | launch => rw [expected_launch _ _ _ _ hr] at he; cases he
                | buffer => rw [expected_buffer _ _ _ _ hr] at he; cases he
                | regulator => rw [expected_regulator _ _ _ _ hr] at he; cases he
          | drain d o =>
            cases o with
            | none => cases h
            | some o =>
              simp only [Comp.unopened] at h
              split at h
              · cases h
              · cases h
                refine ⟨by simp only [Waiter.node, hk, Comp.node]; exact ⟨_, rfl⟩, Or.inr ⟨?_, d, o, rfl, rfl⟩⟩
                cases hr : r.1 with
                | drain => rfl
                | faucet => rw [expected_faucet _ _ _ _ hr] at he; cases he
                | junction => rw [expected_junction _ _ _ _ hr] at he; cases he
                | launch => rw [expected_launch _ _ _ _ hr] at he; cases he
                | buffer => rw [expected_buffer _ _ _ _ hr] at he; cases he
                | regulator => rw [expected_regulator _ _ _ _ hr] at he; cases he
          | launch => cases h
          | junction => cases h
          | buffer => cases h
          | regulator => cases h
    | _ => simp [Waiter.unopened] at h

def Who.isDrain : Who → Bool
  | .part r _ => r.1 = .drain
  | .manager _ => false

/-- The parts that move data, without the drains that have nothing to write to. -/
def Waiter.netWith (w : Waiter) (bad : CompRef → Bool) : Network Who :=
  ⟨fun i => if (w.unopened bad i).isSome && i.isDrain then none else w.node i⟩

theorem netWith_node {i : Who} {n : Node} (h : (w.netWith bad).node i = some n) : w.node i = some n ∧ (w.unopened bad i = none ∨ i.isDrain = false) := by
  simp only [Waiter.netWith] at h
  split at h
  · cases h
  · rename_i hx
    refine ⟨h, ?_⟩
    cases hu : w.unopened bad i with
    | none => exact Or.inl rfl
    | some t => rw [hu] at hx; simpa using hx

theorem netWith_edge {a b : Who} {ch : Nat} (h : (w.netWith bad).Edge a ch b) : w.net.Edge a ch b := by
  obtain ⟨n, m, h1, h2, h3, h4⟩ := h
  exact ⟨n, m, (netWith_node h1).1, (netWith_node h2).1, h3, h4⟩

theorem netWith_wired (W : w.net.Wired) : (w.netWith bad).Wired where
  ok := fun i n h => W.ok i n (netWith_node h).1
  writer := fun i j n m ch h1 h2 => W.writer i j n m ch (netWith_node h1).1 (netWith_node h2).1
  reader := fun i j n m ch h1 h2 => W.reader i j n m ch (netWith_node h1).1 (netWith_node h2).1

theorem Waiter.RunWith.idle (A : Assembled c hs w) (h : w.RunWith cs bad cap τ) {i : Who} {t : Task} (hu : w.unopened bad i = some t) (hd : i.isDrain = false) :
    proj i τ = [] := by
  obtain ⟨r, rfl, _, _, ⟨_, rfl⟩ | ⟨hr, _⟩⟩ := A.unopened hu
  · have := h.exec.tasks _ _ (show w.sysWith cs bad (.part r .main) = some (dropTask []) by simp [Waiter.sysWith, hu])
    simpa [dropEvs] using dropTask_partial this
  · simp [Who.isDrain, hr] at hd

/-- As `Assembled.run`. -/
theorem Assembled.runWith (A : Assembled c hs w) (hC : Complete hs) (h : w.RunWith cs bad cap τ) :
    Execution cap (w.netWith bad).sys τ ∧ (w.netWith bad).Undisturbed τ := by
  have W := A.wired hC
  refine ⟨⟨h.exec.chans, ?_⟩, ?_⟩
  · intro i t ht
    simp only [Network.sys, Option.map_eq_some_iff] at ht
    obtain ⟨n, hn, rfl⟩ := ht
    obtain ⟨hn, hu⟩ := netWith_node hn
    cases hx : w.unopened bad i with
    | none => exact h.exec.tasks i _ (by simp [Waiter.sysWith, hx, sys_node (cs := cs) hn])
    | some t =>
      rw [hx] at hu
      rw [h.idle A hx (by simpa using hu)]
      exact Or.inl ⟨_, [], [], .nil, by simp [Prog.Partial], rfl⟩
  · intro x hx hn a ch b he hq
    have hmem : x.2 ∈ proj x.1 τ := mem_proj.mpr hx
    cases hu : w.unopened bad x.1 with
    | some t =>
      obtain ⟨r, hr, _, ⟨n, hn'⟩, h'⟩ := A.unopened hu
      rcases h' with ⟨hf, rfl⟩ | ⟨hd, d, i, hk, rfl⟩
      · rw [h.idle A hu (by simp [hr, Who.isDrain, hf])] at hmem
        simp at hmem
      · have hp := dropTask_partial (h.exec.tasks x.1 _ (by simp only [Waiter.sysWith, hu, Option.or]; rfl))
        have := hp.subset hmem
        simp only [dropEvs, List.map_cons, List.map_nil, List.mem_singleton] at this
        rw [this] at hq
        simp only [Req.on, Option.some.injEq, Prod.mk.injEq, true_and] at hq
        subst hq
        obtain ⟨n1, m, _, hm, _, hs'⟩ := he
        have hnode : w.node x.1 = some (.relay i.pull {} none (drainPush d i (3 * w.idOf r))) := by
          rw [hr]; simp only [Waiter.node, hk, Comp.node]
        have := W.reader x.1 b _ m _ hnode (netWith_node hm).1 (by simp [Node.sources, PullEnd.pull, Pull.source]) hs'
        rw [← this, hn] at hm; cases hm
    | none =>
      have hn : w.node x.1 = none := by simpa [Waiter.netWith, hu] using hn
      have hsy : w.sysWith cs bad x.1 = w.sys cs x.1 := by simp [Waiter.sysWith, hu]
      cases hs' : w.sys cs x.1 with
      | none => exact h.known x hx (by rw [hsy, hs'])
      | some t =>
        have hp := h.exec.tasks x.1 t (by rw [hsy, hs'])
        obtain ⟨g, g1, g2, _⟩ := A.touches hC hs' hn hp x.2 hmem ch hq
        rcases (A.edges hC a ch b).mp (netWith_edge he) with ⟨h', h1, h2, _⟩ | ⟨y, _, h1, _⟩
        · rw [g1] at h1; cases h1; exact h2 g2
        · have := get?_lt g1; omega

/-- A faucet that cannot open its file. -/
theorem Assembled.dry (A : Assembled c hs w) {ch : Nat} {h : Hop} (hi : hs[ch]? = some h) (hf : h.src.ty = .faucet) (hl : c.faucet.get h.src.name ≠ some ['-']) (hb : bad h.from = true) :
    h.writer = .part h.from .main ∧ w.unopened bad h.writer = some (dropTask []) := by
  have hwr : h.writer = .part h.from .main := by simp [Hop.writer, hf]
  refine ⟨hwr, ?_⟩
  have hfr : h.from.1 = .faucet := hf
  obtain ⟨k, hk, he⟩ := A.comps h.from ⟨h, List.mem_of_getElem? hi, Or.inl rfl⟩
  rw [expected_faucet _ _ _ _ hfr] at he
  have hd : (c.faucet.get h.from.2).getD [] ≠ ['-'] := by
    have hl : c.faucet.get h.from.2 ≠ some ['-'] := hl
    cases hg : c.faucet.get h.from.2 with
    | none => simp
    | some x => rw [hg] at hl; simpa using hl
  have hkk := plain_faucet he
  cases ho : (pushEnds w.idOf hs.zipIdx fun g => g.from = h.from).head? with
  | none =>
    rw [List.head?_eq_none_iff] at ho
    have : h.pushEnd w.idOf ch ∈ pushEnds w.idOf hs.zipIdx fun g => g.from = h.from := mem_pushEnds.mpr ⟨ch, h, hi, by simp, rfl⟩
    rw [ho] at this; simp at this
  | some o =>
    rw [ho] at hkk
    rw [hwr]
    simp only [Waiter.unopened, hk, hkk, hb, ↓reduceIte, Comp.unopened, if_neg hd]

/-- The channel from such a faucet: nobody but the reader ever touches it. -/
theorem Assembled.untouchedBy (A : Assembled c hs w) (hC : Complete hs) (hr : w.RunWith cs bad cap τ) {ch : Nat} {h : Hop} (hi : hs[ch]? = some h)
    (hf : h.src.ty = .faucet) (hl : c.faucet.get h.src.name ≠ some ['-']) (hb : bad h.from = true)
    (hg : w.unopened bad h.reader = none) :
    ∃ m, w.node h.reader = some m ∧ .chan ch ∈ m.sources ∧ EdgeFacts τ h.writer ch h.reader ∧ proj h.writer τ = [] := by
  obtain ⟨hwr, hu⟩ := A.dry (bad := bad) hi hf hl hb
  have W := A.wired hC
  obtain ⟨E, U⟩ := A.runWith hC hr
  have he : w.net.Edge h.writer ch h.reader := (A.edges hC _ _ _).mpr (Or.inl ⟨h, hi, by simp [Hop.isExit, hf], rfl, rfl⟩)
  have hdr : h.writer.isDrain = false := by rw [hwr]; show decide (h.src.ty = .drain) = false; rw [hf]; rfl
  obtain ⟨n, m, h1, h2, h3, h4⟩ := he
  have he' : (w.netWith bad).Edge h.writer ch h.reader :=
    ⟨n, m, by simpa [Waiter.netWith, hdr] using (show w.node h.writer = some n from h1), by simpa [Waiter.netWith, hg] using (show w.node h.reader = some m from h2), h3, h4⟩
  exact ⟨m, h2, h4, Network.facts (netWith_wired W) E U he', hr.idle A hu hdr⟩

end

section
variable {c : Config} {R : Map Hop} {order : List (Str × Watch)} {w0 w : Waiter} {cs : List Capture} {cap : Caps} {bad : CompRef → Bool} {τ : List (Who × Ev)}

/-- **C62** is false of the code: when the file of a faucet cannot be opened, whatever reads from the faucet, unless it is a junction, waits for ever, so `start`
never returns and the failure is never reported. -/
theorem C62_refuted (hc : c.connection = hopSets R) (hw : getWaiter c = .ok w0) (hp : w0.regulatorSettings order = .ok (cs, w)) (hC : Complete (R.map (·.2)))
    {ch : Nat} {h : Hop} (hi : (R.map (·.2))[ch]? = some h) (hf : h.src.ty = .faucet) (hl : c.faucet.get h.src.name ≠ some ['-'])
    (hb : bad h.from = true) (hj : h.dst.ty ≠ .junction) (hg : h.dst.ty = .drain → bad h.to = false) (hr : w.RunWith cs bad cap τ) :
    proj h.reader τ = [] ∧ ¬ w.OverWith cs bad τ := by
  have A := assembled hc hw hp
  have W := A.wired hC
  have hg' : w.unopened bad h.reader = none := by
    cases hu : w.unopened bad h.reader with
    | none => rfl
    | some t =>
      obtain ⟨r, h1, h2, _, h3⟩ := A.unopened hu
      have : h.to = r := by
        simp only [Hop.reader, Who.part.injEq] at h1; exact h1.1
      subst this
      rcases h3 with ⟨h3, _⟩ | ⟨h3, _⟩
      · obtain ⟨pre, post, hsp⟩ := List.append_of_mem (List.mem_of_getElem? hi)
        have := (A.all _ _ _ hsp).2.2.2
        rw [CanReceive, show h.dst.ty = .faucet from h3] at this
        exact this.elim
      · rw [hg h3] at h2; cases h2
  obtain ⟨m, hm, hs', F, hpr⟩ := A.untouchedBy hC hr hi hf hl hb hg'
  have hsy : w.sysWith cs bad h.reader = some m.task := by simp [Waiter.sysWith, hg', sys_node (cs := cs) hm]
  have hon : ∀ x ∈ τ, x.2.q.on = some (.data, ch) → x.1 = h.reader := by
    intro x hx hq
    rcases F.on x hx hq with h' | h'
    · have : x.2 ∈ proj h.writer τ := mem_proj.mpr (by rw [← h']; exact hx)
      rw [hpr] at this; simp at this
    · exact h'
  have ht := hr.exec.tasks _ _ hsy
  have : ∃ k, m.task.body m.task.init = .op (.recv .data ch) k := by
    cases m with
    | relay pull mon spy push =>
      cases pull with
      | receiver j c' =>
        simp [Node.sources, Pull.source] at hs'
        subst hs'
        exact ⟨_, rfl⟩
      | none => simp [Node.sources, Pull.source] at hs'
      | stream => simp [Node.sources, Pull.source] at hs'
    | regulator pull push spy ctl =>
      cases pull with
      | receiver j c' =>
        simp [Node.sources, Pull.source] at hs'
        subst hs'
        exact ⟨_, rfl⟩
      | none => simp [Node.sources, Pull.source] at hs'
      | stream => simp [Node.sources, Pull.source] at hs'
    | junction ins outs spy =>
      refine absurd ?_ hj
      have : ∃ p, h.reader = .part h.to p := ⟨_, rfl⟩
      obtain ⟨p, hp'⟩ := this
      rw [hp'] at hm
      obtain ⟨r, p', k, e, _, _, he, hn⟩ := A.node_inv hm
      simp only [Who.part.injEq] at e
      obtain ⟨rfl, rfl⟩ := e
      show h.to.1 = .junction
      obtain ⟨_, _, rfl⟩ := node_junction hn
      cases hr : h.to.1 with
      | junction => rfl
      | drain => rw [expected_drain _ _ _ _ hr] at he; cases he
      | faucet => rw [expected_faucet _ _ _ _ hr] at he; cases he
      | launch => rw [expected_launch _ _ _ _ hr] at he; cases he
      | buffer => rw [expected_buffer _ _ _ _ hr] at he; cases he
      | regulator => rw [expected_regulator _ _ _ _ hr] at he; cases he
  obtain ⟨k, hk⟩ := this
  have hnil := starved hk hr.exec.chans ht hon
  exact ⟨hnil, fun ho => task_not_done hk (by rw [← hnil]; exact ho _ _ hsy)⟩

/-- A junction goes on with its other inputs, but cannot end unless its outputs fail. -/
theorem C62_junction_refuted (hc : c.connection = hopSets R) (hw : getWaiter c = .ok w0) (hp : w0.regulatorSettings order = .ok (cs, w)) (hC : Complete (R.map (·.2)))
    {ch : Nat} {h : Hop} (hi : (R.map (·.2))[ch]? = some h) (hf : h.src.ty = .faucet) (hl : c.faucet.get h.src.name ≠ some ['-'])
    (hb : bad h.from = true) (hj : h.dst.ty = .junction) (hr : w.RunWith cs bad cap τ) (hx : ∀ f ∈ acts (proj h.reader τ), f.fails = false) :
    ¬ w.OverWith cs bad τ := by
  have A := assembled hc hw hp
  have W := A.wired hC
  have hg' : w.unopened bad h.reader = none := by
    cases hu : w.unopened bad h.reader with
    | none => rfl
    | some t =>
      obtain ⟨r, h1, h2, _, h3⟩ := A.unopened hu
      have : h.to = r := by
        simp only [Hop.reader, Who.part.injEq] at h1; exact h1.1
      subst this
      have hj' : h.to.1 = .junction := hj
      rw [hj'] at h3
      rcases h3 with ⟨h3, _⟩ | ⟨h3, _⟩ <;> cases h3
  obtain ⟨m, hm, hs', F, hpr⟩ := A.untouchedBy hC hr hi hf hl hb hg'
  have hsy : w.sysWith cs bad h.reader = some m.task := by simp [Waiter.sysWith, hg', sys_node (cs := cs) hm]
  intro ho
  have fin := node_finished (W.ok h.reader _ hm) (ho _ _ hsy) hx
  obtain ⟨st, hst⟩ := Option.isSome_iff_exists.mp hr.exec.chans
  obtain ⟨_, _, e3⟩ := edge_complete hst F.on F.writer F.reader F.sent F.got (fin.ended _ hs')
  rw [hpr] at e3
  simp [closings] at e3

/-- What is true: a drain that cannot create its file lets go of its input, now or later, whatever the others do; whoever writes to it finds the channel closed. -/
theorem C62_drain_partial (hc : c.connection = hopSets R) (hw : getWaiter c = .ok w0) (hp : w0.regulatorSettings order = .ok (cs, w))
    {ch : Nat} {h : Hop} (hi : (R.map (·.2))[ch]? = some h) (hd : h.dst.ty = .drain)
    (hl : ∀ s ∈ ["/dev/null", "-", "_"], c.drain.get h.dst.name ≠ some s.toList) (hb : bad h.to = true) (hr : w.RunWith cs bad cap τ) :
    ∃ t, w.sysWith cs bad h.reader = some t ∧
      (t.Done (proj h.reader τ) → ∃ st, execAll cap Store.init (τ.map Prod.snd) = some st ∧ (st .data ch).closed = true) ∧
      (¬ t.Done (proj h.reader τ) → w.RunWith cs bad cap (τ ++ [(h.reader, ⟨.close .data ch, ()⟩)]) ∧ t.Done (proj h.reader (τ ++ [(h.reader, ⟨.close .data ch, ()⟩)]))) := by
  have A := assembled hc hw hp
  have hrd : h.reader = .part h.to .main := by simp [Hop.reader, hd]
  have hto : h.to.1 = .drain := hd
  obtain ⟨k, hk, he⟩ := A.comps h.to ⟨h, List.mem_of_getElem? hi, Or.inr rfl⟩
  rw [expected_drain _ _ _ _ hto] at he
  have hkk := plain_drain he
  cases ho : (pullEnds w.idOf (R.map (·.2)).zipIdx fun g => g.to = h.to).head?.map Prod.fst with
  | none =>
    rw [Option.map_eq_none_iff, List.head?_eq_none_iff] at ho
    have : (h.pullEnd w.idOf ch, h.input.priority) ∈ pullEnds w.idOf (R.map (·.2)).zipIdx fun g => g.to = h.to := mem_pullEnds.mpr ⟨ch, h, hi, by simp, rfl⟩
    rw [ho] at this; simp at this
  | some o =>
    rw [ho] at hkk
    have hch : ch = o.chan := (A.headTo (by rw [hto]; decide) ho ch).mpr ⟨h, hi, rfl⟩
    subst hch
    have hne : ¬ ((c.drain.get h.to.2).getD [] = "/dev/null".toList ∨ (c.drain.get h.to.2).getD [] = ['-'] ∨ (c.drain.get h.to.2).getD [] = ['_']) := by
      have h1 := hl "/dev/null" (by simp)
      have h2 := hl "-" (by simp)
      have h3 := hl "_" (by simp)
      change c.drain.get h.to.2 ≠ _ at h1 h2 h3
      cases hg : c.drain.get h.to.2 with
      | none => simp
      | some x => rw [hg] at h1 h2 h3; simpa using ⟨by simpa using h1, by simpa using h2, by simpa using h3⟩
    have hsy : w.sysWith cs bad h.reader = some (dropTask [(.data, o.chan)]) := by
      rw [hrd]
      simp only [Waiter.sysWith, Waiter.unopened, hk, hkk, hb, ↓reduceIte, Comp.unopened, if_neg hne, Option.or]
      rfl
    refine ⟨_, hsy, ?_, ?_⟩
    · intro hdn
      obtain ⟨st, hst⟩ := Option.isSome_iff_exists.mp hr.exec.chans
      exact ⟨st, hst, closing_closed_kind hst (done_drops hdn (by simp [dropTask]))⟩
    · intro hnd
      have hpar := dropTask_partial (hr.exec.tasks _ _ hsy)
      have hnil : proj h.reader τ = [] := by
        cases hpj : proj h.reader τ with
        | nil => rfl
        | cons e tr =>
          rw [hpj] at hpar hnd
          obtain ⟨tr', htr⟩ := hpar
          simp only [dropEvs, List.map_cons, List.map_nil, List.cons_append, List.cons.injEq, List.append_eq_nil_iff] at htr
          exact absurd (by rw [htr.1, htr.2.1]; exact dropTask_ends) hnd
      have hnew : proj h.reader (τ ++ [(h.reader, ⟨.close .data o.chan, ()⟩)]) = dropEvs [(.data, o.chan)] := by
        have : proj h.reader (τ ++ [(h.reader, ⟨.close .data o.chan, ()⟩)]) = proj h.reader τ ++ proj h.reader [(h.reader, ⟨.close .data o.chan, ()⟩)] := by simp [proj]
        rw [this, hnil]; simp [proj, dropEvs]
      refine ⟨⟨⟨?_, ?_⟩, ?_, ?_⟩, by rw [hnew]; exact dropTask_ends⟩
      · rw [List.map_append, execAll_append]
        obtain ⟨st, hst⟩ := Option.isSome_iff_exists.mp hr.exec.chans
        rw [hst]; rfl
      · intro i t ht
        by_cases hir : i = h.reader
        · subst hir
          rw [hsy] at ht; cases ht
          rw [hnew]
          exact Or.inr ⟨(), [], _, .stop (by simp [dropTask, pure, Prog.Runs]), List.prefix_rfl, rfl⟩
        · have : proj i (τ ++ [(h.reader, ⟨.close .data o.chan, ()⟩)]) = proj i τ := by simp [proj, Ne.symm hir]
          rw [this]; exact hr.exec.tasks i t ht
      · intro x hx
        rcases List.mem_append.mp hx with hx | hx
        · exact hr.known x hx
        · simp only [List.mem_singleton] at hx
          subst hx; rw [hsy]; simp
      · intro τ₁ τ₂ r e hsp p hp' t ht
        rcases List.eq_nil_or_concat τ₂ with rfl | ⟨l, x, rfl⟩
        · have := List.append_inj_right' hsp (by simp)
          rw [hrd] at this
          simp at this
        · have hsp' : τ ++ [(h.reader, (⟨.close .data o.chan, ()⟩ : Ev))] = (τ₁ ++ (.part r .exit, e) :: l) ++ [x] := by simpa using hsp
          have := List.append_inj_left' hsp' (by simp)
          exact hr.exits τ₁ l r e this p hp' t ht

end

/-- Components whose files cannot be opened and that close nothing need not be distinguished from components that have not begun. -/
theorem Waiter.Run.with {w : Waiter} {cs : List Capture} {cap : Caps} {bad : CompRef → Bool} {τ : List (Who × Ev)} (hr : w.Run cs cap τ)
    (h : ∀ r, bad r = true → (∀ d i, w.comps.get r ≠ some (.drain d i)) ∧ proj (.part r .main) τ = []) : w.RunWith cs bad cap τ := by
  have key : ∀ i t, w.unopened bad i = some t → t = dropTask [] ∧ proj i τ = [] := by
    intro i t hu
    cases i with
    | manager => simp [Waiter.unopened] at hu
    | part r p =>
      cases p with
      | main =>
        simp only [Waiter.unopened] at hu
        cases hk : w.comps.get r with
        | none => rw [hk] at hu; cases hu
        | some k =>
          rw [hk] at hu
          simp only at hu
          split at hu
          · rename_i hb
            refine ⟨?_, (h r hb).2⟩
            cases k with
            | faucet f o =>
              cases o with
              | none => cases hu
              | some o => simp only [Comp.unopened] at hu; split at hu <;> cases hu; rfl
            | drain d i => exact absurd hk ((h r hb).1 d i)
            | _ => cases hu
          · cases hu
      | _ => simp [Waiter.unopened] at hu
  refine ⟨⟨hr.exec.chans, ?_⟩, ?_, ?_⟩
  · intro i t ht
    cases hu : w.unopened bad i with
    | none => rw [Waiter.sysWith, hu] at ht; exact hr.exec.tasks i t ht
    | some t' =>
      rw [Waiter.sysWith, hu] at ht; cases ht
      rw [(key i _ hu).1, (key i _ hu).2]
      exact Or.inl ⟨_, [], [], .nil, by simp [Prog.Partial], rfl⟩
  · intro x hx
    cases hu : w.unopened bad x.1 with
    | none => rw [Waiter.sysWith, hu]; exact hr.known x hx
    | some t' => simp [Waiter.sysWith, hu]
  · intro τ₁ τ₂ r e hsp p hp t ht
    have : w.unopened bad (.part r p) = none := by
      simp only [List.mem_cons, List.not_mem_nil, or_false] at hp
      rcases hp with rfl | rfl | rfl <;> rfl
    rw [Waiter.sysWith, this] at ht
    exact hr.exits τ₁ τ₂ r e hsp p hp t ht

section Example
/-- Two files, each into a drain of its own; the first cannot be opened. -/
def delta : List (Str × Hop) :=
  [("a_1".toList, ⟨⟨.faucet, "lost".toList, .out⟩, none, ⟨.drain, "sea".toList⟩, ⟨.terminate, 0⟩, none⟩),
   ("b_1".toList, ⟨⟨.faucet, "found".toList, .out⟩, none, ⟨.drain, "lake".toList⟩, ⟨.terminate, 0⟩, none⟩)]
def deltaConfig : Config where
  faucet := [("lost".toList, "missing.txt".toList), ("found".toList, "-".toList)]
  regulator := []
  drain := [("lake".toList, "-".toList)]
  launch := []
  connection := hopSets delta
def deltaWaiter : Waiter := ((getWaiter deltaConfig).ok?).getD Waiter.new
def deltaReady : List Capture × Waiter := match deltaWaiter.regulatorSettings [] with
  | .ok x => x
  | _ => ([], Waiter.new)
def deltaBad (r : CompRef) : Bool := r == (.faucet, "lost".toList)
def deltaTrace := deltaReady.2.drive deltaReady.1 (realCaps (delta.map (·.2))) (fun h => if h = 0 then [] else [[1, 10], [2, 10]]) .err
  ((List.replicate 20 ((deltaReady.2.everyone deltaReady.1).filter fun i => decide (i ≠ .part (.faucet, "lost".toList) .main))).flatten)

theorem delta_built : getWaiter deltaConfig = .ok deltaWaiter := by decide +kernel
theorem delta_prepared : deltaWaiter.regulatorSettings [] = .ok (deltaReady.1, deltaReady.2) := by decide +kernel
theorem delta_complete : Complete (delta.map (·.2)) := complete_of (by decide +kernel) (by decide +kernel)
theorem delta_runs : deltaReady.2.Run deltaReady.1 (realCaps (delta.map (·.2))) deltaTrace := Waiter.runs_sound (by decide +kernel)
theorem delta_with : deltaReady.2.RunWith deltaReady.1 deltaBad (realCaps (delta.map (·.2))) deltaTrace := by
  refine delta_runs.with fun r hr => ?_
  have : r = (.faucet, "lost".toList) := by simpa [deltaBad] using hr
  subst this
  have hk : ((deltaReady.2.comps.get (.faucet, "lost".toList)).any fun k => match k with
    | .drain _ _ => false
    | _ => true) = true := by decide +kernel
  refine ⟨?_, by
    have : (proj (.part (.faucet, "lost".toList) .main) deltaTrace).isEmpty = true := by decide +kernel
    simpa using this⟩
  intro d i h
  rw [h] at hk
  simp at hk

/-- The other pipeline has done its work (its drain has received both lines and the end), and yet the program never ends. -/
example : received (proj (.part (.drain, "lake".toList) .main) deltaTrace) = [[1, 10], [2, 10]] ∧ proj (.part (.drain, "sea".toList) .main) deltaTrace = [] ∧
    ¬ deltaReady.2.OverWith deltaReady.1 deltaBad deltaTrace :=
  ⟨by decide +kernel, C62_refuted (c := deltaConfig) (R := delta) (ch := 0) rfl delta_built delta_prepared delta_complete (h := (delta.map (·.2))[0]) rfl rfl
    (by decide +kernel) (by decide +kernel) (by decide +kernel) (fun _ => by decide +kernel) delta_with⟩

theorem Waiter.RunWith.nil {w : Waiter} {cs : List Capture} {bad : CompRef → Bool} {cap : Caps} : w.RunWith cs bad cap [] :=
  ⟨⟨rfl, fun _ _ _ => Or.inl ⟨_, [], [], .nil, by simp [Prog.Partial], rfl⟩⟩, by simp, by intro τ₁ τ₂ r e h; simp at h⟩

/-- When the drain cannot create its file (nothing is configured for it, so its name is empty), it closes its input. -/
example : ∃ τ st, deltaReady.2.RunWith deltaReady.1 (fun r => r == (.drain, "sea".toList)) (realCaps (delta.map (·.2))) τ ∧
    execAll (realCaps (delta.map (·.2))) Store.init (τ.map Prod.snd) = some st ∧ (st .data 0).closed = true := by
  obtain ⟨t, _, h2, h3⟩ := C62_drain_partial (c := deltaConfig) (R := delta) (ch := 0) (bad := fun r => r == (.drain, "sea".toList)) (cap := realCaps (delta.map (·.2))) rfl
    delta_built delta_prepared (h := (delta.map (·.2))[0]) rfl rfl (by decide +kernel) (by decide +kernel) Waiter.RunWith.nil
  by_cases hd : t.Done []
  · obtain ⟨st, h4, h5⟩ := h2 hd
    exact ⟨[], st, Waiter.RunWith.nil, h4, h5⟩
  · exact ⟨_, _, (h3 hd).1, rfl, rfl⟩

/-- A junction (`weir`, in Props/FlowControl.lean) one of whose two faucets cannot open its file. -/
def weirBad (r : CompRef) : Bool := r == (.faucet, "fast".toList)
def weirShort := weirReady.2.drive weirReady.1 weirCaps (fun h => if h = 0 then [[1, 10], [2, 10]] else []) .err
  ((List.replicate 30 ((weirReady.2.everyone weirReady.1).filter fun i => decide (i ≠ .part (.faucet, "fast".toList) .main))).flatten)
theorem weirShort_runs : weirReady.2.Run weirReady.1 weirCaps weirShort := Waiter.runs_sound (by decide +kernel)
theorem weirShort_with : weirReady.2.RunWith weirReady.1 weirBad weirCaps weirShort := by
  refine weirShort_runs.with fun r hr => ?_
  have : r = (.faucet, "fast".toList) := by simpa [weirBad] using hr
  subst this
  have hk : ((weirReady.2.comps.get (.faucet, "fast".toList)).any fun k => match k with
    | .drain _ _ => false
    | _ => true) = true := by decide +kernel
  refine ⟨?_, by
    have : (proj (.part (.faucet, "fast".toList) .main) weirShort).isEmpty = true := by decide +kernel
    simpa using this⟩
  intro d i h
  rw [h] at hk
  simp at hk

example : received (proj (.part (.drain, "lake".toList) .main) weirShort) = [[1, 10], [2, 10]] ∧ ¬ weirReady.2.OverWith weirReady.1 weirBad weirShort :=
  ⟨by decide +kernel, C62_junction_refuted (c := weirConfig) (R := weir) (ch := 2) rfl weir_built weir_prepared weir_complete (h := (weir.map (·.2))[2]) rfl rfl
    (by decide +kernel) (by decide +kernel) rfl weirShort_with (by decide +kernel)⟩

end Example
end Verif
