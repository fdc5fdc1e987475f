import Verif.Lemmas.Consume
import Verif.Props.ExitExample
/-!
# Property C77: pipe variations across a whole run

README 661-675: when whoever receives cannot receive any more, `T` (`|`) terminates Pipeawesome, `F` (`|`) closes the pipe and lets the sender deal with it, `C` keeps the pipe
open by consuming the data itself.
-/
namespace Verif

/-- The activities that write into the pipe of a hop; those of a buffer do it together. -/
def Hop.Feeds (h : Hop) (i : Who) : Prop := i = h.writer ∨ (h.src.ty = .buffer ∧ i = .part h.from .input)

section
variable {c : Config} {hs : List Hop} {w : Waiter} {cs : List Capture} {cap : Caps} {τ : List (Who × Ev)} {bad : CompRef → Bool}

theorem mem_targets {n : Node} {t : End} : t ∈ n.targets ↔ ∃ q ∈ n.pushs, q.target = some t := by
  cases n with
  | relay pull mon spy push => simp [Node.targets, Node.pushs]
  | regulator pull push spy ctl => simp [Node.targets, Node.pushs]
  | junction ins outs spy => simp [Node.targets, Node.pushs]

theorem Hop.Feeds.part {h : Hop} {i : Who} (hf : h.Feeds i) : ∃ p, i = .part h.from p := by
  rcases hf with rfl | ⟨_, rfl⟩
  · exact ⟨_, rfl⟩
  · exact ⟨_, rfl⟩

theorem Assembled.feeding (A : Assembled c hs w) (hC : Complete hs) {h : Hop} (hh : h ∈ hs) (hx : ¬ h.isExit) {i : Who} (hf : h.Feeds i) :
    ∃ n q ch, w.node i = some n ∧ q ∈ n.pushs ∧ q.target = some (.chan ch) ∧ q.breakable = h.input.breakable := by
  rcases hf with rfl | ⟨hb, rfl⟩
  · obtain ⟨n, hn⟩ := A.writerNode hC hh hx
    obtain ⟨ch, hi⟩ := List.getElem?_of_mem hh
    have ht := (A.targets (r := h.from) hn ch).mpr (Or.inl ⟨h, hi, rfl⟩)
    obtain ⟨q, hq, e⟩ := mem_targets.mp ht
    exact ⟨n, q, ch, hn, hq, e, (A.varies (r := h.from) hn q hq ch e).1 h hi⟩
  · have hb' : h.from.1 = .buffer := hb
    obtain ⟨a, b, m, hk⟩ := A.bufferNodes hC hb' ⟨h, hh, Or.inl rfl⟩
    have hn : ∃ n, w.node (.part h.from .input) = some n := ⟨_, by simp only [Waiter.node, hk, Comp.node]; rfl⟩
    obtain ⟨n, hn⟩ := hn
    have ht := (A.targets hn (w.chans + w.idOf h.from)).mpr (Or.inr ⟨hb', rfl, rfl⟩)
    obtain ⟨q, hq, e⟩ := mem_targets.mp ht
    exact ⟨n, q, _, hn, hq, e, (A.varies hn q hq _ e).2 (by rw [A.chans]; omega) h hh rfl⟩

theorem Assembled.not_from_drain (A : Assembled c hs w) {h : Hop} (hh : h ∈ hs) : h.src.ty ≠ .drain := by
  intro hr
  obtain ⟨pre, post, heq⟩ := List.append_of_mem hh
  have := (A.all _ _ _ heq).2.2.1
  unfold CanSend at this
  rw [hr] at this
  exact this

theorem Assembled.feeder (A : Assembled c hs w) {h : Hop} (hh : h ∈ hs) {i : Who} (hf : h.Feeds i) : i.isDrain = false := by
  obtain ⟨p, rfl⟩ := hf.part
  simpa [Who.isDrain] using show h.from.1 ≠ .drain from A.not_from_drain hh

theorem netWith_of {i : Who} {n : Node} (h : w.node i = some n) (hd : i.isDrain = false) : (w.netWith bad).node i = some n := by
  simp [Waiter.netWith, hd, h]

theorem unopened_good {r : CompRef} {p : Piece} (h : bad r = false) : w.unopened bad (.part r p) = none := by
  cases p <;> simp only [Waiter.unopened]
  cases w.comps.get r <;> simp [h]

theorem Assembled.unopened_drops (A : Assembled c hs w) {i : Who} {t : Task} (h : w.unopened bad i = some t) : ∃ l, t = dropTask l := by
  obtain ⟨_, _, _, _, ⟨_, rfl⟩ | ⟨_, _, _, _, rfl⟩⟩ := A.unopened h <;> exact ⟨_, rfl⟩

theorem expected_ty_junction {r : CompRef} {id : CompRef → Nat} {outs ins : List (Hop × Nat)} {y z} (h : expected c id outs ins r = (Comp.junction y z).plain) : r.1 = .junction := by
  cases hr : r.1 with
  | junction => rfl
  | faucet => rw [expected_faucet _ _ _ _ hr] at h; cases h
  | drain => rw [expected_drain _ _ _ _ hr] at h; cases h
  | launch => rw [expected_launch _ _ _ _ hr] at h; cases h
  | buffer => rw [expected_buffer _ _ _ _ hr] at h; cases h
  | regulator => rw [expected_regulator _ _ _ _ hr] at h; cases h

/-- What is fatal is trouble or a refused send. -/
theorem fatal_cases {S : End → Prop} {e : Ev} (h : (act e).fatal S) : (act e).trouble = true ∨ ∃ ch d, e = ⟨.send .data ch d, false⟩ ∧ S (.chan ch) := by
  unfold act at h ⊢
  split at h
  all_goals first
    | exact h.elim
    | (left; rfl)
    | (left; simp only [Act.fatal] at h; simp [Act.trouble, h]; done)
    | skip
  rename_i ch d b
  cases b with
  | true => exact h.elim
  | false => exact Or.inr ⟨ch, d, rfl, h⟩

/-- The activity of a node that is no drain's. -/
theorem Waiter.RunWith.node (A : Assembled c hs w) (hC : Complete hs) (hr : w.RunWith cs bad cap τ) {i : Who} {n : Node} (hn : w.node i = some n) (hd : i.isDrain = false) :
    n.task.Partial (proj i τ) :=
  (A.runWith hC hr).1.tasks i _ (by simp [Network.sys, netWith_of hn hd])

end

section
variable {c : Config} {R : Map Hop} {order : List (Str × Watch)} {w w' : Waiter} {cs : List Capture} {cap : Caps} {bad : CompRef → Bool} {τ : List (Who × Ev)}

/-- **C77**, variations `C` and `T`: an activity that writes into such a pipe and ends without having failed has gone on until everything it reads from had ended, has got everything
that was written for it and has passed everything it got on to every pipe it writes into, whether or not somebody still listened. -/
theorem C77_consume (hc : c.connection = hopSets R) (hw : getWaiter c = .ok w) (hp : w.regulatorSettings order = .ok (cs, w')) (hC : Complete (R.map (·.2)))
    (hr : w'.RunWith cs bad cap τ) {h : Hop} (hh : h ∈ R.map (·.2)) (hx : ¬ h.isExit) (hv : h.input.breakable ≠ .finish) {i : Who} (hf : h.Feeds i) (hb : bad h.from = false)
    (hd : ∀ t, w'.sysWith cs bad i = some t → t.Done (proj i τ)) (hq : ¬ Failed (StopsAt (R.map (·.2)) i) (proj i τ)) :
    (∀ g ∈ R.map (·.2), g.writer = i → ∀ s, g.stream w'.idOf = some s → Act.ended (.handle s) ∈ acts (proj i τ)) ∧
    (∀ ch g, (R.map (·.2))[ch]? = some g → g.reader = i → Act.ended (.chan ch) ∈ acts (proj i τ) ∧
      (¬ g.isExit → receivedFrom (.chan ch) (proj i τ) = offeredTo (.chan ch) (proj g.writer τ))) ∧
    (∀ ch g, (R.map (·.2))[ch]? = some g → g.writer = i → offeredTo (.chan ch) (proj i τ) = received (proj i τ)) := by
  have A := assembled hc hw hp
  have W := A.wired hC
  obtain ⟨E, U⟩ := A.runWith hC hr
  obtain ⟨n, q, ch0, hn, hqm, ht, hbr⟩ := A.feeding hC hh hx hf
  have hdr := A.feeder hh hf
  obtain ⟨p, rfl⟩ := hf.part
  have hdone : n.task.Done (proj (.part h.from p) τ) := hd _ (by simp [Waiter.sysWith, unopened_good hb, sys_node (cs := cs) hn])
  have fin := node_ends_well (A.fits hn) (W.ok (.part h.from p) n hn) hdone hq ⟨q, hqm, by rw [hbr]; exact hv⟩
  refine ⟨?_, ?_, ?_⟩
  · intro g hg hgw s hs'
    obtain ⟨m, hm, hsm⟩ := A.writerStream hg hs'
    rw [hgw] at hm
    have hm : w'.node (.part h.from p) = some m := hm
    rw [hn] at hm; cases hm
    exact fin.ended _ (by rw [hsm]; simp)
  · intro ch g hg hgr
    have hsrc : .chan ch ∈ n.sources := (A.sources hn ch).mpr (Or.inl ⟨g, hg, hgr⟩)
    refine ⟨fin.ended _ hsrc, fun hgx => ?_⟩
    have he := (A.edges hC g.writer ch g.reader).mpr (Or.inl ⟨g, hg, hgx, rfl, rfl⟩)
    obtain ⟨a, b, h1, h2, h3, h4⟩ := he
    have hga : g.writer.isDrain = false := A.feeder (List.mem_of_getElem? hg) (Or.inl rfl)
    have F := Network.facts (netWith_wired (bad := bad) W) E U ⟨a, b, netWith_of (i := g.writer) h1 hga, netWith_of (i := g.reader) h2 (by rw [hgr]; exact hdr), h3, h4⟩
    obtain ⟨st, hst⟩ := Option.isSome_iff_exists.mp hr.exec.chans
    rw [← hgr]
    exact (edge_complete hst F.on F.writer F.reader F.sent F.got (by rw [hgr]; exact fin.ended _ hsrc)).2.1
  · intro ch g hg hgw
    exact fin.all _ ((A.targets hn ch).mpr (Or.inl ⟨g, hg, hgw⟩))

/-- **C77**, variations `C` and `F`: an activity that only writes into such pipes fails only if it meets something else than somebody not listening. -/
theorem C77_forgiving (hc : c.connection = hopSets R) (hw : getWaiter c = .ok w) (hp : w.regulatorSettings order = .ok (cs, w')) (hC : Complete (R.map (·.2)))
    (hr : w'.RunWith cs bad cap τ) {i : Who} (h1 : ∀ h ∈ R.map (·.2), h.Feeds i → ¬ h.isExit ∧ h.input.breakable ≠ .terminate)
    (hq : Failed (StopsAt (R.map (·.2)) i) (proj i τ)) : ∃ a ∈ acts (proj i τ), a.trouble = true := by
  have A := assembled hc hw hp
  have W := A.wired hC
  obtain ⟨f, hfm, hff⟩ := hq
  obtain ⟨e, he, rfl⟩ := List.mem_map.mp hfm
  rcases fatal_cases hff with h | ⟨ch, d, hq, hS⟩
  · exact ⟨_, hfm, h⟩
  · exfalso
    obtain ⟨g0, hg0, hg, hgi⟩ : ∃ g ∈ R.map (·.2), g.Feeds i ∧ (g.isExit ∨ g.input.breakable = .terminate) := by
      cases i with
      | manager r => exact hS.elim
      | part r p =>
        rcases hS with ⟨g, hg, hS⟩ | ⟨_, hrb, rfl, g, hg, rfl, hS⟩
        · refine ⟨g, List.mem_of_getElem? hg, Or.inl ?_, hS⟩
          have hon : e.q.on = some (.data, ch) := by rw [hq]; rfl
          cases hu : w'.unopened bad (.part r p) with
          | some t =>
            exfalso
            have hp' := hr.exec.tasks (.part r p) t (by simp [Waiter.sysWith, hu])
            obtain ⟨l, rfl⟩ := A.unopened_drops hu
            obtain ⟨k, c', rfl⟩ := dropsOnly_drops e ((dropTask_partial hp').subset he)
            have := congrArg Ev.q hq
            cases this
          | none =>
            have hsy : w'.sysWith cs bad (.part r p) = w'.sys cs (.part r p) := by simp [Waiter.sysWith, hu]
            cases hk : w'.node (.part r p) with
            | some n =>
              have hpt := hr.exec.tasks _ _ (by rw [hsy]; exact sys_node hk)
              have cd := node_conduct (W.ok (.part r p) n hk) hpt
              have := cd.to ⟨.chan ch, d, .closed .channelClosed⟩ (mem_offers.mpr (by rw [show Act.offer _ _ _ = act e by rw [hq]; rfl]; exact hfm))
              rcases (A.targets hk ch).mp this with ⟨g', g1, g2⟩ | ⟨_, _, g3⟩
              · rw [hg] at g1; cases g1; exact g2.symm
              · have := get?_lt hg
                rw [A.chans] at g3; omega
            | none =>
              cases ht : w'.sys cs (.part r p) with
              | none =>
                rw [proj_unknown hr (by rw [hsy, ht])] at he
                simp at he
              | some t =>
                obtain ⟨g', g1, _, g3⟩ := A.touches hC ht hk (hr.exec.tasks _ t (by rw [hsy, ht])) e he ch hon
                rw [hg] at g1; cases g1; exact g3
        · exact ⟨g, hg, Or.inr ⟨hrb, rfl⟩, Or.inr hS⟩
    obtain ⟨h2, h3⟩ := h1 g0 hg0 hg
    rcases hgi with h | h
    · exact h2 h
    · exact h3 h

/-- **C77**: what an activity does after something it cannot get over is nothing but letting go of its ends. -/
theorem C77_stops (hc : c.connection = hopSets R) (hw : getWaiter c = .ok w) (hp : w.regulatorSettings order = .ok (cs, w')) (hC : Complete (R.map (·.2)))
    (hr : w'.RunWith cs bad cap τ) {r : CompRef} {p : Piece} {a b : List Ev} {e : Ev} (hs : proj (.part r p) τ = a ++ e :: b)
    (hf : (act e).fatal (StopsAt (R.map (·.2)) (.part r p))) :
    ∀ x ∈ b, ∃ k ch, x = ⟨.close k ch, ()⟩ := by
  have A := assembled hc hw hp
  cases hu : w'.unopened bad (.part r p) with
  | some t =>
    exfalso
    have hp' := hr.exec.tasks (.part r p) t (by simp [Waiter.sysWith, hu])
    obtain ⟨l, rfl⟩ := A.unopened_drops hu
    have hm := (dropTask_partial hp').subset (by rw [hs]; simp : e ∈ _)
    exact (dropsOnly_drops (l := l)).calm ⟨_, List.mem_map.mpr ⟨e, hm, rfl⟩, hf⟩
  | none =>
    have hsy : w'.sysWith cs bad (.part r p) = w'.sys cs (.part r p) := by simp [Waiter.sysWith, hu]
    cases hk : w'.node (.part r p) with
    | some n =>
      have hpt := hr.exec.tasks (.part r p) _ (by rw [hsy]; exact sys_node hk)
      rw [hs] at hpt
      exact node_stops (A.fits hk) hpt hf
    | none =>
      cases ht : w'.sys cs (.part r p) with
      | none =>
        rw [proj_unknown hr (by rw [hsy, ht])] at hs
        simp at hs
      | some t =>
        have hpt := hr.exec.tasks (.part r p) t (by rw [hsy, ht])
        rw [hs] at hpt
        rcases A.others hC ht hk with ⟨r', x, ch, g, e1, hl, rfl, rfl, hg, hgx, rfl⟩ | ⟨r', m, e1, hl, hm, rfl, _⟩ | ⟨r', x, e1, _⟩
        · exact (exit_honest (S := StopsAt (R.map (·.2)) (.part r p)) (e := x) (Or.inl ⟨g, hg, Or.inl hgx⟩)).task (s := ()) trivial hpt hf
        · exact absurd ⟨_, List.mem_map.mpr ⟨e, by simp, rfl⟩, hf⟩ (count_harmless hpt)
        · cases e1

/-- **C77**, variation `T`: the README says that Pipeawesome terminates when nobody listens to such a pipe; that is false of the code (`C77_terminate_refuted`). What is true: whoever
writes into it does nothing more than let go of its ends, and when everything has ended the run is not a success, and blames the component that wrote. -/
theorem C77_terminate_partial (hc : c.connection = hopSets R) (hw : getWaiter c = .ok w) (hp : w.regulatorSettings order = .ok (cs, w')) (hC : Complete (R.map (·.2)))
    (hr : w'.RunWith cs bad cap τ) {ch : Nat} {h : Hop} (hh : (R.map (·.2))[ch]? = some h) (hv : h.input.breakable = .terminate) {τ₁ τ₂ : List (Who × Ev)} {d : Bytes}
    (hs : τ = τ₁ ++ (h.writer, ⟨.send .data ch d, false⟩) :: τ₂) :
    (∀ x ∈ proj h.writer τ₂, ∃ k c, x = ⟨.close k c, ()⟩) ∧
    ∀ out, w'.Returns cs bad τ out → (¬ ∃ n, out = some (.ok n)) ∧ ∀ es, out = some (.error es) → ∃ m t, .causedBy h.from m t ∈ es := by
  have hproj : proj h.writer τ = proj h.writer τ₁ ++ ⟨.send .data ch d, false⟩ :: proj h.writer τ₂ := by rw [hs]; simp [proj]
  have hfat : (act ⟨.send .data ch d, false⟩).fatal (StopsAt (R.map (·.2)) h.writer) := Or.inl ⟨h, hh, Or.inr hv⟩
  have hm : Mentioned (R.map (·.2)) h.from := ⟨h, List.mem_of_getElem? hh, Or.inl rfl⟩
  have hbr : c.Breaks (R.map (·.2)) bad τ h.from := Or.inr ⟨_, _, List.mem_map.mpr ⟨_, by show _ ∈ proj h.writer τ; rw [hproj]; simp, rfl⟩, hfat⟩
  refine ⟨C77_stops hc hw hp hC hr hproj hfat, fun out ho => ?_⟩
  have C := C75_outcome hc hw hp hC hr ho
  exact ⟨fun hn => C.1.mp hn _ hm hbr, fun es he => ((C.2 es he).2 h.from).mpr ⟨hm, hbr⟩⟩

/-- **C77**, variations `T` and `F`: an activity, not a junction's, that finds that nobody listens gets nothing and writes nothing from then on. -/
theorem C77_gives_up (hc : c.connection = hopSets R) (hw : getWaiter c = .ok w) (hp : w.regulatorSettings order = .ok (cs, w')) (hC : Complete (R.map (·.2)))
    (hr : w'.RunWith cs bad cap τ) {h : Hop} (hh : h ∈ R.map (·.2)) (hx : ¬ h.isExit) (hv : h.input.breakable ≠ .consume) (hj : h.src.ty ≠ .junction) {i : Who} (hf : h.Feeds i)
    {a b : List Ev} {e : Ev} (hs : proj i τ = a ++ e :: b) {t : End} {d : Bytes} {why : ClosedReason} (he : act e = .offer t d (.closed why)) :
    received b = [] ∧ offers b = [] := by
  have A := assembled hc hw hp
  have W := A.wired hC
  obtain ⟨n, q, ch0, hn, hqm, ht, hbr⟩ := A.feeding hC hh hx hf
  have hpt := hr.node A hC hn (A.feeder hh hf)
  rw [hs] at hpt
  have hnj : ∀ ins outs spy, n ≠ .junction ins outs spy := by
    rintro ins outs spy rfl
    obtain ⟨p, rfl⟩ := hf.part
    obtain ⟨r, p', k, e1, hm, _, hex, hkn⟩ := A.node_inv hn
    cases e1
    obtain ⟨y, z, rfl⟩ := node_junction hkn
    exact hj (expected_ty_junction hex.symm)
  refine node_gives_up (W.ok i n hn) hnj ?_ hpt he
  intro q' hq'
  have : q' = q := by
    cases n with
    | relay pull mon spy push => simp only [Node.pushs, List.mem_singleton] at hq' hqm; rw [hq', hqm]
    | regulator pull push spy ctl => simp only [Node.pushs, List.mem_singleton] at hq' hqm; rw [hq', hqm]
    | junction ins outs spy => exact absurd rfl (hnj _ _ _)
  rw [this, hbr]; exact hv

/-- **C77**: once an activity has ended, whatever somebody writes for it is refused. -/
theorem C77_closes (hc : c.connection = hopSets R) (hw : getWaiter c = .ok w) (hp : w.regulatorSettings order = .ok (cs, w')) (hC : Complete (R.map (·.2)))
    {τ₁ τ₂ : List (Who × Ev)} (hr : w'.RunWith cs bad cap (τ₁ ++ τ₂)) {ch : Nat} {g : Hop} (hg : (R.map (·.2))[ch]? = some g)
    (hd : ∀ t, w'.sysWith cs bad g.reader = some t → t.Done (proj g.reader τ₁)) : ∀ x ∈ τ₂, ∀ d, x.2 ≠ ⟨.send .data ch d, true⟩ := by
  have A := assembled hc hw hp
  have W := A.wired hC
  have hcl : (Kind.data, ch) ∈ closings (proj g.reader τ₁) := by
    obtain ⟨n, hn⟩ := A.readerNode hC (List.mem_of_getElem? hg)
    have hsn : .chan ch ∈ n.sources := (A.sources (r := g.to) hn ch).mpr (Or.inl ⟨g, hg, rfl⟩)
    cases hu : w'.unopened bad g.reader with
    | none => exact node_shuts (W.ok g.reader n hn) (hd _ (by simp [Waiter.sysWith, hu, sys_node (cs := cs) hn])) hsn
    | some t =>
      have hdn := hd t (by simp [Waiter.sysWith, hu])
      obtain ⟨r, hgr, _, _, ⟨hf, _⟩ | ⟨hdr, d, x, hk, rfl⟩⟩ := A.unopened hu
      · exfalso
        obtain ⟨pre, post, heq⟩ := List.append_of_mem (List.mem_of_getElem? hg)
        have hto : g.to = r := by simp only [Hop.reader, Who.part.injEq] at hgr; exact hgr.1
        have hto : g.dst.ty = .faucet := by rw [← hf, ← hto]; rfl
        have := (A.all _ _ _ heq).2.2.2
        unfold CanReceive at this
        rw [hto] at this
        exact this
      · have : w'.node g.reader = some (.relay x.pull {} none (drainPush d x (3 * w'.idOf r))) := by
          rw [hgr]; simp only [Waiter.node, hk, Comp.node]
        rw [hn] at this; cases this
        simp only [Node.sources, PullEnd.pull, Pull.source, Option.toList, List.mem_singleton, End.chan.injEq] at hsn
        rw [hsn]
        exact done_drops hdn (by simp [dropTask])
  obtain ⟨st, hst⟩ := Option.isSome_iff_exists.mp hr.exec.chans
  rw [List.map_append] at hst
  obtain ⟨s1, h1, h2⟩ := execAll_split hst
  have := shut_sent h2 (closing_closed_kind h1 hcl)
  intro x hx d hxe
  unfold sentOn at this
  rw [List.filterMap_eq_nil_iff] at this
  have := this x.2 (List.mem_map.mpr ⟨x, hx, rfl⟩)
  rw [hxe] at this
  simp [sentOf] at this

end
end Verif
