import Verif.Lemmas.RuntimeExit
/-!
# Properties C64, C65: what runs after `start` is the network of the hops, and it delivers

`Waiter.Run` is everything `start` runs, in any order: faucets, programs, junctions, buffers with their counts, regulators with their managers, drains. Programs and files do
what they like.
-/
namespace Verif
section
variable {c : Config} {R : Map Hop} {w w' : Waiter} {order : List (Str × Watch)} {cs : List Capture} {cap : Caps} {τ : List (Who × Ev)}

/-- **C64** Every channel has one writer and one reader, and no activity writes to itself. -/
theorem C64_wired (hc : c.connection = hopSets R) (hw : getWaiter c = .ok w) (hp : w.regulatorSettings order = .ok (cs, w')) (hC : Complete (R.map (·.2))) : w'.net.Wired :=
  (assembled hc hw hp).wired hC

/-- **C64** The channels between activities are: one for each hop, from the port of the component it leaves to the component it enters; and one in each buffer, from its input
part to its output part. There are no others. -/
theorem C64_edges (hc : c.connection = hopSets R) (hw : getWaiter c = .ok w) (hp : w.regulatorSettings order = .ok (cs, w')) (hC : Complete (R.map (·.2)))
    (a : Who) (ch : Nat) (b : Who) :
    w'.net.Edge a ch b ↔ (∃ h, (R.map (·.2))[ch]? = some h ∧ ¬ h.isExit ∧ a = h.writer ∧ b = h.reader) ∨
      (∃ x, Mentioned (R.map (·.2)) (.buffer, x) ∧ ch = R.length + w'.idOf (.buffer, x) ∧ a = .part (.buffer, x) .input ∧ b = .part (.buffer, x) .output) := by
  rw [(assembled hc hw hp).edges hC, List.length_map]

/-- **C64** Whatever runs is one of those components, or an exit part, the count of a buffer or a manager; the last three touch no channel for data but the exit parts each its
own. -/
theorem C64_others (hc : c.connection = hopSets R) (hw : getWaiter c = .ok w) (hp : w.regulatorSettings order = .ok (cs, w')) (hC : Complete (R.map (·.2)))
    (hr : w'.Run cs cap τ) {x : Who × Ev} (hx : x ∈ τ) {ch : Nat} (hq : x.2.q.on = some (.data, ch)) :
    (∃ a b, w'.net.Edge a ch b ∧ (x.1 = a ∨ x.1 = b)) ∨ ∃ h, (R.map (·.2))[ch]? = some h ∧ h.isExit ∧ (x.1 = h.writer ∨ x.1 = h.reader) := by
  have A := assembled hc hw hp
  have W := A.wired hC
  have hmem : x.2 ∈ proj x.1 τ := mem_proj.mpr hx
  have own : ∀ {n}, w'.node x.1 = some n → .chan ch ∈ n.sources ∨ .chan ch ∈ n.targets →
      (∃ a b, w'.net.Edge a ch b ∧ (x.1 = a ∨ x.1 = b)) ∨ ∃ h, (R.map (·.2))[ch]? = some h ∧ h.isExit ∧ (x.1 = h.writer ∨ x.1 = h.reader) := by
    intro n hn ho
    obtain ⟨r, p, k, hi, hm, hk, he, hkn⟩ := A.node_inv hn
    have hn' := hn
    rw [hi] at hn'
    have byHop : ∀ {h : Hop}, (R.map (·.2))[ch]? = some h → x.1 = h.writer ∨ x.1 = h.reader →
        (∃ a b, w'.net.Edge a ch b ∧ (x.1 = a ∨ x.1 = b)) ∨ ∃ h, (R.map (·.2))[ch]? = some h ∧ h.isExit ∧ (x.1 = h.writer ∨ x.1 = h.reader) := by
      intro h hh ho
      by_cases hx : h.isExit
      · exact Or.inr ⟨h, hh, hx, ho⟩
      · exact Or.inl ⟨_, _, (A.edges hC _ ch _).mpr (Or.inl ⟨h, hh, hx, rfl, rfl⟩), ho⟩
    have inner : r.1 = .buffer → ch = w'.chans + w'.idOf r → p = .input ∨ p = .output → ∃ a b, w'.net.Edge a ch b ∧ (x.1 = a ∨ x.1 = b) := by
      intro hr hch hp
      obtain ⟨ty, y⟩ := r
      simp only at hr
      subst hr
      refine ⟨_, _, (A.edges hC _ ch _).mpr (Or.inr ⟨y, hm, by rw [← A.chans]; exact hch, rfl, rfl⟩), ?_⟩
      rw [hi]
      rcases hp with rfl | rfl <;> simp
    rcases ho with ho | ho
    · rcases (A.sources hn' ch).mp ho with ⟨h, h1, h2⟩ | ⟨h1, h2, h3⟩
      · exact byHop h1 (Or.inr (by rw [hi, h2]))
      · exact Or.inl (inner h1 h3 (Or.inr h2))
    · rcases (A.targets hn' ch).mp ho with ⟨h, h1, h2⟩ | ⟨h1, h2, h3⟩
      · exact byHop h1 (Or.inl (by rw [hi, h2]))
      · exact Or.inl (inner h1 h3 (Or.inl h2))
  cases hn : w'.node x.1 with
  | some n =>
    refine own hn (node_within (W.ok _ n hn) (hr.exec.tasks x.1 _ (sys_node hn)) hmem hq)
  | none =>
    right
    cases hs : w'.sys cs x.1 with
    | none => exact absurd hs (hr.known x hx)
    | some t =>
      obtain ⟨g, g1, g2, g3⟩ := A.touches hC hs hn (hr.exec.tasks _ _ hs) _ hmem ch hq
      exact ⟨g, g1, g2, Or.inl g3⟩

/-- **C65**, at every moment: what has come through a hop is an initial segment of what the component it comes from has received; for programs, of what the program has written to
that output. -/
theorem C65_hop (hc : c.connection = hopSets R) (hw : getWaiter c = .ok w) (hp : w.regulatorSettings order = .ok (cs, w')) (hC : Complete (R.map (·.2)))
    (hr : w'.Run cs cap τ) {i : Nat} {h : Hop} (hi : (R.map (·.2))[i]? = some h) (hx : ¬ h.isExit) :
    receivedFrom (.chan i) (proj h.reader τ) <+: received (proj h.writer τ) := by
  have A := assembled hc hw hp
  obtain ⟨e, u⟩ := A.run hC hr
  exact (C55_channel (A.wired hC) e u ((A.edges hC _ i _).mpr (Or.inl ⟨h, hi, hx, rfl, rfl⟩))).1

/-- The output part of a buffer reads from its input part only. -/
theorem Assembled.outputSources {hs : List Hop} (A : Assembled c hs w) (hC : Complete hs) {x : Str} (hm : Mentioned hs (.buffer, x)) :
    ∃ n, w.net.node (.part (.buffer, x) .output) = some n ∧ n.sources = [.chan (w.chans + w.idOf (.buffer, x))] := by
  obtain ⟨i, o, m, hk⟩ := A.bufferNodes hC rfl hm
  exact ⟨.relay (.receiver ⟨0, 0⟩ (w.chans + w.idOf (.buffer, x))) { read := some (2 * w.idOf (.buffer, x) + 1) } none o.push, by simp only [Waiter.net, Waiter.node, hk, Comp.node], rfl⟩

/-- **C65**, at every moment: what a buffer has taken out is an initial segment of what it has taken in. -/
theorem C65_buffer (hc : c.connection = hopSets R) (hw : getWaiter c = .ok w) (hp : w.regulatorSettings order = .ok (cs, w')) (hC : Complete (R.map (·.2)))
    (hr : w'.Run cs cap τ) {x : Str} (hm : Mentioned (R.map (·.2)) (.buffer, x)) :
    received (proj (.part (.buffer, x) .output) τ) <+: received (proj (.part (.buffer, x) .input) τ) := by
  have A := assembled hc hw hp
  obtain ⟨e, u⟩ := A.run hC hr
  have W := A.wired hC
  have h1 := (C55_channel W e u ((A.edges hC _ _ _).mpr (Or.inr ⟨x, hm, rfl, rfl, rfl⟩))).1
  obtain ⟨n, hn, hs⟩ := A.outputSources hC hm
  rwa [receivedFrom_only (fun s' d hd => by
    have := (w'.net.conduct W e hn).got s' d hd
    rw [hs, A.chans] at this; simpa using this)] at h1

/-- Nothing fails outside. -/
theorem Assembled.inside {hs : List Hop} (A : Assembled c hs w) (hC : Complete hs) (hr : w.Run cs cap τ) (hf : ∀ i, ∀ f ∈ acts (proj i τ), f.trouble = false) :
    ∀ j n f, w.net.node j = some n → f ∈ acts (proj j τ) → ¬ w.net.Outside j f := by
  rintro j n f hn hm ⟨h1, h2⟩
  obtain ⟨e, u⟩ := A.run hC hr
  have W := A.wired hC
  have h3 := hf j f hm
  cases f with
  | offer t d wo =>
    cases t with
    | handle x => cases wo <;> simp [Act.trouble, Act.fails] at h1 h3
    | chan ch =>
      have ht := (w.net.conduct W e hn).to ⟨.chan ch, d, wo⟩ (mem_offers.mpr hm)
      obtain ⟨r, p, k, rfl, hme, _, _, hkn⟩ := A.node_inv hn
      rcases (A.targets hn ch).mp ht with ⟨h, g1, g2⟩ | ⟨g1, g2, g3⟩
      · refine h2 ch h.reader d wo ((A.edges hC _ ch _).mpr (Or.inl ⟨h, g1, ?_, g2.symm, rfl⟩)) rfl
        rintro ⟨hx1, hx2⟩
        have : p = .exit := by
          have := (Hop.writer_iff.mp g2).2
          rw [show r.1 = .launch by rw [← hx1, ← (Hop.writer_iff.mp g2).1]; rfl, hx2] at this
          exact this.symm
        subst this
        cases k <;> simp [Comp.node] at hkn
      · obtain ⟨ty, x⟩ := r
        simp only at g1
        subst g1
        exact h2 ch _ d wo ((A.edges hC _ ch _).mpr (Or.inr ⟨x, hme, by rw [← A.chans]; exact g3, by rw [g2], rfl⟩)) rfl
  | _ => simp [Act.trouble, Act.fails] at h1 h3 <;> (try (rw [h3] at h1; simp at h1))

theorem acceptedBy_all {tr : List Ev} {t : End} (h : ∀ o ∈ offers tr, o.w = .ok) : acceptedBy t tr = offeredTo t tr := by
  unfold acceptedBy offeredTo
  revert h
  induction offers tr with
  | nil => simp
  | cons o l ih => intro h; simp only [List.filterMap_cons, h o (by simp), and_true, ih fun o ho => h o (by simp [ho])]

/-- **C65**, in the end: when everything has ended and no file, stream or notification has failed, every hop has delivered everything. -/
theorem C65_complete (hc : c.connection = hopSets R) (hw : getWaiter c = .ok w) (hp : w.regulatorSettings order = .ok (cs, w')) (hC : Complete (R.map (·.2)))
    (hr : w'.Run cs cap τ) (ho : w'.Over cs τ) (hf : ∀ i, ∀ f ∈ acts (proj i τ), f.trouble = false) :
    (∀ i h, (R.map (·.2))[i]? = some h → ¬ h.isExit → receivedFrom (.chan i) (proj h.reader τ) = received (proj h.writer τ)) ∧
    (∀ x, Mentioned (R.map (·.2)) (.buffer, x) → received (proj (.part (.buffer, x) .output) τ) = received (proj (.part (.buffer, x) .input) τ)) ∧
    ∀ i n, w'.node i = some n → ∀ t ∈ n.targets, acceptedBy t (proj i τ) = received (proj i τ) := by
  have A := assembled hc hw hp
  obtain ⟨e, u⟩ := A.run hC hr
  have W := A.wired hC
  have O := A.inside hC hr hf
  have D : ∀ i n, w'.net.node i = some n → n.task.Done (proj i τ) := fun i n hn => ho i _ (sys_node hn)
  refine ⟨?_, ?_, ?_⟩
  · intro i h hi hx
    exact (C55_complete W e u O ((A.edges hC _ i _).mpr (Or.inl ⟨h, hi, hx, rfl, rfl⟩)) (D _) (D _)).1
  · intro x hm
    have h1 := (C55_complete W e u O ((A.edges hC _ _ _).mpr (Or.inr ⟨x, hm, rfl, rfl, rfl⟩)) (D _) (D _)).1
    obtain ⟨n, hn, hs⟩ := A.outputSources hC hm
    rwa [receivedFrom_only (fun s' d hd => by
      have := (w'.net.conduct W e hn).got s' d hd
      rw [hs, A.chans] at this; simpa using this)] at h1
  · intro i n hn t ht
    have nf := C55_no_failures W e u O i n
    have fin := node_finished (W.ok i n hn) (D i n hn) (fun f h => nf f hn h)
    rw [← fin.all t ht]
    exact acceptedBy_all fun o hom => by
      have := nf (.offer o.to o.d o.w) hn (mem_offers.mp hom)
      obtain ⟨_, _, wo⟩ := o
      cases wo <;> simp [Act.fails] at this ⊢

/-- **C65**, exit ports, at every moment: nothing has come through, or one message, the text of the program's exit status; it was sent after everything to and from the
program had ended. -/
theorem C65_exit (hc : c.connection = hopSets R) (hw : getWaiter c = .ok w) (hp : w.regulatorSettings order = .ok (cs, w')) (hC : Complete (R.map (·.2)))
    (hr : w'.Run cs cap τ) {i : Nat} {h : Hop} (hi : (R.map (·.2))[i]? = some h) (hx : h.isExit) :
    receivedFrom (.chan i) (proj h.reader τ) = [] ∨
    ∃ τ₁ τ₂ k s m, τ = τ₁ ++ τ₂ ∧ (∀ p ∈ relayPieces, ∀ t, w'.sys cs (.part h.from p) = some t → t.Done (proj (.part h.from p) τ₁)) ∧
      receivedFrom (.chan i) (proj h.reader τ₁) = [] ∧ receivedFrom (.chan i) (proj h.reader τ) = [m] ∧
      statuses (proj h.writer τ) = List.replicate k .err ++ [s] ∧ ExitText s m := by
  have A := assembled hc hw hp
  obtain ⟨hwr, hnn, e, hei, hse⟩ := A.exitSys (cs := cs) hi hx
  obtain ⟨F, _⟩ := A.exitFacts hC hr hi hx
  obtain ⟨k, s, m, b, hm, hpre⟩ := exit_partial (hr.exec.tasks _ _ hse)
  obtain ⟨st, hst⟩ := Option.isSome_iff_exists.mp hr.exec.chans
  have e1 := edge_prefix hst F.sent F.got
  have e2 := accepted_prefix hst i h.writer
  obtain ⟨rest, hrest⟩ := hpre
  have e3 : offeredTo (.chan i) (proj h.writer τ) ++ offeredTo (.chan i) rest = [m] := by
    rw [← offeredTo_append, hrest, ← hei]; exact script_offered e k s m b
  by_cases h0 : receivedFrom (.chan i) (proj h.reader τ) = []
  · exact Or.inl h0
  right
  have hoff : offeredTo (.chan i) (proj h.writer τ) = [m] ∧ offeredTo (.chan i) rest = [] := by
    rcases List.append_eq_singleton_iff.mp e3 with ⟨h1, _⟩ | h1
    · exfalso
      rw [h1, List.prefix_nil, e1, List.append_eq_nil_iff] at e2
      exact h0 e2.1
    · exact h1
  have hgot : receivedFrom (.chan i) (proj h.reader τ) = [m] := by
    have : receivedFrom (.chan i) (proj h.reader τ) <+: [m] := by
      rw [← hoff.1]
      exact (List.prefix_append _ _).trans (e1 ▸ e2)
    cases hl : receivedFrom (.chan i) (proj h.reader τ) with
    | nil => exact absurd hl h0
    | cons x l =>
      rw [hl] at this
      obtain ⟨y, hy⟩ := this
      simp at hy
      rw [hy.1, hy.2.1]
  -- the first event of the exit part
  cases htr : proj h.writer τ with
  | nil => rw [htr] at hoff; simp [offeredTo, offers, acts] at hoff
  | cons e0 tr =>
    obtain ⟨τ₁, τ₂, hτ, hu, _⟩ := proj_split (u := []) htr
    have hr1 : Execution cap (w'.sys cs) τ₁ := by have := hr.exec; rw [hτ] at this; exact this.prefix
    obtain ⟨st1, hst1⟩ := Option.isSome_iff_exists.mp hr1.chans
    refine ⟨τ₁, _, k, s, m, hτ, ?_, ?_, hgot, ?_, hm⟩
    · intro p hp t ht
      refine hr.exits τ₁ τ₂ h.from e0 ?_ p hp t ht
      rw [← hwr]; exact hτ
    · have e4 := edge_prefix hst1 (a := h.writer) (b := h.reader) (c := i) (fun x hx => F.sent x (by rw [hτ]; exact List.mem_append_left _ hx))
        (fun x hx => F.got x (by rw [hτ]; exact List.mem_append_left _ hx))
      rw [hu] at e4
      exact (List.append_eq_nil_iff.mp e4.symm).1
    · rw [← htr, ← script_statuses e k s m b, ← hrest]
      have := script_tail hrest (by rw [hei, hoff.1]; simp)
      rw [show statuses (proj h.writer τ ++ rest) = statuses (proj h.writer τ) ++ statuses rest by simp [statuses], this, List.append_nil]

/-- **C65**, exit ports, in the end: exactly one message has come through, the text of the program's exit status. -/
theorem C65_exit_complete (hc : c.connection = hopSets R) (hw : getWaiter c = .ok w) (hp : w.regulatorSettings order = .ok (cs, w')) (hC : Complete (R.map (·.2)))
    (hr : w'.Run cs cap τ) (ho : w'.Over cs τ) (hf : ∀ i, ∀ f ∈ acts (proj i τ), f.trouble = false)
    {i : Nat} {h : Hop} (hi : (R.map (·.2))[i]? = some h) (hx : h.isExit) :
    ∃ k s m, receivedFrom (.chan i) (proj h.reader τ) = [m] ∧ statuses (proj h.writer τ) = List.replicate k .err ++ [s] ∧ ExitText s m := by
  have A := assembled hc hw hp
  obtain ⟨E, U⟩ := A.run hC hr
  have W := A.wired hC
  obtain ⟨hwr, hnn, e, hei, hse⟩ := A.exitSys (cs := cs) hi hx
  obtain ⟨F, n, hn, hsn⟩ := A.exitFacts hC hr hi hx
  obtain ⟨k, s, m, b, hm, htr⟩ := exit_done (ho _ _ hse)
  obtain ⟨st, hst⟩ := Option.isSome_iff_exists.mp hr.exec.chans
  have nf := C55_no_failures W E U (A.inside hC hr hf) h.reader n
  have fin := node_finished (W.ok h.reader n hn) (ho _ _ (sys_node hn)) (fun f h => nf f hn h)
  have := (edge_complete hst F.on F.writer F.reader F.sent F.got (fin.ended _ hsn)).2.1
  refine ⟨k, s, m, ?_, ?_, hm⟩
  · rw [this, htr, ← hei]; exact script_offered e k s m b
  · rw [htr]; exact script_statuses e k s m b

end
end Verif
