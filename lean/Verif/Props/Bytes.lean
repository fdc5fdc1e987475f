import Verif.Props.ExitExample
import Verif.Props.Split
import Verif.Model.Source
import Verif.Lemmas.Decimal
/-!
# Property C78: bytes go through unchanged

From the chunks that the operating system delivers to what is written: what a drain, or a program, is given is a mixture of the lines of the streams that lead there; where only one
leads there, it is the bytes of that stream. How the streams come in chunks does not matter.
-/
namespace Verif

/-- What the stream a hop begins at has delivered, and will deliver, in whatever chunks; or, for an exit port, the text of the exit status. -/
def Waiter.Supplies (w : Waiter) (τ : List (Who × Ev)) (h : Hop) (bs : Bytes) : Prop :=
  (∃ s chunks, h.stream w.idOf = some s ∧ (∀ x ∈ chunks, x ≠ []) ∧ chunks.flatten = bs ∧ ReadsFrom s chunks (proj h.writer τ)) ∨
  h.isExit ∧ ∀ s ∈ statuses (proj h.writer τ), s ≠ .err → ExitText s bs

/-- These hops bring, directly or through junctions, buffers and regulators, what comes out of the streams and exit ports that these hops begin at. -/
inductive Config.Brings (c : Config) : List (Str × Nat) → List Hop → Prop
  | none : c.Brings [] []
  | stream {b : Str} {i : Nat} {h : Hop} {L : List (Str × Nat)} {S : List Hop} : c.HopOf b i h → (h.src.ty = .faucet ∨ h.src.ty = .launch) → c.Brings L S →
      c.Brings ((b, i) :: L) (h :: S)
  | through {b : Str} {i : Nat} {h : Hop} {L' L : List (Str × Nat)} {S' S : List Hop} : c.HopOf b i h → h.src.ty ≠ .faucet → h.src.ty ≠ .launch → c.Into ⟨h.src.ty, h.src.name⟩ L' → L' ≠ [] →
      c.Brings L' S' → c.Brings L S → c.Brings ((b, i) :: L) (S' ++ S)

/-! ## Streams -/

theorem receivedFrom_answers (s : Nat) (tr : List Ev) : receivedFrom (.handle s) tr = (answers s tr).filterMap fun | .line d => some d | _ => none := by
  induction tr with
  | nil => rfl
  | cons e tr ih =>
    obtain ⟨q, r⟩ := e
    by_cases hq : ∃ h', q = .streamRead h'
    · obtain ⟨h', rfl⟩ := hq
      have e1 : answers s (⟨.streamRead h', r⟩ :: tr) = if h' = s then r :: answers s tr else answers s tr := by
        simp only [answers, List.filterMap_cons]
        split <;> simp_all
      rw [e1]
      cases r with
      | line d =>
        rw [receivedFrom_cons_got (s' := .handle h') (d := d) rfl]
        by_cases hs : h' = s
        · simp [hs, ih]
        · simp [hs, ih]
      | eof => rw [receivedFrom_cons_other (by simp [act]), ih]; split <;> simp
      | err n => rw [receivedFrom_cons_other (by simp [act]), ih]; split <;> simp
    · have e1 : answers s (⟨q, r⟩ :: tr) = answers s tr := by
        simp only [answers, List.filterMap_cons]
        split
        · rfl
        · next h =>
          split at h
          · next heq => exact absurd ⟨_, (congrArg Ev.q heq)⟩ hq
          · cases h
      have e2 : receivedFrom (.handle s) (⟨q, r⟩ :: tr) = receivedFrom (.handle s) tr := by
        by_cases hg : ∃ s' d, act ⟨q, r⟩ = .got s' d
        · obtain ⟨s', d, hg⟩ := hg
          rw [receivedFrom_cons_got hg, if_neg]
          rintro rfl
          cases q with
          | streamRead h => exact hq ⟨h, rfl⟩
          | recv k c => cases k <;> cases r <;> simp [act] at hg
          | tryRecv k c => cases k <;> cases r <;> simp [act] at hg
          | send k c v => cases k <;> simp [act] at hg
          | ioWrite h d => cases r <;> simp [act] at hg
          | _ => simp [act] at hg
        · exact receivedFrom_cons_other fun s' d h => hg ⟨s', d, h⟩
      rw [e1, e2, ih]

theorem mem_answers {s : Nat} {r : StreamRes} {tr : List Ev} : r ∈ answers s tr ↔ (⟨.streamRead s, r⟩ : Ev) ∈ tr := by
  unfold answers
  rw [List.mem_filterMap]
  constructor
  · rintro ⟨e, he, h⟩
    split at h
    · next h' r' =>
      split at h
      · next hs => subst hs; cases h; exact he
      · cases h
    · cases h
  · intro h
    exact ⟨_, h, by simp⟩

theorem ended_answers {s : Nat} {tr : List Ev} (h : Act.ended (.handle s) ∈ acts tr) : StreamRes.eof ∈ answers s tr := by
  obtain ⟨e, he, h⟩ := List.mem_map.mp h
  rw [mem_answers]
  obtain ⟨q, r⟩ := e
  cases q with
  | streamRead h' => cases r <;> simp [act] at h; subst h; exact he
  | recv k c => cases k <;> cases r <;> simp [act] at h
  | tryRecv k c => cases k <;> cases r <;> simp [act] at h
  | send k c v => cases k <;> simp [act] at h
  | ioWrite h d => cases r <;> simp [act] at h
  | _ => simp [act] at h

theorem lines_flatten (bs : Bytes) : (specLines bs).flatten = bs := (specLines_isLinesOf bs).1

/-- What has been received from a stream is the beginning of its lines; if its end has been seen, all of them. -/
theorem ReadsFrom.lines {s : Nat} {chunks : List Bytes} {tr : List Ev} (h : ReadsFrom s chunks tr) (hc : ∀ x ∈ chunks, x ≠ []) :
    receivedFrom (.handle s) tr <+: specLines chunks.flatten ∧ (Act.ended (.handle s) ∈ acts tr → receivedFrom (.handle s) tr = specLines chunks.flatten) := by
  unfold ReadsFrom at h
  rw [show chunks.map ReadEvent.data = chunkScript chunks from rfl, C01_messages_are_the_lines chunks hc] at h
  rw [receivedFrom_answers]
  generalize hk : (answers s tr).length = k at h
  have key : ∀ (ls : List Bytes) (j k : Nat), (((ls.map msg ++ List.replicate j eof).take k).map readAnswer).filterMap (fun | .line d => some d | _ => none) = ls.take k := by
    intro ls j
    induction ls with
    | nil =>
      intro k
      simp only [List.map_nil, List.nil_append, List.take_nil, List.filterMap_eq_nil_iff, List.mem_map]
      rintro a ⟨x, hx, rfl⟩
      rw [(List.mem_replicate.mp (List.mem_of_mem_take hx)).2]
      rfl
    | cons l ls ih =>
      intro k
      cases k with
      | zero => simp
      | succ k =>
        simp only [List.map_cons, List.cons_append, List.take_succ_cons]
        exact congrArg (l :: ·) (ih k)
  have h1 : (answers s tr).filterMap (fun | .line d => some d | _ => none) = (specLines chunks.flatten).take k := by
    conv => lhs; rw [h]
    exact key _ _ _
  rw [h1]
  refine ⟨List.take_prefix _ _, fun he => List.take_of_length_le ?_⟩
  have he := ended_answers he
  rw [h] at he
  obtain ⟨x, hx, e⟩ := List.mem_map.mp he
  apply Decidable.byContradiction
  intro hlt
  rw [List.take_append_of_le_length (by rw [List.length_map]; omega), ← List.map_take] at hx
  obtain ⟨l, _, rfl⟩ := List.mem_map.mp hx
  cases e

/-! ## Components of the user's among those that run -/

theorem Laid.leaves {c : Config} {M R R' : Map Hop} {S : List SIns} {E : List EIns} {T : List Spy} (P : Laid c M R R' S E T) {b : Str} {i : Nat} {h : Hop} (hh : c.HopOf b i h) :
    ∃ g ∈ R'.map (·.2), g.src = h.src := by
  obtain ⟨h', q1, q2, _⟩ := P.ins.old _ _ ((P.hops _ _).mpr ⟨b, i, hh, (counted_iff (by omega) _).mpr rfl⟩)
  rcases newSrc_cases S h.src with ⟨x, hx, e1, e2⟩ | ⟨_, e2⟩
  · obtain ⟨_, _, q⟩ := P.ins.starts x hx
    exact ⟨_, (lists_map P.sorted' _).mpr ⟨_, P.kept _ _ q⟩, e1⟩
  · exact ⟨h', (lists_map P.sorted' _).mpr ⟨_, P.kept _ _ q1⟩, q2.trans e2⟩

theorem Laid.enters {c : Config} {M R R' : Map Hop} {S : List SIns} {E : List EIns} {T : List Spy} (P : Laid c M R R' S E T) {b : Str} {i : Nat} {h : Hop} (hh : c.HopOf b i h) :
    ∃ g ∈ R'.map (·.2), g.dst = h.dst := by
  obtain ⟨h', q1, _, q2, _⟩ := P.ins.old _ _ ((P.hops _ _).mpr ⟨b, i, hh, (counted_iff (by omega) _).mpr rfl⟩)
  rcases newDst_cases E h.dst with ⟨x, hx, e1, e2⟩ | ⟨_, e2⟩
  · obtain ⟨_, _, q⟩ := P.ins.ends x hx
    exact ⟨_, (lists_map P.sorted' _).mpr ⟨_, P.kept _ _ q⟩, e1⟩
  · exact ⟨h', (lists_map P.sorted' _).mpr ⟨_, P.kept _ _ q1⟩, q2.trans e2⟩

theorem stream_src {h h' : Hop} (e : h.src = h'.src) (id : CompRef → Nat) : h.stream id = h'.stream id := by
  simp only [Hop.stream, Hop.from, e]

theorem stream_some {h : Hop} {id : CompRef → Nat} (hs : h.src.ty = .faucet ∨ h.src.ty = .launch ∧ h.src.port ≠ .exit) : ∃ s, h.stream id = some s := by
  rcases hs with h1 | ⟨h1, h2⟩
  · exact ⟨_, by simp only [Hop.stream, h1]; rfl⟩
  · cases h3 : h.src.port <;> simp [Hop.stream, h1, h3] at h2 ⊢

/-- What processing leaves of the drains: all. -/
theorem manipulate_drain {c c' : Config} (hn : c.connection.keys.Nodup) (hg : ∀ b d, (b, d) ∈ c.connection → d.Good) {perm : List OutRef → List OutRef} {perm' : List InRef → List InRef}
    {spyOrder : List Str → List Str} {printed : List Str} (hp : ∀ l, (perm l).Perm l) (hp' : ∀ l, (perm' l).Perm l) (ho : ∀ l, (spyOrder l).Perm l)
    (h : manipulate perm perm' spyOrder c = some (c', printed)) {n : Str} (hd : n ∈ c.drain.keys) : c'.drain.get n = c.drain.get n := by
  obtain ⟨ws, M, h1, h2, h3, _⟩ := paired c.connection hn hg
  obtain ⟨S, E, R, h5, hI, _⟩ := addJunctions_inserted h3 hp hp'
  obtain ⟨T, R', drain', q1, _, _, _, _, _, _, q8, _, _, _, q12⟩ := spies_added { c with connection := conns R } R rfl hI.sorted ho
  simp only [manipulate, h1, h2, h5, Option.some.injEq] at h
  have : c' = (addSpies { c with connection := conns R } (spyOrder (requiredSpies (conns R)))).1 := by rw [h]
  rw [this, q1]
  exact q12 n fun t ht e => q8 t ht (e ▸ hd)

section
variable {c c' : Config} {hs : List Hop} {perm : List OutRef → List OutRef} {perm' : List InRef → List InRef} {spyOrder : List Str → List Str} {printed : List Str}
  {w w' : Waiter} {order : List (Str × Watch)} {cs : List Capture} {cap : Caps} {τ : List (Who × Ev)}

/-- The part of a component of the user's that hops leave from has received what came in, perhaps not all yet. -/
theorem passes (hS : c.Sound hs) (hp : ∀ l, (perm l).Perm l) (hp' : ∀ l, (perm' l).Perm l) (ho : ∀ l, (spyOrder l).Perm l)
    (hm : manipulate perm perm' spyOrder c = some (c', printed)) (hw : getWaiter c' = .ok w) (hq : w.regulatorSettings order = .ok (cs, w')) (hr : w'.Run cs cap τ)
    {b b' : Str} {i i' : Nat} {h g : Hop} (hh : c.HopOf b i h) (hg : c.HopOf b' i' g) (e : g.dst = ⟨h.src.ty, h.src.name⟩) (h1 : h.src.ty ≠ .faucet) (h2 : h.src.ty ≠ .launch) :
    received (proj h.writer τ) <+: received (proj g.reader τ) ∧
    (w'.Over cs τ → (∀ i, ∀ f ∈ acts (proj i τ), f.trouble = false) → received (proj h.writer τ) = received (proj g.reader τ)) := by
  by_cases hb : h.src.ty = .buffer
  · obtain ⟨M, R, R', S, E, T, drain', printed', k1, P, k3⟩ := hS.laid hp hp' ho
    rw [hm] at k1
    cases k1
    have hC := P.complete hS.hops hS.complete
    obtain ⟨g', hg', e'⟩ := P.leaves hh
    have hM : Mentioned (R'.map (·.2)) (.buffer, h.src.name) := ⟨g', hg', Or.inl (by simp only [Hop.from, e', hb])⟩
    have ew : h.writer = .part (.buffer, h.src.name) .output := by simp only [Hop.writer, Hop.from, hb]
    have er : g.reader = .part (.buffer, h.src.name) .input := by simp only [Hop.reader, Hop.to, e, hb]
    rw [ew, er]
    exact ⟨C65_buffer rfl hw hq hC hr hM, fun hov hf => (C65_complete rfl hw hq hC hr hov hf).2.1 _ hM⟩
  · have : h.writer = g.reader := by
      simp only [Hop.writer, Hop.reader, Hop.from, Hop.to, e]
    rw [this]
    exact ⟨List.prefix_refl _, fun _ _ => rfl⟩

/-- What came from a stream. -/
theorem supplied (hS : c.Sound hs) (hp : ∀ l, (perm l).Perm l) (hp' : ∀ l, (perm' l).Perm l) (ho : ∀ l, (spyOrder l).Perm l)
    (hm : manipulate perm perm' spyOrder c = some (c', printed)) (hw : getWaiter c' = .ok w) (hq : w.regulatorSettings order = .ok (cs, w')) (hr : w'.Run cs cap τ)
    {b : Str} {i : Nat} {h : Hop} (hh : c.HopOf b i h) (hx : ¬ h.isExit) {bs : Bytes} (hb : w'.Supplies τ h bs) :
    received (proj h.writer τ) <+: specLines bs ∧
    (w'.Over cs τ → (∀ i, ∀ f ∈ acts (proj i τ), f.trouble = false) → received (proj h.writer τ) = specLines bs) := by
  rcases hb with ⟨s, chunks, h1, h2, rfl, h3⟩ | ⟨hb, _⟩
  case inr => exact absurd hb hx
  obtain ⟨M, R, R', S, E, T, drain', printed', k1, P, k3⟩ := hS.laid hp hp' ho
  rw [hm] at k1
  cases k1
  have hC := P.complete hS.hops hS.complete
  have A := assembled rfl hw hq
  obtain ⟨g, hg, e⟩ := P.leaves hh
  obtain ⟨n, hn, hsrc⟩ := A.writerStream hg (s := s) (by rw [stream_src e]; exact h1)
  rw [writer_src e] at hn
  obtain ⟨ex, u⟩ := A.run hC hr
  have Q := w'.net.conduct (A.wired hC) ex hn
  have only : receivedFrom (.handle s) (proj h.writer τ) = received (proj h.writer τ) := receivedFrom_only fun s' d hd => by
    have := Q.got s' d hd
    rw [hsrc] at this; simpa using this
  obtain ⟨q1, q2⟩ := h3.lines h2
  rw [only] at q1 q2
  refine ⟨q1, fun hov hf => q2 ?_⟩
  have W := A.wired hC
  have nf := C55_no_failures W ex u (A.inside hC hr hf)
  have fin := node_finished (W.ok h.writer n hn) (hov h.writer _ (sys_node hn)) fun f hf => nf h.writer n f hn hf
  exact fin.ended _ (by rw [hsrc]; simp)

/-- What came from an exit port. -/
theorem noted {h : Hop} {bs : Bytes} {ms : List Bytes} (hx : h.isExit) (hb : w'.Supplies τ h bs) (hn : ExitNote (proj h.writer τ) ms) : ms = specLines bs := by
  obtain ⟨k, s, m, rfl, hs, hm⟩ := hn
  rcases hb with ⟨s', _, h1, _⟩ | ⟨_, hb⟩
  · simp [Hop.stream, hx.1, hx.2] at h1
  · have := hb s (by rw [hs]; simp) (by rintro rfl; exact hm)
    rw [hm.unique this, this.line]

/-- What the hops of a list have brought at any time. -/
theorem brought {over : Str → Nat → List Bytes} (hS : c.Sound hs) (hp : ∀ l, (perm l).Perm l) (hp' : ∀ l, (perm' l).Perm l) (ho : ∀ l, (spyOrder l).Perm l)
    (hm : manipulate perm perm' spyOrder c = some (c', printed)) (hw : getWaiter c' = .ok w) (hq : w.regulatorSettings order = .ok (cs, w')) (hr : w'.Run cs cap τ)
    (o1 : ∀ b i h, c.HopOf b i h → ¬ h.isExit → over b i <+: received (proj h.writer τ))
    (ox : ∀ b i h, c.HopOf b i h → h.isExit → over b i = [] ∨ ExitNote (proj h.writer τ) (over b i))
    (o2 : ∀ b i h L, c.HopOf b i h → c.Into h.dst L → ∃ l, received (proj h.reader τ) <+: l ∧ Mix (L.map fun x => over x.1 x.2) l)
    {B : Hop → Bytes} {L : List (Str × Nat)} {S : List Hop} (hB : c.Brings L S) (hs' : ∀ g ∈ S, w'.Supplies τ g (B g)) :
    ∃ Ss : List (List (List Bytes)), Ss.length = L.length ∧ (∀ (j : Nat) Q x, Ss[j]? = some Q → (L.map fun x => over x.1 x.2)[j]? = some x → Mix Q x) ∧
      EachBegins Ss.flatten (S.map fun g => specLines (B g)) := by
  induction hB with
  | none => exact ⟨[], rfl, by simp, .nil⟩
  | @stream b i h L S hh hsrc _ ih =>
    obtain ⟨Ss, q1, q2, q3⟩ := ih fun g hg => hs' g (by simp [hg])
    refine ⟨[over b i] :: Ss, by simp [q1], ?_, ?_⟩
    · intro j Q x h1 h2
      cases j with
      | zero =>
        simp only [List.map_cons, List.getElem?_cons_zero, Option.some.injEq] at h1 h2
        subst h1 h2
        exact Mix.single_iff.mpr rfl
      | succ j =>
        simp only [List.map_cons, List.getElem?_cons_succ] at h1 h2
        exact q2 j Q x h1 h2
    · refine .cons ?_ q3
      by_cases hne : h.isExit
      · rcases ox b i h hh hne with h0 | h0
        · rw [h0]; exact List.nil_prefix
        · rw [noted hne (hs' h (by simp)) h0]; exact List.prefix_refl _
      · exact (o1 b i h hh hne).trans (supplied hS hp hp' ho hm hw hq hr hh hne (hs' h (by simp))).1
  | @through b i h L' L S' S hh n1 n2 hI hne _ _ ih' ih =>
    obtain ⟨Ss, q1, q2, q3⟩ := ih fun g hg => hs' g (by simp [hg])
    obtain ⟨Ss', q1', q2', q3'⟩ := ih' fun g hg => hs' g (by simp [hg])
    obtain ⟨⟨b', i'⟩, hx⟩ := List.exists_mem_of_ne_nil _ hne
    obtain ⟨g, hg, e⟩ := (hI.2 b' i').mp hx
    obtain ⟨l, k1, k2⟩ := o2 b' i' g L' hg (by rw [e]; exact hI)
    have k3 := k2.join (Ss := Ss') (by simp [q1']) q2'
    have hx : ¬ h.isExit := fun a => n2 a.1
    obtain ⟨ms, k4, k5⟩ := k3.begin (((o1 b i h hh hx).trans (passes hS hp hp' ho hm hw hq hr hh hg e n1 n2).1).trans k1)
    refine ⟨ms :: Ss, by simp [q1], ?_, ?_⟩
    · intro j Q x h1 h2
      cases j with
      | zero =>
        simp only [List.map_cons, List.getElem?_cons_zero, Option.some.injEq] at h1 h2
        subst h1 h2
        exact k5
      | succ j =>
        simp only [List.map_cons, List.getElem?_cons_succ] at h1 h2
        exact q2 j Q x h1 h2
    · rw [List.flatten_cons, List.map_append]
      exact (k4.trans q3').append q3

/-- What the hops of a list have brought in the end. -/
theorem brought_all {over : Str → Nat → List Bytes} (hS : c.Sound hs) (hp : ∀ l, (perm l).Perm l) (hp' : ∀ l, (perm' l).Perm l) (ho : ∀ l, (spyOrder l).Perm l)
    (hm : manipulate perm perm' spyOrder c = some (c', printed)) (hw : getWaiter c' = .ok w) (hq : w.regulatorSettings order = .ok (cs, w')) (hr : w'.Run cs cap τ)
    (hov : w'.Over cs τ) (hf : ∀ i, ∀ f ∈ acts (proj i τ), f.trouble = false)
    (o1 : ∀ b i h, c.HopOf b i h → ¬ h.isExit → over b i = received (proj h.writer τ)) (ox : ∀ b i h, c.HopOf b i h → h.isExit → ExitNote (proj h.writer τ) (over b i))
    (o2 : ∀ b i h L, c.HopOf b i h → c.Into h.dst L → Mix (L.map fun x => over x.1 x.2) (received (proj h.reader τ)))
    {B : Hop → Bytes} {L : List (Str × Nat)} {S : List Hop} (hB : c.Brings L S) (hs' : ∀ g ∈ S, w'.Supplies τ g (B g)) :
    ∃ Ss : List (List (List Bytes)), Ss.length = L.length ∧ (∀ (j : Nat) Q x, Ss[j]? = some Q → (L.map fun x => over x.1 x.2)[j]? = some x → Mix Q x) ∧
      Ss.flatten = S.map fun g => specLines (B g) := by
  induction hB with
  | none => exact ⟨[], rfl, by simp, rfl⟩
  | @stream b i h L S hh hsrc _ ih =>
    obtain ⟨Ss, q1, q2, q3⟩ := ih fun g hg => hs' g (by simp [hg])
    refine ⟨[over b i] :: Ss, by simp [q1], ?_, ?_⟩
    · intro j Q x h1 h2
      cases j with
      | zero =>
        simp only [List.map_cons, List.getElem?_cons_zero, Option.some.injEq] at h1 h2
        subst h1 h2
        exact Mix.single_iff.mpr rfl
      | succ j =>
        simp only [List.map_cons, List.getElem?_cons_succ] at h1 h2
        exact q2 j Q x h1 h2
    · have : over b i = specLines (B h) := by
        by_cases hne : h.isExit
        · exact noted hne (hs' h (by simp)) (ox b i h hh hne)
        · rw [o1 b i h hh hne, (supplied hS hp hp' ho hm hw hq hr hh hne (hs' h (by simp))).2 hov hf]
      rw [List.flatten_cons, q3, this]
      rfl
  | @through b i h L' L S' S hh n1 n2 hI hne _ _ ih' ih =>
    obtain ⟨Ss, q1, q2, q3⟩ := ih fun g hg => hs' g (by simp [hg])
    obtain ⟨Ss', q1', q2', q3'⟩ := ih' fun g hg => hs' g (by simp [hg])
    obtain ⟨⟨b', i'⟩, hx⟩ := List.exists_mem_of_ne_nil _ hne
    obtain ⟨g, hg, e⟩ := (hI.2 b' i').mp hx
    have k3 := (o2 b' i' g L' hg (by rw [e]; exact hI)).join (Ss := Ss') (by simp [q1']) q2'
    have hx : ¬ h.isExit := fun a => n2 a.1
    rw [← (passes hS hp hp' ho hm hw hq hr hh hg e n1 n2).2 hov hf, ← o1 b i h hh hx] at k3
    refine ⟨Ss'.flatten :: Ss, by simp [q1], ?_, ?_⟩
    · intro j Q x h1 h2
      cases j with
      | zero =>
        simp only [List.map_cons, List.getElem?_cons_zero, Option.some.injEq] at h1 h2
        subst h1 h2
        exact k3
      | succ j =>
        simp only [List.map_cons, List.getElem?_cons_succ] at h1 h2
        exact q2 j Q x h1 h2
    · rw [List.flatten_cons, List.map_append, q3, q3']

/-! ## The property -/

/-- **C78** At all times: what a component has taken in is a mixture of beginnings of the lines of the streams that lead there, each line unbroken. -/
theorem C78_taken (hS : c.Sound hs) (hp : ∀ l, (perm l).Perm l) (hp' : ∀ l, (perm' l).Perm l) (ho : ∀ l, (spyOrder l).Perm l)
    (hm : manipulate perm perm' spyOrder c = some (c', printed)) (hw : getWaiter c' = .ok w) (hq : w.regulatorSettings order = .ok (cs, w')) (hr : w'.Run cs cap τ)
    {b : Str} {i : Nat} {h : Hop} {L : List (Str × Nat)} {S : List Hop} {B : Hop → Bytes} (hh : c.HopOf b i h) (hI : c.Into h.dst L) (hB : c.Brings L S)
    (hs' : ∀ g ∈ S, w'.Supplies τ g (B g)) :
    ∃ ls, EachBegins ls (S.map fun g => specLines (B g)) ∧ Mix ls (received (proj h.reader τ)) := by
  obtain ⟨over, o1, ox, o3⟩ := C71_conveys hS hp hp' ho hm hw hq hr
  obtain ⟨Ss, q1, q2, q3⟩ := brought hS hp hp' ho hm hw hq hr o1 ox o3 hB hs'
  obtain ⟨l, k1, k2⟩ := o3 b i h L hh hI
  obtain ⟨ms, k4, k5⟩ := (k2.join (Ss := Ss) (by simp [q1]) q2).begin k1
  exact ⟨ms, k4.trans q3, k5⟩

/-- **C78** In the end, if no file, stream or notification fails: what a component has taken in is a mixture of all the lines of the streams that lead there. -/
theorem C78_taken_all (hS : c.Sound hs) (hp : ∀ l, (perm l).Perm l) (hp' : ∀ l, (perm' l).Perm l) (ho : ∀ l, (spyOrder l).Perm l)
    (hm : manipulate perm perm' spyOrder c = some (c', printed)) (hw : getWaiter c' = .ok w) (hq : w.regulatorSettings order = .ok (cs, w')) (hr : w'.Run cs cap τ)
    (hov : w'.Over cs τ) (hf : ∀ i, ∀ f ∈ acts (proj i τ), f.trouble = false)
    {b : Str} {i : Nat} {h : Hop} {L : List (Str × Nat)} {S : List Hop} {B : Hop → Bytes} (hh : c.HopOf b i h) (hI : c.Into h.dst L) (hB : c.Brings L S)
    (hs' : ∀ g ∈ S, w'.Supplies τ g (B g)) :
    Mix (S.map fun g => specLines (B g)) (received (proj h.reader τ)) := by
  obtain ⟨over, o1, ox, o3⟩ := C71_delivers hS hp hp' ho hm hw hq hr hov hf
  obtain ⟨Ss, q1, q2, q3⟩ := brought_all hS hp hp' ho hm hw hq hr hov hf o1 ox o3 hB hs'
  rw [← q3]
  exact (o3 b i h L hh hI).join (Ss := Ss) (by simp [q1]) q2

/-- Programs have an input to write to, and drains a file unless it is `/dev/null`. -/
theorem Assembled.readerTarget {c : Config} {hs : List Hop} {w : Waiter} (A : Assembled c hs w) {h : Hop} (hh : h ∈ hs) {n : Node} (hn : w.net.node h.reader = some n)
    (ht : h.dst.ty = .launch ∨ h.dst.ty = .drain ∧ c.drain.get h.dst.name ≠ some "/dev/null".toList) : .handle (3 * w.idOf h.to) ∈ n.targets := by
  have hm : Mentioned hs h.to := ⟨h, hh, Or.inr rfl⟩
  obtain ⟨k, hk, he⟩ := A.comps h.to hm
  have hty : h.to.1 = h.dst.ty := rfl
  obtain ⟨o, ho⟩ := A.hasTo ⟨h, hh, rfl⟩
  rcases ht with hr | ⟨hr, hd⟩
  · rw [expected_launch _ _ _ _ (by rw [hty, hr])] at he
    rw [plain_launch he, ho] at hk
    have hn' : w.net.node h.reader = some (.relay o.pull {} none (.io ⟨o.src, none, w.idOf h.to, .finish⟩ (3 * w.idOf h.to))) := by
      simp only [Waiter.net, Hop.reader, hr, Waiter.node, hk, Comp.node, LaunchEnds.pipe, LaunchEnds.toInput, relayNode, PullEnd.pull]; rfl
    rw [hn] at hn'
    cases hn'
    simp [Node.targets, Push.target]
  · rw [expected_drain _ _ _ _ (by rw [hty, hr])] at he
    rw [plain_drain he, ho] at hk
    have hn' : w.net.node h.reader = some (.relay o.pull {} none (drainPush ((c.drain.get h.to.2).getD []) o (3 * w.idOf h.to))) := by
      simp only [Waiter.net, Hop.reader, hr, Waiter.node, hk, Comp.node]
    rw [hn] at hn'
    cases hn'
    have hne : (c.drain.get h.to.2).getD [] ≠ "/dev/null".toList := by
      change c.drain.get h.to.2 ≠ _ at hd
      cases hg : c.drain.get h.to.2 with
      | none => intro hx; exact absurd hx (by decide +kernel)
      | some v => rw [hg] at hd; intro hx; exact hd (by rw [← hx]; rfl)
    rw [drainPush, if_neg hne]
    simp [Node.targets, Push.target]

/-- The bytes that were to be written to a stream or file. -/
def bytesTo (x : Nat) (tr : List Ev) : Bytes := (offeredTo (.handle x) tr).flatten

/-- The bytes that have been written to a stream or file. -/
def bytesIn (x : Nat) (tr : List Ev) : Bytes := (acceptedBy (.handle x) tr).flatten

theorem each_single {α : Type} {ls : List (List α)} {a : List α} (h : EachBegins ls [a]) : ∃ b, ls = [b] ∧ b <+: a := by
  cases h with
  | cons h1 h2 => cases h2; exact ⟨_, rfl, h1⟩

theorem flatten_prefix {a b : List Bytes} (h : a <+: b) : a.flatten <+: b.flatten := by
  obtain ⟨t, rfl⟩ := h
  rw [List.flatten_append]
  exact List.prefix_append _ _

/-- What a drain or a program is given to write is the beginning of what it has taken in; in the end all of it, if there is anything to write to. -/
theorem given_taken (hS : c.Sound hs) (hp : ∀ l, (perm l).Perm l) (hp' : ∀ l, (perm' l).Perm l) (ho : ∀ l, (spyOrder l).Perm l)
    (hm : manipulate perm perm' spyOrder c = some (c', printed)) (hw : getWaiter c' = .ok w) (hq : w.regulatorSettings order = .ok (cs, w')) (hr : w'.Run cs cap τ)
    {b : Str} {i : Nat} {h : Hop} (hh : c.HopOf b i h) (ht : h.dst.ty = .launch ∨ h.dst.ty = .drain) :
    (∀ o ∈ offers (proj h.reader τ), o.to = .handle (3 * w'.idOf h.to)) ∧ offeredTo (.handle (3 * w'.idOf h.to)) (proj h.reader τ) <+: received (proj h.reader τ) ∧
    (w'.Over cs τ → (∀ i, ∀ f ∈ acts (proj i τ), f.trouble = false) → h.dst.ty = .launch ∨ c.drain.get h.dst.name ≠ some "/dev/null".toList →
      acceptedBy (.handle (3 * w'.idOf h.to)) (proj h.reader τ) = received (proj h.reader τ)) := by
  have hd := fun hk => manipulate_drain hS.names hS.good hp hp' ho hm (n := h.dst.name) (hS.drains b i h hh hk)
  obtain ⟨M, R, R', S, E, T, drain', printed', k1, P, k3⟩ := hS.laid hp hp' ho
  rw [hm] at k1
  cases k1
  have hC := P.complete hS.hops hS.complete
  have A := assembled rfl hw hq
  obtain ⟨g', hg', e⟩ := P.enters hh
  obtain ⟨j, hj⟩ := List.mem_iff_getElem?.mp hg'
  have hto : g'.to = h.to := by simp only [Hop.to, e]
  obtain ⟨n, hn, _, ht'⟩ := A.readerStream hj (by rw [e]; exact ht)
  have htarget := A.readerTarget hg' (n := n) hn
  rw [hto] at ht' htarget
  rw [reader_dst e] at hn
  rw [e] at htarget
  obtain ⟨ex, u⟩ := A.run hC hr
  have Q := w'.net.conduct (A.wired hC) ex hn
  refine ⟨fun o ho => ht' _ (Q.to o ho), ?_, fun hov hf hnull => ?_⟩
  · by_cases hmem : .handle (3 * w'.idOf h.to) ∈ n.targets
    · exact (Q.copies _ hmem).1
    · have : offeredTo (.handle (3 * w'.idOf h.to)) (proj h.reader τ) = [] := by
        unfold offeredTo
        rw [List.filterMap_eq_nil_iff]
        intro o ho
        have := Q.to o ho
        have hne : o.to ≠ .handle (3 * w'.idOf h.to) := fun hx => hmem (by rw [← hx]; exact this)
        simp [hne]
      rw [this]
      exact List.nil_prefix
  · refine (C65_complete rfl hw hq hC hr hov hf).2.2 h.reader n hn _ (htarget ?_)
    rcases ht with ht | ht
    · exact Or.inl ht
    · refine Or.inr ⟨ht, ?_⟩
      rcases hnull with hnull | hnull
      · rw [ht] at hnull; cases hnull
      · exact fun hx => hnull ((hd ht).symm.trans hx)

/-- **C78** At all times: where one stream alone leads to a drain or a program, what it is given to write is the beginning of that stream, to the byte, and it goes to what the drain has
opened, or the input of the program. -/
theorem C78_copies (hS : c.Sound hs) (hp : ∀ l, (perm l).Perm l) (hp' : ∀ l, (perm' l).Perm l) (ho : ∀ l, (spyOrder l).Perm l)
    (hm : manipulate perm perm' spyOrder c = some (c', printed)) (hw : getWaiter c' = .ok w) (hq : w.regulatorSettings order = .ok (cs, w')) (hr : w'.Run cs cap τ)
    {b : Str} {i : Nat} {h g : Hop} {L : List (Str × Nat)} {bs : Bytes} (hh : c.HopOf b i h) (ht : h.dst.ty = .launch ∨ h.dst.ty = .drain) (hI : c.Into h.dst L) (hB : c.Brings L [g])
    (hs' : w'.Supplies τ g bs) :
    (∀ o ∈ offers (proj h.reader τ), o.to = .handle (3 * w'.idOf h.to)) ∧ bytesTo (3 * w'.idOf h.to) (proj h.reader τ) <+: bs := by
  obtain ⟨ls, q1, q2⟩ := C78_taken hS hp hp' ho hm hw hq hr (B := fun _ => bs) hh hI hB (by simpa using hs')
  obtain ⟨l, rfl, q3⟩ := each_single q1
  rw [Mix.single_iff] at q2
  obtain ⟨r1, r2, _⟩ := given_taken hS hp hp' ho hm hw hq hr hh ht
  refine ⟨r1, ?_⟩
  rw [q2] at r2
  have := flatten_prefix (r2.trans q3)
  rwa [lines_flatten] at this

/-- **C78** In the end, if no file, stream or notification fails: where one stream alone leads to a program, or a drain other than `/dev/null`, it has written exactly the bytes of that stream. -/
theorem C78_copied (hS : c.Sound hs) (hp : ∀ l, (perm l).Perm l) (hp' : ∀ l, (perm' l).Perm l) (ho : ∀ l, (spyOrder l).Perm l)
    (hm : manipulate perm perm' spyOrder c = some (c', printed)) (hw : getWaiter c' = .ok w) (hq : w.regulatorSettings order = .ok (cs, w')) (hr : w'.Run cs cap τ)
    (hov : w'.Over cs τ) (hf : ∀ i, ∀ f ∈ acts (proj i τ), f.trouble = false)
    {b : Str} {i : Nat} {h g : Hop} {L : List (Str × Nat)} {bs : Bytes} (hh : c.HopOf b i h)
    (ht : h.dst.ty = .launch ∨ h.dst.ty = .drain ∧ c.drain.get h.dst.name ≠ some "/dev/null".toList) (hI : c.Into h.dst L) (hB : c.Brings L [g]) (hs' : w'.Supplies τ g bs) :
    bytesIn (3 * w'.idOf h.to) (proj h.reader τ) = bs := by
  have q := C78_taken_all hS hp hp' ho hm hw hq hr hov hf (B := fun _ => bs) hh hI hB (by simpa using hs')
  simp only [List.map_cons, List.map_nil, Mix.single_iff] at q
  obtain ⟨_, _, r3⟩ := given_taken hS hp hp' ho hm hw hq hr hh (ht.imp_right And.left)
  rw [bytesIn, r3 hov hf (ht.imp_right And.right), q, lines_flatten]

/-- **C78** The same where several streams lead: what has been written is a mixture of their lines. -/
theorem C78_merged (hS : c.Sound hs) (hp : ∀ l, (perm l).Perm l) (hp' : ∀ l, (perm' l).Perm l) (ho : ∀ l, (spyOrder l).Perm l)
    (hm : manipulate perm perm' spyOrder c = some (c', printed)) (hw : getWaiter c' = .ok w) (hq : w.regulatorSettings order = .ok (cs, w')) (hr : w'.Run cs cap τ)
    (hov : w'.Over cs τ) (hf : ∀ i, ∀ f ∈ acts (proj i τ), f.trouble = false)
    {b : Str} {i : Nat} {h : Hop} {L : List (Str × Nat)} {S : List Hop} {B : Hop → Bytes} (hh : c.HopOf b i h)
    (ht : h.dst.ty = .launch ∨ h.dst.ty = .drain ∧ c.drain.get h.dst.name ≠ some "/dev/null".toList) (hI : c.Into h.dst L) (hB : c.Brings L S) (hs' : ∀ g ∈ S, w'.Supplies τ g (B g)) :
    ∃ ls, Mix (S.map fun g => specLines (B g)) ls ∧ bytesIn (3 * w'.idOf h.to) (proj h.reader τ) = ls.flatten := by
  obtain ⟨_, _, r3⟩ := given_taken hS hp hp' ho hm hw hq hr hh (ht.imp_right And.left)
  exact ⟨_, C78_taken_all hS hp hp' ho hm hw hq hr hov hf hh hI hB hs', by rw [bytesIn, r3 hov hf (ht.imp_right And.right)]⟩

end

end Verif
