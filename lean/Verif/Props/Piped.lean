import Verif.Props.Stalled
import Verif.Props.WorldSolve
/-!
# C107: a stream without end goes through as it is

C78 says what has been written when all has come to an end, C105 and C106 that what comes from streams without end gets on. Together, where only one stream leads to a component: at all times that component has received the
beginning of what was read from the stream, and however much was read, at some time that much has been written.
-/
namespace Verif
section
variable {c c' : Config} {hs : List Hop} {perm : List OutRef → List OutRef} {perm' : List InRef → List InRef} {spyOrder : List Str → List Str} {printed : List Str}
  {w w' : Waiter} {order : List (Str × Watch)} {cs : List Capture} {cap : Caps} {τ : List (Who × Ev)}

/-- What the hops of a list have brought at any time, in terms of what was read. -/
theorem carried {over : Str → Nat → List Bytes} (hS : c.Sound hs) (hp : ∀ l, (perm l).Perm l) (hp' : ∀ l, (perm' l).Perm l) (ho : ∀ l, (spyOrder l).Perm l)
    (hm : manipulate perm perm' spyOrder c = some (c', printed)) (hw : getWaiter c' = .ok w) (hq : w.regulatorSettings order = .ok (cs, w')) (hr : w'.Run cs cap τ)
    (o1 : ∀ b i h, c.HopOf b i h → ¬ h.isExit → over b i <+: received (proj h.writer τ))
    (o2 : ∀ b i h L, c.HopOf b i h → c.Into h.dst L → ∃ l, received (proj h.reader τ) <+: l ∧ Mix (L.map fun x => over x.1 x.2) l)
    {L : List (Str × Nat)} {S : List Hop} (hB : c.Brings L S) (hx : ∀ g ∈ S, ¬ g.isExit) :
    ∃ Ss : List (List (List Bytes)), Ss.length = L.length ∧ (∀ (j : Nat) Q x, Ss[j]? = some Q → (L.map fun x => over x.1 x.2)[j]? = some x → Mix Q x) ∧
      EachBegins Ss.flatten (S.map fun g => received (proj g.writer τ)) := by
  induction hB with
  | none => exact ⟨[], rfl, by simp, .nil⟩
  | @stream b i h L S hh hsrc _ ih =>
    obtain ⟨Ss, q1, q2, q3⟩ := ih fun g hg => hx g (by simp [hg])
    refine ⟨[over b i] :: Ss, by simp [q1], ?_, ?_⟩
    · intro j Q x h1 h2
      cases j with
      | zero =>
        simp only [List.map_cons, List.getElem?_cons_zero, Option.some.injEq] at h1 h2
        subst h1 h2
        exact Mix.single_iff.mpr rfl
      | succ j =>
        simp only [List.map_cons, List.getElem?_cons_succ] at h1 h2
        exact q2 j Q x h1 h2
    · exact .cons (o1 b i h hh (hx h (by simp))) q3
  | @through b i h L' L S' S hh n1 n2 hI hne _ _ ih' ih =>
    obtain ⟨Ss, q1, q2, q3⟩ := ih fun g hg => hx g (by simp [hg])
    obtain ⟨Ss', q1', q2', q3'⟩ := ih' fun g hg => hx g (by simp [hg])
    obtain ⟨⟨b', i'⟩, hx'⟩ := List.exists_mem_of_ne_nil _ hne
    obtain ⟨g, hg, e⟩ := (hI.2 b' i').mp hx'
    obtain ⟨l, k1, k2⟩ := o2 b' i' g L' hg (by rw [e]; exact hI)
    have k3 := k2.join (Ss := Ss') (by simp [q1']) q2'
    have hne' : ¬ h.isExit := fun a => n2 a.1
    obtain ⟨ms, k4, k5⟩ := k3.begin (((o1 b i h hh hne').trans (passes hS hp hp' ho hm hw hq hr hh hg e n1 n2).1).trans k1)
    refine ⟨ms :: Ss, by simp [q1], ?_, ?_⟩
    · intro j Q x h1 h2
      cases j with
      | zero =>
        simp only [List.map_cons, List.getElem?_cons_zero, Option.some.injEq] at h1 h2
        subst h1 h2
        exact k5
      | succ j =>
        simp only [List.map_cons, List.getElem?_cons_succ] at h1 h2
        exact q2 j Q x h1 h2
    · rw [List.flatten_cons, List.map_append]
      exact (k4.trans q3').append q3

/-- **C107** What a component has received is at all times a mixture of beginnings of what was read from the streams that lead to it, one of each, in order. -/
theorem C107_mixes (hS : c.Sound hs) (hp : ∀ l, (perm l).Perm l) (hp' : ∀ l, (perm' l).Perm l) (ho : ∀ l, (spyOrder l).Perm l)
    (hm : manipulate perm perm' spyOrder c = some (c', printed)) (hw : getWaiter c' = .ok w) (hq : w.regulatorSettings order = .ok (cs, w')) (hr : w'.Run cs cap τ)
    {b : Str} {i : Nat} {h : Hop} {L : List (Str × Nat)} {S : List Hop} (hh : c.HopOf b i h) (hI : c.Into h.dst L) (hB : c.Brings L S) (hx : ∀ g ∈ S, ¬ g.isExit) :
    ∃ ls, EachBegins ls (S.map fun g => received (proj g.writer τ)) ∧ Mix ls (received (proj h.reader τ)) := by
  obtain ⟨over, o1, _, o3⟩ := C71_conveys hS hp hp' ho hm hw hq hr
  obtain ⟨Ss, q1, q2, q3⟩ := carried hS hp hp' ho hm hw hq hr o1 o3 hB hx
  obtain ⟨l, k1, k2⟩ := o3 b i h L hh hI
  obtain ⟨ms, k4, k5⟩ := (k2.join (Ss := Ss) (by simp [q1]) q2).begin k1
  exact ⟨ms, k4.trans q3, k5⟩

/-- **C107** Where only one stream leads to a component, what it has received is at all times the beginning of what was read from that stream. -/
theorem C107_begins (hS : c.Sound hs) (hp : ∀ l, (perm l).Perm l) (hp' : ∀ l, (perm' l).Perm l) (ho : ∀ l, (spyOrder l).Perm l)
    (hm : manipulate perm perm' spyOrder c = some (c', printed)) (hw : getWaiter c' = .ok w) (hq : w.regulatorSettings order = .ok (cs, w')) (hr : w'.Run cs cap τ)
    {b : Str} {i : Nat} {h g : Hop} {L : List (Str × Nat)} (hh : c.HopOf b i h) (hI : c.Into h.dst L) (hB : c.Brings L [g]) (hx : ¬ g.isExit) :
    received (proj h.reader τ) <+: received (proj g.writer τ) := by
  obtain ⟨ls, k4, k5⟩ := C107_mixes hS hp hp' ho hm hw hq hr hh hI hB (by simpa using hx)
  obtain ⟨l', rfl, q4⟩ := each_single k4
  rw [Mix.single_iff] at k5
  rw [k5]
  exact q4

/-- A component that a stream leads to is connected to it. -/
theorem Config.Brings.path (hS : c.Sound hs) {L : List (Str × Nat)} {S : List Hop} (hB : c.Brings L S) {g : Hop} (hg : g ∈ S) (hx : ¬ g.isExit) :
    ∃ b i h, (b, i) ∈ L ∧ c.HopOf b i h ∧ Relation.TransGen (Feeds hs) g.writer h.reader := by
  induction hB with
  | none => cases hg
  | @stream b i h L S hh _ _ ih =>
    rcases List.mem_cons.mp hg with rfl | hg
    · exact ⟨b, i, g, by simp, hh, .single (.hop ((hS.hops _).mpr ⟨b, i, hh⟩) hx)⟩
    · obtain ⟨b', i', h', h1, h2, h3⟩ := ih hg
      exact ⟨b', i', h', by simp [h1], h2, h3⟩
  | @through b i h L' L S' S hh n1 n2 hI _ _ _ ih' ih =>
    rcases List.mem_append.mp hg with hg | hg
    · obtain ⟨b', i', h', h1, h2, h3⟩ := ih' hg
      obtain ⟨h'', h4, h5⟩ := (hI.2 b' i').mp h1
      rw [hS.hop_unique h2 h4] at h3
      have out : Feeds hs h.writer h.reader := .hop ((hS.hops _).mpr ⟨b, i, hh⟩) fun a => n2 a.1
      refine ⟨b, i, h, by simp, hh, ?_⟩
      by_cases hb : h.src.ty = .buffer
      · have ew : h.writer = .part (.buffer, h.src.name) .output := by simp only [Hop.writer, Hop.from, hb]
        have er : h''.reader = .part (.buffer, h.src.name) .input := by simp only [Hop.reader, Hop.to, h5, hb]
        rw [er] at h3
        have mid : Feeds hs (.part (.buffer, h.src.name) .input) h.writer := ew ▸ .buffer ⟨h, (hS.hops _).mpr ⟨b, i, hh⟩, Or.inl (by simp only [Hop.from, hb])⟩
        exact (h3.tail mid).tail out
      · have : h''.reader = h.writer := by
          simp only [Hop.writer, Hop.reader, Hop.from, Hop.to, h5]
        rw [this] at h3
        exact h3.tail out
    · obtain ⟨b', i', h', h1, h2, h3⟩ := ih hg
      exact ⟨b', i', h', by simp [h1], h2, h3⟩

end

section
variable {c c' : Config} {hs : List Hop} {perm : List OutRef → List OutRef} {perm' : List InRef → List InRef} {spyOrder : List Str → List Str} {printed : List Str}
  {w w' : Waiter} {order : List (Str × Watch)} {cap : Caps} {idle : Nat → Prop} {σ : Nat → Option (Who × Ev)}

/-- **C107** … and however much was read, at some time the component has received that much. -/
theorem C107_arrives (hS : c.Sound hs) (hcf : CircleFree hs) (hp : ∀ l, (perm l).Perm l) (hp' : ∀ l, (perm' l).Perm l) (ho : ∀ l, (spyOrder l).Perm l)
    (hm : manipulate perm perm' spyOrder c = some (c', printed)) (hw : getWaiter c' = .ok w) (hq : w.regulatorSettings order = .ok ([], w')) (hcap : ∀ k ch, cap k ch ≠ some 0)
    (hσ : w'.FairBut idle [] cap σ) (hf : ∀ n i, ∀ f ∈ acts (proj i (upTo σ n)), f.trouble = false)
    {b : Str} {i : Nat} {h g : Hop} {L : List (Str × Nat)} (hh : c.HopOf b i h) (hI : c.Into h.dst L) (hB : c.Brings L [g]) (hx : ¬ g.isExit)
    (he : FavouredEnds hs g.writer) (hU : w'.Answering idle hs g.writer) (n : Nat) :
    ∃ m, n ≤ m ∧ received (proj g.writer (upTo σ n)) <+: received (proj h.reader (upTo σ m)) := by
  obtain ⟨b', i', h', h1, h2, h3⟩ := hB.path hS (by simp) hx
  obtain ⟨h'', h4, h5⟩ := (hI.2 b' i').mp h1
  rw [hS.hop_unique h2 h4, reader_dst h5] at h3
  obtain ⟨m, hnm, hsub⟩ := C106_written_reaches hS hcf hp hp' ho hm hw hq hcap hσ hf he hU h3 n
  have k1 := C107_begins hS hp hp' ho hm hw hq (hσ.runs m) hh hI hB hx
  obtain ⟨u, hu, _⟩ := proj_since (σ := σ) g.writer hnm
  have k2 : received (proj g.writer (upTo σ n)) <+: received (proj g.writer (upTo σ m)) := by
    rw [hu, received_append]
    exact List.prefix_append _ _
  exact ⟨m, hnm, List.prefix_of_prefix_length_le k2 k1 hsub.length_le⟩

/-- **C107** The bytes: where only one stream leads to a drain that writes to a file, or to a program, what has been written there is at all times the beginning of what was read from the stream, and however much was read, at some
time all of it has been written. -/
theorem C107_pours (hS : c.Sound hs) (hcf : CircleFree hs) (hp : ∀ l, (perm l).Perm l) (hp' : ∀ l, (perm' l).Perm l) (ho : ∀ l, (spyOrder l).Perm l)
    (hm : manipulate perm perm' spyOrder c = some (c', printed)) (hw : getWaiter c' = .ok w) (hq : w.regulatorSettings order = .ok ([], w')) (hcap : ∀ k ch, cap k ch ≠ some 0)
    (hσ : w'.FairBut idle [] cap σ) (hf : ∀ n i, ∀ f ∈ acts (proj i (upTo σ n)), f.trouble = false)
    {b : Str} {i : Nat} {h g : Hop} {L : List (Str × Nat)} (hh : c.HopOf b i h) (ht : h.dst.ty = .launch ∨ h.dst.ty = .drain ∧ c.drain.get h.dst.name ≠ some "/dev/null".toList)
    (hI : c.Into h.dst L) (hB : c.Brings L [g]) (hx : ¬ g.isExit) (he : FavouredEnds hs g.writer) (hU : w'.Answering idle hs g.writer) (n : Nat) :
    bytesIn (3 * w'.idOf h.to) (proj h.reader (upTo σ n)) <+: (received (proj g.writer (upTo σ n))).flatten ∧
    ∃ m, n ≤ m ∧ (received (proj g.writer (upTo σ n))).flatten <+: bytesIn (3 * w'.idOf h.to) (proj h.reader (upTo σ m)) := by
  have written : ∀ k, acceptedBy (.handle (3 * w'.idOf h.to)) (proj h.reader (upTo σ k)) <+: received (proj g.writer (upTo σ k)) := by
    intro k
    obtain ⟨r1, r2, _⟩ := given_taken hS hp hp' ho hm hw hq (hσ.runs k) hh (ht.imp_right And.left)
    rw [acceptedBy_all fun o hmem => ?_]
    · exact r2.trans (C107_begins hS hp hp' ho hm hw hq (hσ.runs k) hh hI hB hx)
    · have hto := r1 o hmem
      obtain ⟨a, ha, hao⟩ := List.mem_filterMap.mp hmem
      have hk := hf k _ a ha
      cases a <;> simp at hao
      subst hao
      simp only at hto
      subst hto
      rename_i d r
      cases r <;> simp [Act.trouble] at hk ⊢
  refine ⟨flatten_prefix (written n), ?_⟩
  obtain ⟨b', i', h', h1, h2, h3⟩ := hB.path hS (by simp) hx
  obtain ⟨h'', h4, h5⟩ := (hI.2 b' i').mp h1
  rw [hS.hop_unique h2 h4, reader_dst h5] at h3
  have hv : ∃ v, w'.node h.reader = some v ∧ .handle (3 * w'.idOf h.to) ∈ v.targets := by
    have hd := fun hk => manipulate_drain hS.names hS.good hp hp' ho hm (n := h.dst.name) (hS.drains b i h hh hk)
    obtain ⟨M, R, R', S, E, T, drain', printed', k1, P, k3⟩ := hS.laid hp hp' ho
    rw [hm] at k1
    cases k1
    have A := assembled rfl hw hq
    obtain ⟨g', hg', e⟩ := P.enters hh
    obtain ⟨j, hj⟩ := List.mem_iff_getElem?.mp hg'
    have hto : g'.to = h.to := by simp only [Hop.to, e]
    obtain ⟨v, hn, _, _⟩ := A.readerStream hj (by rw [e]; exact ht.imp_right And.left)
    have htarget := A.readerTarget hg' (n := v) hn
    rw [hto, e] at htarget
    rw [reader_dst e] at hn
    refine ⟨v, hn, htarget (ht.imp_right fun ht => ⟨ht.1, fun hx => ht.2 ((hd ht.1).symm.trans hx)⟩)⟩
  obtain ⟨v, hv, htv⟩ := hv
  obtain ⟨m, hnm, hsub⟩ := C106_written_drained hS hcf hp hp' ho hm hw hq hcap hσ hf he hU h3 hv htv n
  obtain ⟨u, hu, _⟩ := proj_since (σ := σ) g.writer hnm
  have k2 : received (proj g.writer (upTo σ n)) <+: received (proj g.writer (upTo σ m)) := by
    rw [hu, received_append]
    exact List.prefix_append _ _
  exact ⟨m, hnm, flatten_prefix (List.prefix_of_prefix_length_le k2 (written m) hsub.length_le)⟩

end
end Verif
