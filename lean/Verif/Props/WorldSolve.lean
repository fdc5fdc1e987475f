import Verif.Props.WorldEnds
import Verif.Lemmas.WorldRest
import Verif.Spec.Solve
/-!
# Property C90: a network of programs solves the equations of its programs

C86 is about programs one after the other. Here networks of any form, with streams that join and divide, error ports and exit ports, and programs without input: what the programs do is a solution of a system of
conditions, one for each program (what it does) and one for each place where hops lead (it gets a mixture of the lines of what leads there). Without joins, and if what programs do depends on what they read only,
there is only one solution; so what a drain gets does not depend on the order in which things happen.
-/
namespace Verif

/-- A program that hops lead to or from. -/
def Config.Launches (c : Config) (x : Str) : Prop := ∃ b i h, c.HopOf b i h ∧ (h.from = (.launch, x) ∨ h.to = (.launch, x))

/-- What comes out of where a hop begins, if programs do this and files contain that. -/
def Hop.carries (B : Hop → Bytes) (D : Str → Deed) (g : Hop) : Bytes :=
  match g.src.ty, g.src.port with
  | .launch, .out => (D g.src.name).out
  | .launch, .err => (D g.src.name).err
  | .launch, .exit => endBytes (D g.src.name).code
  | _, _ => B g

/-- These bytes are what a place that hops lead to may get: the lines of everything that leads there, mixed. -/
def Config.Gets (c : Config) (B : Hop → Bytes) (D : Str → Deed) (d : InRef) (bs : Bytes) : Prop :=
  ∀ L S, c.Into d L → c.Brings L S → ∃ l, Mix (S.map fun g => specLines (g.carries B D)) l ∧ bs = l.flatten

/-- Programs do what they are known to do, with input that comes from each other. -/
structure Config.Solves (c : Config) (R : Str → Deed → Prop) (B : Hop → Bytes) (D : Str → Deed) : Prop where
  programs : ∀ x, c.Launches x → R x (D x)
  inputs : ∀ x, c.Launches x → c.Gets B D ⟨.launch, x⟩ (D x).read

section
variable {c c' : Config} {hs : List Hop} {perm : List OutRef → List OutRef} {perm' : List InRef → List InRef} {spyOrder : List Str → List Str} {printed : List Str}
  {w w' : Waiter} {order : List (Str × Watch)} {cs : List Capture} {cap : Caps} {room : Nat} {prog : Str → Program} {T : List Happening} {σ : Nat → Option Happening}

theorem Laid.into {M R R' : Map Hop} {S : List SIns} {E : List EIns} {T : List Spy} (P : Laid c M R R' S E T) {g : Hop} (hg : g ∈ R'.map (·.2)) (h1 : g.dst.ty ≠ .junction) (h2 : g.dst.ty ≠ .drain) :
    ∃ b i h, c.HopOf b i h ∧ h.dst = g.dst := by
  obtain ⟨k, hk⟩ := (lists_map P.sorted' g).mp hg
  have back : ∀ {k h}, M.get k = some h → h.dst = g.dst → ∃ b i h, c.HopOf b i h ∧ h.dst = g.dst := fun {k h} hM e => by
    obtain ⟨b, i, h3, _⟩ := (P.hops k h).mp hM
    exact ⟨b, i, h, h3, e⟩
  rcases P.split k g hk with ⟨t, _, _, rfl⟩ | hR
  · exact absurd rfl h2
  · rcases P.ins.kinds hR with ⟨h₀, h0, _, q, _⟩ | ⟨x, _, _, _, _, q, _⟩ | ⟨y, hy, _, _, _, q, _⟩
    · rcases newDst_cases E h₀.dst with ⟨x, _, _, e⟩ | ⟨_, e⟩
      · rw [q, e] at h1; exact absurd rfl h1
      · exact back h0 (by rw [q, e])
    · rw [q] at h1; exact absurd rfl h1
    · obtain ⟨h, ⟨k', hM, e, _⟩, _⟩ := P.ins.ends y hy
      exact back hM (e.trans q.symm)

theorem Laid.outOf {M R R' : Map Hop} {S : List SIns} {E : List EIns} {T : List Spy} (P : Laid c M R R' S E T) {g : Hop} (hg : g ∈ R'.map (·.2)) (h1 : g.src.ty = .launch) :
    ∃ b i h, c.HopOf b i h ∧ h.from = g.from := by
  have key : ∀ {k : Str} {g : Hop}, g.src.ty = .launch → R.get k = some g → ∃ b i h, c.HopOf b i h ∧ h.from = g.from := fun {k g} h1 hR => by
    obtain ⟨k', g', h1, h2⟩ := (P.ins.srcs (p := g.src) (by simp [h1])).mp ⟨k, g, hR, rfl⟩
    obtain ⟨b, i, h3, _⟩ := (P.hops k' g').mp h1
    exact ⟨b, i, g', h3, by simp [Hop.from, h2]⟩
  obtain ⟨k, hk⟩ := (lists_map P.sorted' g).mp hg
  rcases P.split k g hk with ⟨t, ht, _, rfl⟩ | hR
  · obtain ⟨k', g', h2, h3, h4⟩ := P.spied t ht
    obtain ⟨b, i, h, h5, h6⟩ := key h3 h2
    exact ⟨b, i, h, h5, by rw [h6]; simp [Hop.from, h3, h4, Spy.hop]⟩
  · exact key h1 hR

/-- The programs that run are those of the configuration. -/
theorem running (hS : c.Sound hs) (hp : ∀ l, (perm l).Perm l) (hp' : ∀ l, (perm' l).Perm l) (ho : ∀ l, (spyOrder l).Perm l)
    (hm : manipulate perm perm' spyOrder c = some (c', printed)) (hw : getWaiter c' = .ok w) (hq : w.regulatorSettings order = .ok (cs, w')) (x : Str) :
    w'.comps.get (.launch, x) ≠ none ↔ c.Launches x := by
  obtain ⟨M, R, R', S', E, T', drain', printed', k1, P, k3⟩ := hS.laid hp hp' ho
  rw [hm] at k1
  cases k1
  have A := assembled rfl hw hq
  constructor
  · intro h
    obtain ⟨g, hg, h1 | h1⟩ := Classical.byContradiction fun hm => h (A.only _ hm)
    · obtain ⟨b, i, h, h2, h3⟩ := P.outOf hg (congrArg Prod.fst h1)
      exact ⟨b, i, h, h2, Or.inl (h3.trans h1)⟩
    · have h1' : g.dst.ty = .launch := congrArg Prod.fst h1
      obtain ⟨b, i, h, h2, h3⟩ := P.into hg (by simp [h1']) (by simp [h1'])
      exact ⟨b, i, h, h2, Or.inr (by rw [← h1]; simp [Hop.to, h3])⟩
  · rintro ⟨b, i, h, h1, h2⟩
    have : Mentioned (R'.map (·.2)) (.launch, x) := by
      rcases h2 with h2 | h2
      · obtain ⟨g, hg, e⟩ := P.leaves h1
        exact ⟨g, hg, Or.inl (by rw [← h2]; simp [Hop.from, e])⟩
      · obtain ⟨g, hg, e⟩ := P.enters h1
        exact ⟨g, hg, Or.inr (by rw [← h2]; simp [Hop.to, e])⟩
    obtain ⟨k, hk, _⟩ := A.comps _ this
    rw [hk]; simp

/-- A program that nothing leads to has read nothing. -/
theorem unread (hS : c.Sound hs) (hp : ∀ l, (perm l).Perm l) (hp' : ∀ l, (perm' l).Perm l) (ho : ∀ l, (spyOrder l).Perm l)
    (hm : manipulate perm perm' spyOrder c = some (c', printed)) (hw : getWaiter c' = .ok w) (hq : w.regulatorSettings order = .ok (cs, w')) (hT : w'.WorldRun cs cap room prog T) {x : Str}
    (hx : ∀ b i h, c.HopOf b i h → h.dst ≠ ⟨.launch, x⟩) : takenIn (historyOf x T) = [] := by
  obtain ⟨M, R, R', S', E, T', drain', printed', k1, P, k3⟩ := hS.laid hp hp' ho
  rw [hm] at k1
  cases k1
  have A := assembled rfl hw hq
  have hC := P.complete hS.hops hS.complete
  have hno : w'.sys cs (.part (.launch, x) .input) = none := by
    cases ht : w'.sys cs (.part (.launch, x) .input) with
    | none => rfl
    | some t =>
      exfalso
      obtain ⟨n, hn, _⟩ := A.toRigged.launchNode hC (by simp [relayPieces]) ht
      obtain ⟨j, ch, j', rfl⟩ := A.inputNode hn
      rcases (A.toRigged.sources hn ch).mp (by simp [Node.sources, Pull.source]) with ⟨g, hg, hr⟩ | ⟨h1, _⟩
      · have h1 : g.dst = ⟨.launch, x⟩ := by
          simp only [Hop.reader, Who.part.injEq, Hop.to, Prod.mk.injEq] at hr
          cases hd : g.dst
          rw [hd] at hr
          simp only at hr
          rw [hr.1.1, hr.1.2]
        obtain ⟨b, i, h, h2, h3⟩ := P.into (List.mem_of_getElem? hg) (by simp [h1]) (by simp [h1])
        exact hx b i h h2 (h3.trans h1)
      · cases h1
  have h1 : fedTo x T = [] := by
    clear hm
    induction hT with
    | start => rfl
    | @next T a hT ha ih =>
      rw [fedTo_append, ih, List.nil_append]
      cases ha with
      | @feed y d m t hd h1 h2 h3 h4 h5 h6 =>
        rw [fedTo_feed]
        split
        · next e => subst e; rw [hno] at h1; cases h1
        · rfl
      | _ => simp
  have := hT.taken x
  rw [h1] at this
  exact List.prefix_nil.mp this

theorem Hop.carries_printed {B : Hop → Bytes} {D : Str → Deed} (hT : w'.WorldRun cs cap room prog T) (hD : ∀ x, c.Launches x → (D x).Of (historyOf x T)) {g : Hop} {b : Str} {i : Nat} (hg : c.HopOf b i g) :
    g.carries B D = g.printed B T := by
  by_cases h : g.src.ty = .launch
  · obtain ⟨h1, h2, h3, h4⟩ := hD g.src.name ⟨b, i, g, hg, Or.inl (by simp [Hop.from, h])⟩
    cases hp : g.src.port with
    | out => simpa [Hop.carries, Hop.printed, h, hp] using h2
    | err => simpa [Hop.carries, Hop.printed, h, hp] using h3
    | exit => simpa [Hop.carries, Hop.printed, h, hp] using (hT.lastWord h4).symm
  · simp [Hop.carries, Hop.printed, h]

/-- **C90** In the end, if no file, stream or notification fails: what the programs have done is a solution, and what a drain has written goes with it. -/
theorem C90_solved (hS : c.Sound hs) (hp : ∀ l, (perm l).Perm l) (hp' : ∀ l, (perm' l).Perm l) (ho : ∀ l, (spyOrder l).Perm l)
    (hm : manipulate perm perm' spyOrder c = some (c', printed)) (hw : getWaiter c' = .ok w) (hq : w.regulatorSettings order = .ok (cs, w')) (hT : w'.WorldRun cs cap room prog T)
    (hov : w'.AllOver cs T) (hf : ∀ i, ∀ f ∈ acts (proj i (coreOf T)), f.trouble = false) {B : Hop → Bytes}
    (hF : ∀ b i g, c.HopOf b i g → g.src.ty = .faucet → w'.Supplies (coreOf T) g (B g)) {R : Str → Deed → Prop} (hR : ∀ x, c.Launches x → (prog x).Meets (R x)) :
    ∃ D, (∀ x, c.Launches x → (D x).Of (historyOf x T)) ∧ c.Solves R B D ∧
      ∀ b i h, c.HopOf b i h → h.dst.ty = .drain → c.drain.get h.dst.name ≠ some "/dev/null".toList → c.Gets B D h.dst (bytesIn (3 * w'.idOf h.to) (proj h.reader (coreOf T))) := by
  have hend : ∀ x, ∃ d : Deed, c.Launches x → d.Of (historyOf x T) := fun x => by
    by_cases hx : c.Launches x
    · obtain ⟨k, hk⟩ := hov.2 x ((running hS hp hp' ho hm hw hq x).mpr hx)
      exact ⟨⟨_, _, _, k⟩, fun _ => ⟨rfl, rfl, rfl, hk⟩⟩
    · exact ⟨⟨[], [], [], none⟩, fun h => absurd h hx⟩
  obtain ⟨D, hD⟩ := Classical.axiomOfChoice hend
  have hreg : ∀ x, Regular (historyOf x T) := by
    obtain ⟨M, R, R', S', E, T', drain', printed', k1, P, k3⟩ := hS.laid hp hp' ho
    rw [hm] at k1
    cases k1
    exact (assembled rfl hw hq).regular (P.complete hS.hops hS.complete) hT hf
  have hsup : ∀ {L S}, c.Brings L S → ∀ g ∈ S, w'.Supplies (coreOf T) g (g.printed B T) := fun hB g hg => by
    obtain ⟨⟨b, i, hb⟩, hs'⟩ := hB.sources g hg
    exact hT.supplies hs' (hF b i g hb)
  have hmap : ∀ {L S}, c.Brings L S → (S.map fun g => specLines (g.printed B T)) = S.map fun g => specLines (g.carries B D) := fun hB => by
    refine List.map_congr_left fun g hg => ?_
    obtain ⟨⟨b, i, hb⟩, _⟩ := hB.sources g hg
    rw [Hop.carries_printed hT hD hb]
  refine ⟨D, hD, ⟨fun x hx => (hR x hx).does _ _ (hT.lives x) (hreg x) (hD x hx), fun x hx L S hI hB => ?_⟩, fun b i h hh ht hn L S hI hB => ?_⟩
  · rw [(hD x hx).1]
    by_cases hL : ∃ b i h, c.HopOf b i h ∧ h.dst = ⟨.launch, x⟩
    · obtain ⟨b, i, h, hh, e⟩ := hL
      have hall := (hR x hx).reads _ (hT.lives x) (hreg x) (Or.inr (hov.2 x ((running hS hp hp' ho hm hw hq x).mpr hx)))
      obtain ⟨l, q1, q2⟩ := C86_reads_all hS hp hp' ho hm hw hq hT hov.1 hf (B := B) hh (by rw [e]) (by rw [e]; exact hI) hB (fun g hg hs' => by
        obtain ⟨⟨b, i, hb⟩, _⟩ := hB.sources g hg
        exact hF b i g hb hs') (by rw [e]; exact hall)
      rw [e] at q2
      exact ⟨l, by rw [← hmap hB]; exact q1, q2⟩
    · have : L = [] := List.eq_nil_iff_forall_not_mem.mpr fun ⟨b, i⟩ hm => by
        obtain ⟨h, hh, e⟩ := (hI.2 b i).mp hm
        exact hL ⟨b, i, h, hh, e⟩
      subst this
      cases hB
      exact ⟨[], Mix.none_iff.mpr rfl, unread hS hp hp' ho hm hw hq hT fun b i h hh e => hL ⟨b, i, h, hh, e⟩⟩
  · rw [← hmap hB]
    exact C78_merged hS hp hp' ho hm hw hq hT.core hov.1 hf (B := fun g => g.printed B T) hh (Or.inr ⟨ht, hn⟩) hI hB (hsup hB)

/-- **C90** Total correctness: a network without managers nothing of which leads back, the programs of which do what they are known to do and do not go on for ever without reading: whatever the order in which
things happen, provided only that whoever can make something happen does so sooner or later, and that no file or notification fails, it comes to its end having found a solution. -/
theorem C90_computes (hS : c.Sound hs) (hp : ∀ l, (perm l).Perm l) (hp' : ∀ l, (perm' l).Perm l) (ho : ∀ l, (spyOrder l).Perm l)
    (hm : manipulate perm perm' spyOrder c = some (c', printed)) (hw : getWaiter c' = .ok w) (hq : w.regulatorSettings order = .ok ([], w')) (hcf : NoWayBack hs)
    (hcap : ∀ k ch, cap k ch ≠ some 0) (hroom : 0 < room) (F : w'.FairWorld [] cap room prog σ) (hfin : ∀ x, c.Launches x → (prog x).Finite)
    (hf : ∀ n i, (∀ x p, i ≠ .part (.launch, x) p) → ∀ f ∈ acts (proj i (coreOf (soFar σ n))), f.trouble = false)
    {B : Hop → Bytes} (hF : ∀ n b i g, c.HopOf b i g → g.src.ty = .faucet → w'.Supplies (coreOf (soFar σ n)) g (B g)) {R : Str → Deed → Prop} (hR : ∀ x, c.Launches x → (prog x).Meets (R x)) :
    ∃ n D, w'.AllOver [] (soFar σ n) ∧ (∀ m, n ≤ m → σ m = none) ∧ (∀ x, c.Launches x → (D x).Of (historyOf x (soFar σ n))) ∧ c.Solves R B D ∧
      ∀ b i h, c.HopOf b i h → h.dst.ty = .drain → c.drain.get h.dst.name ≠ some "/dev/null".toList → c.Gets B D h.dst (bytesIn (3 * w'.idOf h.to) (proj h.reader (coreOf (soFar σ n)))) := by
  have hrun := running hS hp hp' ho hm hw hq
  have hf' := fun n => C86_quiet hS hp hp' ho hm hw hq (F.runs n) (fun x hx => (hR x ((hrun x).mp hx)).reads) (hf n)
  obtain ⟨n, hov⟩ := comesToEnd hS hp hp' ho hm hw hq hcf hcap hroom F (fun x hx => hfin x ((hrun x).mp hx)) hf' hF
  obtain ⟨D, h1, h2, h3⟩ := C90_solved hS hp hp' ho hm hw hq (F.runs n) hov (hf' n) (hF n) hR
  exact ⟨n, D, hov, fun m hm => (F.after hov m hm).1, h1, h2, h3⟩

/-! ## When there is only one solution -/

/-- What a program that gets several streams prints and ends with is settled by the streams: it is the same however their lines are mixed. -/
def Foregone (R : Deed → Prop) (n : Nat) : Prop :=
  ∀ (bs : List Bytes) (l l' : List Bytes) (d d' : Deed), bs.length = n → Mix (bs.map specLines) l → Mix (bs.map specLines) l' → R d → R d' → d.read = l.flatten → d'.read = l'.flatten → d.Same d'

theorem mix_short {ls : List (List Bytes)} (h : ls.length ≤ 1) {l l' : List Bytes} (h1 : Mix ls l) (h2 : Mix ls l') : l = l' := by
  match ls with
  | [] => rw [Mix.none_iff] at h1 h2; rw [h1, h2]
  | [b] => rw [Mix.single_iff] at h1 h2; rw [h1, h2]
  | _ :: _ :: _ => simp at h

/-- If there is at most one stream, it is enough that what the program does depends on what it reads only. -/
theorem foregone_single {R : Deed → Prop} (h : ∀ d d', R d → R d' → d.read = d'.read → d.Same d') {n : Nat} (hn : n ≤ 1) : Foregone R n := by
  intro bs l l' d d' hl h1 h2 hd hd' e e'
  refine h d d' hd hd' ?_
  rw [e, e', mix_short (by simpa [hl] using hn) h1 h2]

/-- Or else, that the order of lines does not matter. -/
theorem foregone_unordered {R : Deed → Prop} (h : ∀ (l l' : List Bytes) d d', R d → R d' → l.Perm l' → d.read = l.flatten → d'.read = l'.flatten → d.Same d') (n : Nat) : Foregone R n :=
  fun _ l l' d d' _ h1 h2 hd hd' e e' => h l l' d d' hd hd' (h1.perm.trans h2.perm.symm) e e'

theorem HopAt.unique {cs : List Connection} {i : Nat} {h h' : Hop} (h1 : HopAt cs i h) (h2 : HopAt cs i h') : h = h' := by
  obtain ⟨a, b, ha, hb, e1, e2, e3, e4⟩ := h1
  obtain ⟨a', b', ha', hb', e1', e2', e3', e4'⟩ := h2
  rw [ha] at ha'; cases ha'
  rw [hb] at hb'; cases hb'
  rw [e1] at e1'; rw [e2] at e2'; rw [e3] at e3'; rw [e4] at e4'
  cases h; cases h'
  simp_all

theorem Config.Sound.hop_unique (hS : c.Sound hs) {b : Str} {i : Nat} {h h' : Hop} (h1 : c.HopOf b i h) (h2 : c.HopOf b i h') : h = h' := by
  obtain ⟨d, cs, m1, m2, m3⟩ := h1
  obtain ⟨d', cs', m1', m2', m3'⟩ := h2
  have := (get_of_mem hS.names m1).symm.trans (get_of_mem hS.names m1')
  cases this
  have := (converted_means m2).symm.trans (converted_means m2')
  cases this
  exact m3.unique m3'

/-- From where one hop ends to where the next one does. -/
theorem Config.Sound.onward (hS : c.Sound hs) {b b' : Str} {i i' : Nat} {h g : Hop} (hh : c.HopOf b i h) (hg : c.HopOf b' i' g) (e : g.dst = ⟨h.src.ty, h.src.name⟩) (n2 : h.src.ty ≠ .launch) :
    Relation.TransGen (LeadsOn hs fun _ => True) g.reader h.reader := by
  have hm := (hS.hops h).mpr ⟨b, i, hh⟩
  have hl : Leads hs h.writer h.reader := .hop hm fun hx => n2 hx.1
  by_cases hb : h.src.ty = .buffer
  · have ew : h.writer = .part (.buffer, h.src.name) .output := by simp only [Hop.writer, Hop.from, hb]
    have er : g.reader = .part (.buffer, h.src.name) .input := by simp only [Hop.reader, Hop.to, e, hb]
    rw [er]
    rw [ew] at hl
    exact .tail (.single (.inside (.buffer ⟨h, hm, Or.inl (by simp [Hop.from, hb])⟩))) (.inside hl)
  · have : h.writer = g.reader := by
      simp only [Hop.writer, Hop.reader, Hop.from, Hop.to, e]
    rw [this] at hl
    exact .single (.inside hl)

/-- From a program one gets to whatever its streams are brought to. -/
theorem Config.Sound.behind (hS : c.Sound hs) {L : List (Str × Nat)} {S : List Hop} (hB : c.Brings L S) : ∀ g ∈ S, g.src.ty = .launch →
    ∃ b i h, (b, i) ∈ L ∧ c.HopOf b i h ∧ Relation.TransGen (LeadsOn hs fun _ => True) (.part (.launch, g.src.name) .input) h.reader := by
  induction hB with
  | none => intro g hg; cases hg
  | @stream b i h L S hh hsrc _ ih =>
    intro g hg ht
    rcases List.mem_cons.mp hg with rfl | hg
    · have hm := (hS.hops g).mpr ⟨b, i, hh⟩
      have hfrom : g.from = (.launch, g.src.name) := by simp [Hop.from, ht]
      refine ⟨b, i, g, by simp, hh, ?_⟩
      by_cases hx : g.isExit
      · have := Leads.exit (p := .input) hm hx (by simp [relayPieces])
        rw [hfrom] at this
        exact .single (.inside this)
      · have := LeadsOn.program (via := fun _ => True) hm ht hx trivial
        rw [hfrom] at this
        exact .tail (.single this) (.inside (.hop hm hx))
    · obtain ⟨b, i, h, h1, h2⟩ := ih g hg ht
      exact ⟨b, i, h, by simp [h1], h2⟩
  | @through b i h L' L S' S hh n1 n2 hI hne _ _ ih' ih =>
    intro g hg ht
    rcases List.mem_append.mp hg with hg | hg
    · obtain ⟨b', i', h', h1, h2, h3⟩ := ih' g hg ht
      obtain ⟨h'', h4, h5⟩ := (hI.2 b' i').mp h1
      cases hS.hop_unique h2 h4
      exact ⟨b, i, h, by simp, hh, .trans h3 (hS.onward hh h2 h5 n2)⟩
    · obtain ⟨b, i, h, h1, h2⟩ := ih g hg ht
      exact ⟨b, i, h, by simp [h1], h2⟩

theorem without_repeats {α : Type} (l : List α) : ∃ l' : List α, l'.Nodup ∧ ∀ a, a ∈ l' ↔ a ∈ l := by
  classical
  induction l with
  | nil => exact ⟨[], .nil, by simp⟩
  | cons a l ih =>
    obtain ⟨l', h1, h2⟩ := ih
    by_cases ha : a ∈ l
    · exact ⟨l', h1, fun b => by rw [h2, List.mem_cons]; exact ⟨Or.inr, fun h => h.elim (fun e => e ▸ ha) id⟩⟩
    · exact ⟨a :: l', List.nodup_cons.mpr ⟨fun h => ha ((h2 a).mp h), h1⟩, fun b => by simp [h2]⟩

/-- The hops that lead to a place can be listed. -/
theorem into_exists (c : Config) (d : InRef) : ∃ L, c.Into d L := by
  classical
  obtain ⟨l, h1, h2⟩ := without_repeats ((c.connection.flatMap fun x => match converted x.2 with
    | .conns cs => (List.range cs.length).map fun i => (x.1, i)
    | .join _ => []).filter fun x => decide (∃ h, c.HopOf x.1 x.2 h ∧ h.dst = d))
  refine ⟨l, h1, fun b i => ?_⟩
  rw [h2, List.mem_filter]
  simp only [decide_eq_true_eq, and_iff_right_iff_imp]
  rintro ⟨h, ⟨d', cs, m1, m2, m3⟩, _⟩
  refine List.mem_flatMap.mpr ⟨_, m1, ?_⟩
  simp only [converted_means m2, List.mem_map, List.mem_range, Prod.mk.injEq, true_and, exists_eq_right]
  obtain ⟨a, _, ha, _⟩ := m3
  exact (List.getElem?_eq_some_iff.mp ha).1

theorem rankIn_far {α : Type} {r : α → α → Prop} (hr : ∀ i, ¬ Relation.TransGen r i i) {l : List α} {a b : α} (ha : a ∈ l) (h : Relation.TransGen r a b) : rankIn r l a < rankIn r l b := by
  classical
  unfold rankIn
  refine countP_lt (y := a) ?_ ha (by simpa using hr a) (by simpa using h)
  intro x _ hx
  simp only [decide_eq_true_eq] at hx ⊢
  exact .trans hx h

/-- If nothing leads back, and all but files and programs get something, then whatever comes to a place comes from certain files and programs. -/
theorem C90_brought (hS : c.Sound hs) (hcf : NoWayBack hs) (he : ∀ h ∈ hs, h.src.ty = .faucet ∨ h.src.ty = .launch ∨ ∃ g ∈ hs, g.to = h.from) (d : InRef) : ∃ L S, c.Into d L ∧ c.Brings L S := by
  have key : ∀ n d, (∀ h ∈ hs, h.dst = d → rankIn (LeadsOn hs fun _ => True) (hs.map Hop.reader) h.reader < n) → ∃ L S, c.Into d L ∧ c.Brings L S := by
    intro n
    induction n with
    | zero =>
      intro d hd
      obtain ⟨L, hL⟩ := into_exists c d
      match L, hL with
      | [], hL => exact ⟨[], [], hL, .none⟩
      | (b, i) :: L, hL =>
        obtain ⟨h, h1, h2⟩ := (hL.2 b i).mp (by simp)
        exact absurd (hd h ((hS.hops h).mpr ⟨b, i, h1⟩) h2) (Nat.not_lt_zero _)
    | succ n ih =>
      intro d hd
      obtain ⟨L, hL⟩ := into_exists c d
      have all : ∀ l : List (Str × Nat), (∀ x ∈ l, x ∈ L) → ∃ S, c.Brings l S := by
        intro l
        induction l with
        | nil => exact fun _ => ⟨[], .none⟩
        | cons x l ihl =>
          intro hl
          obtain ⟨S, hSl⟩ := ihl fun y hy => hl y (by simp [hy])
          obtain ⟨b, i⟩ := x
          obtain ⟨h, h1, h2⟩ := (hL.2 b i).mp (hl _ (by simp))
          have hm := (hS.hops h).mpr ⟨b, i, h1⟩
          by_cases n1 : h.src.ty = .faucet ∨ h.src.ty = .launch
          · exact ⟨_, .stream h1 n1 hSl⟩
          · have n1' := not_or.mp n1
            rcases he h hm with e | e | ⟨g, hg, e⟩
            · exact absurd e n1'.1
            · exact absurd e n1'.2
            · have eq : ∀ {g : Hop}, g.to = h.from → g.dst = ⟨h.src.ty, h.src.name⟩ := fun {g} e => by
                simp only [Hop.to, Hop.from, Prod.mk.injEq] at e
                cases hd : g.dst
                rw [hd] at e
                simp_all
              obtain ⟨b', i', hg'⟩ := (hS.hops g).mp hg
              obtain ⟨L', S', hI, hB⟩ := ih ⟨h.src.ty, h.src.name⟩ fun g' hg' e' => by
                obtain ⟨b'', i'', hg''⟩ := (hS.hops g').mp hg'
                have := rankIn_far hcf (List.mem_map.mpr ⟨g', hg', rfl⟩) (hS.onward h1 hg'' e' n1'.2)
                have := hd h hm h2
                omega
              refine ⟨S' ++ S, .through h1 n1'.1 n1'.2 hI ?_ hB hSl⟩
              exact List.ne_nil_of_mem ((hI.2 b' i').mpr ⟨g, hg', eq e⟩)
      obtain ⟨S, hB⟩ := all L fun _ h => h
      exact ⟨L, S, hL, hB⟩
  refine key ((hs.map fun h => rankIn (LeadsOn hs fun _ => True) (hs.map Hop.reader) h.reader).sum + 1) d fun h hh _ => ?_
  have : ∀ (l : List Hop) (f : Hop → Nat), h ∈ l → f h ≤ (l.map f).sum := by
    intro l f
    induction l with
    | nil => intro h; cases h
    | cons a l ih =>
      intro h
      simp only [List.map_cons, List.sum_cons]
      rcases List.mem_cons.mp h with rfl | h
      · omega
      · have := ih h; omega
  have := this hs (fun h => rankIn (LeadsOn hs fun _ => True) (hs.map Hop.reader) h.reader) hh
  omega

theorem Hop.carries_same {B : Hop → Bytes} {D D' : Str → Deed} {g : Hop} (h : g.src.ty = .launch → (D g.src.name).Same (D' g.src.name)) : g.carries B D = g.carries B D' := by
  unfold Hop.carries
  unfold Deed.Same at h
  split <;> simp_all

/-- **C90** If nothing leads back and what programs do is settled by the streams they get, there is only one solution. -/
theorem C90_unique (hS : c.Sound hs) (hcf : NoWayBack hs) (he : ∀ h ∈ hs, h.src.ty = .faucet ∨ h.src.ty = .launch ∨ ∃ g ∈ hs, g.to = h.from)
    {R : Str → Deed → Prop} (hR : ∀ x L S, c.Launches x → c.Into ⟨.launch, x⟩ L → c.Brings L S → Foregone (R x) S.length)
    {B : Hop → Bytes} {D D' : Str → Deed} (h1 : c.Solves R B D) (h2 : c.Solves R B D') (x : Str) (hx : c.Launches x) : (D x).Same (D' x) := by
  refine Classical.byContradiction fun hne => ?_
  have up : ∀ {a b : Str}, Relation.TransGen (fun a b => Relation.TransGen (LeadsOn hs fun _ => True) (.part (.launch, a) .input) (.part (.launch, b) .input)) a b →
      Relation.TransGen (LeadsOn hs fun _ => True) (.part (.launch, a) .input) (.part (.launch, b) .input) := fun h => by
    induction h with
    | single h => exact h
    | tail _ h ih => exact .trans ih h
  obtain ⟨j, hj, _⟩ := circle_before (S := fun x => c.Launches x ∧ ¬ (D x).Same (D' x)) (r := fun a b => Relation.TransGen (LeadsOn hs fun _ => True) (.part (.launch, a) .input) (.part (.launch, b) .input))
    (hs.flatMap fun h => [h.src.name, h.dst.name])
    (by
      rintro y ⟨⟨b, i, h, h3, h4⟩, _⟩
      refine List.mem_flatMap.mpr ⟨h, (hS.hops h).mpr ⟨b, i, h3⟩, ?_⟩
      rcases h4 with h4 | h4 <;> have := congrArg Prod.snd h4 <;> simp_all [Hop.from, Hop.to])
    (by
      rintro y ⟨hy, hyne⟩
      obtain ⟨L, S, hI, hB⟩ := C90_brought hS hcf he ⟨.launch, y⟩
      refine Classical.byContradiction fun hno => hyne ?_
      have same : ∀ g ∈ S, specLines (g.carries B D') = specLines (g.carries B D) := fun g hg => by
        refine congrArg specLines (Hop.carries_same fun ht => ?_)
        refine Classical.byContradiction fun hd => hno ⟨g.src.name, ⟨?_, fun e => hd ⟨e.1.symm, e.2.1.symm, e.2.2.symm⟩⟩, ?_⟩
        · obtain ⟨⟨b, i, hh⟩, _⟩ := hB.sources g hg
          exact ⟨b, i, g, hh, Or.inl (by simp [Hop.from, ht])⟩
        · obtain ⟨b, i, h, h3, h4, h5⟩ := hS.behind hB g hg ht
          obtain ⟨h', h6, h7⟩ := (hI.2 b i).mp h3
          cases hS.hop_unique h4 h6
          have : h.reader = .part (.launch, y) .input := by simp [Hop.reader, Hop.to, h7]
          rwa [this] at h5
      obtain ⟨l, m1, e1⟩ := h1.inputs y hy L S hI hB
      obtain ⟨l', m2, e2⟩ := h2.inputs y hy L S hI hB
      rw [List.map_congr_left same] at m2
      refine hR y L S hy hI hB (S.map fun g => g.carries B D) l l' _ _ (by simp) ?_ ?_ (h1.programs y hy) (h2.programs y hy) e1 e2 <;> simpa [List.map_map] using ‹_›)
    ⟨hx, hne⟩
  exact hcf _ (up hj)

end

/-- A complete run of a configuration, without trouble, of programs known to do this, with files that contain that: drains that keep what they get have got these bytes. -/
structure Config.Ends (c : Config) (hs : List Hop) (R : Str → Deed → Prop) (B : Hop → Bytes) (got : InRef → Bytes) : Prop where
  ends : ∃ perm perm' spyOrder c' printed w order cs w' cap room prog T,
    (∀ l, (perm l).Perm l) ∧ (∀ l, (perm' l).Perm l) ∧ (∀ l, (spyOrder l).Perm l) ∧ manipulate perm perm' spyOrder c = some (c', printed) ∧ getWaiter c' = .ok w ∧
    w.regulatorSettings order = .ok (cs, w') ∧ w'.WorldRun cs cap room prog T ∧ w'.AllOver cs T ∧ (∀ i, ∀ f ∈ acts (proj i (coreOf T)), f.trouble = false) ∧
    (∀ b i g, c.HopOf b i g → g.src.ty = .faucet → w'.Supplies (coreOf T) g (B g)) ∧ (∀ x, c.Launches x → (prog x).Meets (R x)) ∧
    ∀ h ∈ hs, h.dst.ty = .drain → got h.dst = bytesIn (3 * w'.idOf h.to) (proj h.reader (coreOf T))

/-- **C90** Determinacy: if nothing leads back and what programs do is settled by the streams they get, then two complete runs without trouble, whatever the order in which things happened, the order in which the
junctions were inserted, the sizes of the channels and of the pipes, and the programs, provided they are known to do the same, wrote the lines of the same streams to every drain that keeps them, mixed in one way or another; and the same bytes if only one
stream leads there. -/
theorem C90_determined {c : Config} {hs : List Hop} (hS : c.Sound hs) (hcf : NoWayBack hs) (he : ∀ h ∈ hs, h.src.ty = .faucet ∨ h.src.ty = .launch ∨ ∃ g ∈ hs, g.to = h.from)
    {R : Str → Deed → Prop} (hR : ∀ x L S, c.Launches x → c.Into ⟨.launch, x⟩ L → c.Brings L S → Foregone (R x) S.length) {B : Hop → Bytes} {got got' : InRef → Bytes}
    (h1 : c.Ends hs R B got) (h2 : c.Ends hs R B got') {h : Hop} (hh : h ∈ hs) (ht : h.dst.ty = .drain) (hd : c.drain.get h.dst.name ≠ some "/dev/null".toList) :
    (∃ L S, c.Into h.dst L ∧ c.Brings L S ∧ ∃ bs : List Bytes, bs.length = S.length ∧ ∃ l l', Mix (bs.map specLines) l ∧ Mix (bs.map specLines) l' ∧ got h.dst = l.flatten ∧ got' h.dst = l'.flatten) ∧
    (∀ L S, c.Into h.dst L → c.Brings L S → S.length ≤ 1 → got h.dst = got' h.dst) := by
  obtain ⟨b, i, hh'⟩ := (hS.hops h).mp hh
  obtain ⟨perm, perm', spyOrder, c', printed, w, order, cs, w', cap, room, prog, T, hp, hp', ho, hm, hw, hq, hT, hov, hf, hF, hM, hg⟩ := h1
  obtain ⟨D, _, k1, k2⟩ := C90_solved hS hp hp' ho hm hw hq hT hov hf hF hM
  replace k2 := k2 b i h hh' ht hd
  rw [← hg h hh ht] at k2
  obtain ⟨perm, perm', spyOrder, c', printed, w, order, cs, w', cap, room, prog, T, hp, hp', ho, hm, hw, hq, hT, hov, hf, hF, hM, hg⟩ := h2
  obtain ⟨D', _, k1', k2'⟩ := C90_solved hS hp hp' ho hm hw hq hT hov hf hF hM
  replace k2' := k2' b i h hh' ht hd
  rw [← hg h hh ht] at k2'
  have same : ∀ {L S}, c.Brings L S → S.map (fun g => specLines (g.carries B D')) = S.map fun g => specLines (g.carries B D) := fun hB =>
    List.map_congr_left fun g hg => congrArg specLines (Hop.carries_same fun hl => (by
      obtain ⟨⟨b, i, hb⟩, _⟩ := hB.sources g hg
      exact C90_unique hS hcf he hR k1' k1 _ ⟨b, i, g, hb, Or.inl (by simp [Hop.from, hl])⟩))
  constructor
  · obtain ⟨L, S, hI, hB⟩ := C90_brought hS hcf he h.dst
    obtain ⟨l, m, e⟩ := k2 L S hI hB
    obtain ⟨l', m', e'⟩ := k2' L S hI hB
    rw [same hB] at m'
    exact ⟨L, S, hI, hB, S.map fun g => g.carries B D, by simp, l, l', by rw [List.map_map]; exact m, by rw [List.map_map]; exact m', e, e'⟩
  · intro L S hI hB hl
    obtain ⟨l, m, e⟩ := k2 L S hI hB
    obtain ⟨l', m', e'⟩ := k2' L S hI hB
    rw [same hB] at m'
    rw [e, e', mix_short (by simpa using hl) m m']

end Verif
