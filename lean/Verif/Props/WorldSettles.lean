import Verif.Lemmas.WorldFinal
import Verif.Lemmas.WorldFair
import Verif.Props.Variations
import Verif.Props.WorldEnds
import Verif.Props.WorldLines
/-!
# C93: With a buffer on every loop a fair schedule comes to rest, if anything can

C91 and C92 say what holds once nothing is on its way any more. Here: that this is reached, and lasts. With loops a program may send itself work for ever; where programs go line by line it does not if, and only if,
there is a finite plan of what they have to read.
-/
namespace Verif

section
variable {c c' : Config} {hs : List Hop} {perm : List OutRef → List OutRef} {perm' : List InRef → List InRef} {spyOrder : List Str → List Str} {printed : List Str}
variable {R : Map Hop} {w w' : Waiter} {order : List (Str × Watch)} {cs : List Capture} {cap : Caps} {room : Nat} {prog : Str → Program} {σ : Nat → Option Happening}

/-- **C93** A runtime in which every loop goes through a program: if whoever can make something happen, pipes and programs included, does so sooner or later, no program goes on for ever without reading more and
more, no junction meets a failure, every file that is read has an end, and no program is given more and more to read, then from some time on nothing is on its way any more. -/
theorem C93_rests (hc : c.connection = hopSets R) (hw : getWaiter c = .ok w) (hp : w.regulatorSettings order = .ok (cs, w')) (hC : Complete (R.map (·.2)))
    (hcf : CircleFree (R.map (·.2))) (hlh : ∀ a ∈ cs, a.low < a.high) (F : w'.FairWorld cs cap room prog σ)
    (hfin : ∀ x, w'.comps.get (.launch, x) ≠ none → (prog x).Finite)
    (hB : ∀ x h, ∃ B, ∀ n, (receivedFrom (.handle h) (proj (.part (.faucet, x) .main) (coreOf (soFar σ n)))).length ≤ B)
    (hin : ∀ x, w'.comps.get (.launch, x) ≠ none → ∃ K, ∀ n, (received (proj (.part (.launch, x) .input) (coreOf (soFar σ n)))).length ≤ K)
    (hj : ∀ n i inputs pushs spy, w'.node i = some (.junction inputs pushs spy) → ∀ f ∈ acts (proj i (coreOf (soFar σ n))), f.fails = false) :
    ∃ N, ∀ n, N ≤ n → ∃ st, execAll cap Store.init ((coreOf (soFar σ n)).map Prod.snd) = some st ∧ ¬ w'.Stirs cs cap room prog st (soFar σ n) :=
  (assembled hc hw hp).toRigged.worldRests (attended hc hw hp) hC hcf hlh F hfin (fun x _ h _ _ => hB x h) hin hj

variable {T : List Happening} {f : Str → Port → Bytes → List Bytes} {B : Hop → Bytes}

/-- **C93** At all times: no program has been given more lines than a plan grants. -/
theorem C93_given (hS : c.Sound hs) (hp : ∀ l, (perm l).Perm l) (hp' : ∀ l, (perm' l).Perm l) (ho : ∀ l, (spyOrder l).Perm l)
    (hm : manipulate perm perm' spyOrder c = some (c', printed)) (hw : getWaiter c' = .ok w) (hq : w.regulatorSettings order = .ok (cs, w')) (hT : w'.WorldRun cs cap room prog T)
    (hf : ∀ i, ∀ f ∈ acts (proj i (coreOf T)), f.trouble = false) (hx : ∀ b i g, c.HopOf b i g → ¬ g.isExit) (hL : ∀ x, c.Launches x → (prog x).LineByLine (f x))
    (hF : ∀ b i g, c.HopOf b i g → g.src.ty = .faucet → w'.Supplies (coreOf T) g (B g) ∧ ∀ l ∈ specLines (B g), IsCompleteLine l)
    {M : Str → List Bytes} (hM : c.Grants f B M) (x : Str) : Among (received (proj (.part (.launch, x) .input) (coreOf T))) (M x) := by
  have hl : ∀ b i g, c.HopOf b i g → g.src.ty = .launch → (prog g.src.name).LineByLine (f g.src.name) := fun b i g hg h => hL _ ⟨b, i, g, hg, Or.inl (by simp [Hop.from, h])⟩
  have bounded := C92_bounded hS hp hp' ho hm hw hq hT hf hx hL hF hM
  by_cases hin : ∀ b i h, c.HopOf b i h → h.dst ≠ ⟨.launch, x⟩
  · obtain ⟨M', R, R', S', E, T', drain', printed', k1, P, k3⟩ := hS.laid hp hp' ho
    rw [hm] at k1
    cases k1
    have A := assembled rfl hw hq
    have hC := P.complete hS.hops hS.complete
    have hno : w'.sys cs (.part (.launch, x) .input) = none := by
      cases ht : w'.sys cs (.part (.launch, x) .input) with
      | none => rfl
      | some t =>
        exfalso
        obtain ⟨n, hn, _⟩ := A.toRigged.launchNode hC (by simp [relayPieces]) ht
        obtain ⟨j, ch, j', rfl⟩ := A.inputNode hn
        rcases (A.toRigged.sources hn ch).mp (by simp [Node.sources, Pull.source]) with ⟨g, hg, hr⟩ | ⟨h1, _⟩
        · have h1 : g.dst = ⟨.launch, x⟩ := by
            simp only [Hop.reader, Who.part.injEq, Hop.to, Prod.mk.injEq] at hr
            cases hd : g.dst
            rw [hd] at hr
            simp only at hr
            rw [hr.1.1, hr.1.2]
          obtain ⟨b, i, h, h2, h3⟩ := P.into (List.mem_of_getElem? hg) (by simp [h1]) (by simp [h1])
          exact hin b i h h2 (h3.trans h1)
        · cases h1
    rw [hT.core.silent hno]
    exact ⟨M x, .refl _⟩
  have ex : ∃ b i h, c.HopOf b i h ∧ h.dst = ⟨.launch, x⟩ := Classical.byContradiction fun hn => hin fun b i h h1 h2 => hn ⟨b, i, h, h1, h2⟩
  obtain ⟨b, i, h, hh, hd⟩ := ex
  obtain ⟨L, S, hI, hB, hA⟩ := hM b i h hh (by rw [hd])
  have src := hB.sources
  have hreg : ∀ x, Regular (historyOf x T) := by
    obtain ⟨M', R, R', S', E, T', drain', printed', k1, P, k3⟩ := hS.laid hp hp' ho
    rw [hm] at k1
    cases k1
    exact fun x => (assembled rfl hw hq).regular (P.complete hS.hops hS.complete) hT hf x
  obtain ⟨ls, q1, q2⟩ := C78_taken hS hp hp' ho hm hw hq hT.core (B := fun g => (g.flow f B (linesRead T)).flatten) hh hI hB fun g hg => by
    obtain ⟨⟨b', i', hg'⟩, hty⟩ := src g hg
    exact hT.flows hreg hty (hx _ _ _ hg') (hl _ _ _ hg') fun e => (hF _ _ _ hg' e).1
  have wh : ∀ g ∈ S, ∀ l ∈ g.flow f B (linesRead T), IsCompleteLine l := fun g hg => by
    obtain ⟨⟨b', i', hg'⟩, hty⟩ := src g hg
    exact Hop.flow_whole hty (fun e => (hl _ _ _ hg' e).whole) fun e => (hF _ _ _ hg' e).2
  have eS : (S.map fun g => specLines (g.flow f B (linesRead T)).flatten) = S.map fun g => g.flow f B (linesRead T) := List.map_congr_left fun g hg => specLines_whole (wh g hg)
  rw [eS] at q1
  have er : h.reader = .part (.launch, x) .input := by simp only [Hop.reader, Hop.to, hd]
  rw [er] at q2
  have a2 := (Among.of_perm q2.perm).trans q1.among
  rw [← List.flatMap_def] at a2
  rw [hd] at hA
  exact (a2.trans (Among.flatMap_each fun g hg => Hop.flow_among fun e => bounded _)).trans hA

/-- **C93** So, where every loop has a buffer and programs go through their input line by line: if there is a plan, then from some time on nothing is on its way any more. -/
theorem C93_settles (hS : c.Sound hs) (hp : ∀ l, (perm l).Perm l) (hp' : ∀ l, (perm' l).Perm l) (ho : ∀ l, (spyOrder l).Perm l)
    (hm : manipulate perm perm' spyOrder c = some (c', printed)) (hw : getWaiter c' = .ok w) (hq : w.regulatorSettings order = .ok (cs, w')) (hcf : CircleFree hs)
    (hlh : ∀ a ∈ cs, a.low < a.high) (F : w'.FairWorld cs cap room prog σ) (hfin : ∀ x, c.Launches x → (prog x).Finite)
    (hf : ∀ n i, (∀ x p, i ≠ .part (.launch, x) p) → ∀ f ∈ acts (proj i (coreOf (soFar σ n))), f.trouble = false)
    (hx : ∀ b i g, c.HopOf b i g → ¬ g.isExit) (hL : ∀ x, c.Launches x → (prog x).LineByLine (f x))
    (hF : ∀ n b i g, c.HopOf b i g → g.src.ty = .faucet → w'.Supplies (coreOf (soFar σ n)) g (B g)) (hB : ∀ b i g, c.HopOf b i g → g.src.ty = .faucet → ∀ l ∈ specLines (B g), IsCompleteLine l)
    {M : Str → List Bytes} (hM : c.Grants f B M) :
    ∃ N, ∀ n, N ≤ n → ∃ st, execAll cap Store.init ((coreOf (soFar σ n)).map Prod.snd) = some st ∧ ¬ w'.Stirs cs cap room prog st (soFar σ n) := by
  have run := fun x => running hS hp hp' ho hm hw hq x
  have hf' := fun n => C86_quiet hS hp hp' ho hm hw hq (F.runs n) (fun x h => (hL x ((run x).mp h)).reads) (hf n)
  have given := fun n => C93_given hS hp hp' ho hm hw hq (F.runs n) (hf' n) hx hL (fun b i g hg e => ⟨hF n b i g hg e, hB b i g hg e⟩) hM
  obtain ⟨M', R, R', S', E, T', drain', printed', k1, P, k3⟩ := hS.laid hp hp' ho
  rw [hm] at k1
  cases k1
  have A := assembled rfl hw hq
  have hC := P.complete hS.hops hS.complete
  refine A.toRigged.worldRests (attended rfl hw hq) hC (P.circleFree hS.hops hS.legal.notDrain hcf) hlh F (fun x h => hfin x ((run x).mp h)) ?_ (fun x _ => ⟨(M x).length, fun n => ?_⟩) fun n i inputs pushs spy hn f hm => ?_
  · intro x nd h hn hh
    obtain ⟨rfl, g, hg, hgf⟩ := A.toRigged.faucetStream hn hh
    obtain ⟨k, hk⟩ := (lists_map P.sorted' g).mp hg
    have hty : g.src.ty = .faucet := congrArg Prod.fst hgf
    have hR : R.get k = some g := by
      rcases P.split k g hk with ⟨t, _, _, rfl⟩ | h
      · cases hty
      · exact h
    obtain ⟨k', g', h1, h2⟩ := (P.ins.srcs (p := g.src) (by simp [hty])).mp ⟨k, g, hR, rfl⟩
    obtain ⟨b, i, h3, _⟩ := (P.hops k' g').mp h1
    have hgf' : g'.from = (.faucet, x) := by rw [← hgf]; simp [Hop.from, h2]
    have hty' : g'.src.ty = .faucet := by rw [h2]; exact hty
    refine ⟨(B g').length, fun n => ?_⟩
    rcases hF n b i g' h3 hty' with ⟨s, chunks, e1, e2, e3, e4⟩ | ⟨e1, _⟩
    case inr => rw [e1.1] at hty'; cases hty'
    have e5 : s = 3 * w'.idOf (.faucet, x) := by
      simp [Hop.stream, hty', hgf'] at e1
      exact e1.symm
    have e6 : g'.writer = .part (.faucet, x) .main := Hop.writer_iff.mpr ⟨hgf', by simp [hty']⟩
    rw [e5, e6] at e4
    have := (e4.lines e2).1.length_le
    have := specLines_few chunks.flatten
    rw [e3] at *
    omega
  · obtain ⟨r, hr⟩ := given n x
    have := hr.length_eq
    rw [List.length_append] at this
    omega
  · obtain ⟨E, U⟩ := A.run hC (F.runs n).core
    exact C55_no_failures (A.wired hC) E U (A.inside hC (F.runs n).core (hf' n)) i _ f hn hm

/-- **C93** Total correctness with loops and merges: a pipeline without managers every loop of which goes through a program and has a buffer, all programs of which go through their input line by line and do not go on
for ever without reading: whatever the order in which things happen, provided only that whoever can make something happen does so sooner or later, and that no file or notification fails, if there is a plan, then
from some time on nothing is on its way any more, every program has read the lines of the least solution, and every drain has written what the programs and files before it make of that. -/
theorem C93_computes (hS : c.Sound hs) (hp : ∀ l, (perm l).Perm l) (hp' : ∀ l, (perm' l).Perm l) (ho : ∀ l, (spyOrder l).Perm l)
    (hm : manipulate perm perm' spyOrder c = some (c', printed)) (hw : getWaiter c' = .ok w) (hq : w.regulatorSettings order = .ok ([], w')) (hcf : CircleFree hs) (hb : LoopsBuffered hs)
    (hcap : ∀ k ch, cap k ch ≠ some 0) (hun : ∀ ch, c'.connection.length ≤ ch → cap .data ch = none) (hroom : 0 < room)
    (F : w'.FairWorld [] cap room prog σ) (hfin : ∀ x, c.Launches x → (prog x).Finite)
    (hf : ∀ n i, (∀ x p, i ≠ .part (.launch, x) p) → ∀ f ∈ acts (proj i (coreOf (soFar σ n))), f.trouble = false)
    (hx : ∀ b i g, c.HopOf b i g → ¬ g.isExit) (hL : ∀ x, c.Launches x → (prog x).LineByLine (f x))
    (hF : ∀ n b i g, c.HopOf b i g → g.src.ty = .faucet → w'.Supplies (coreOf (soFar σ n)) g (B g)) (hB : ∀ b i g, c.HopOf b i g → g.src.ty = .faucet → ∀ l ∈ specLines (B g), IsCompleteLine l)
    {M : Str → List Bytes} (hM : c.Grants f B M) :
    ∃ N, ∀ n, N ≤ n → (∃ st, execAll cap Store.init ((coreOf (soFar σ n)).map Prod.snd) = some st ∧ w'.AtRest [] cap room prog st (soFar σ n)) ∧
      (c.Balances f B (linesRead (soFar σ n)) ∧ (∀ M, c.Grants f B M → ∀ x, Among (linesRead (soFar σ n) x) (M x)) ∧
       ∀ b i h L S, c.HopOf b i h → h.dst.ty = .drain → c.drain.get h.dst.name ≠ some "/dev/null".toList → c.Into h.dst L → c.Brings L S →
        (specLines (bytesIn (3 * w'.idOf h.to) (proj h.reader (coreOf (soFar σ n))))).Perm (S.flatMap (·.flow f B (linesRead (soFar σ n))))) := by
  have run := fun x => running hS hp hp' ho hm hw hq x
  have hf' := fun n => C86_quiet hS hp hp' ho hm hw hq (F.runs n) (fun x h => (hL x ((run x).mp h)).reads) (hf n)
  have hF' := fun n b i g hg e => And.intro (hF n b i g hg e) (hB b i g hg e)
  obtain ⟨N, hN⟩ := C93_settles hS hp hp' ho hm hw hq hcf (by simp) F hfin hf hx hL hF hB hM
  refine ⟨N, fun n hn => ?_⟩
  obtain ⟨st, hst, hno⟩ := hN n hn
  have rest : w'.AtRest [] cap room prog st (soFar σ n) := by
    obtain ⟨M', R, R', S', E, T', drain', printed', k1, P, k3⟩ := hS.laid hp hp' ho
    rw [hm] at k1
    cases k1
    refine ⟨hno, ?_, ?_⟩
    · rintro r ⟨⟨_, h1, _⟩, _⟩; cases h1
    · rintro r ⟨⟨t, h1, h2⟩, _⟩
      exact not_paused rfl hw hq (P.complete hS.hops hS.complete) h1 h2
  obtain ⟨k1, _, k3⟩ := C92_balanced hS hp hp' ho hm hw hq hb hcap hun hroom (F.runs n) hst (hf' n) rest hx hL (hF' n)
  exact ⟨⟨st, hst, rest⟩, k1, fun M hM => C92_bounded hS hp hp' ho hm hw hq (F.runs n) (hf' n) hx hL (hF' n) hM, k3⟩

/-- **C93** Whether it comes to rest is a matter of the lines alone: it does if and only if there is a plan. -/
theorem C93_iff (hS : c.Sound hs) (hp : ∀ l, (perm l).Perm l) (hp' : ∀ l, (perm' l).Perm l) (ho : ∀ l, (spyOrder l).Perm l)
    (hm : manipulate perm perm' spyOrder c = some (c', printed)) (hw : getWaiter c' = .ok w) (hq : w.regulatorSettings order = .ok ([], w')) (hcf : CircleFree hs) (hb : LoopsBuffered hs)
    (hcap : ∀ k ch, cap k ch ≠ some 0) (hun : ∀ ch, c'.connection.length ≤ ch → cap .data ch = none) (hroom : 0 < room)
    (F : w'.FairWorld [] cap room prog σ) (hfin : ∀ x, c.Launches x → (prog x).Finite)
    (hf : ∀ n i, (∀ x p, i ≠ .part (.launch, x) p) → ∀ f ∈ acts (proj i (coreOf (soFar σ n))), f.trouble = false)
    (hx : ∀ b i g, c.HopOf b i g → ¬ g.isExit) (hI : ∀ b i h, c.HopOf b i h → h.dst.ty = .launch → ∃ L S, c.Into h.dst L ∧ c.Brings L S) (hL : ∀ x, c.Launches x → (prog x).LineByLine (f x))
    (hF : ∀ n b i g, c.HopOf b i g → g.src.ty = .faucet → w'.Supplies (coreOf (soFar σ n)) g (B g)) (hB : ∀ b i g, c.HopOf b i g → g.src.ty = .faucet → ∀ l ∈ specLines (B g), IsCompleteLine l) :
    (∃ M, c.Grants f B M) ↔ ∃ n st, execAll cap Store.init ((coreOf (soFar σ n)).map Prod.snd) = some st ∧ w'.AtRest [] cap room prog st (soFar σ n) := by
  constructor
  · rintro ⟨M, hM⟩
    obtain ⟨N, hN⟩ := C93_computes hS hp hp' ho hm hw hq hcf hb hcap hun hroom F hfin hf hx hL hF hB hM
    exact ⟨N, (hN N (Nat.le_refl _)).1⟩
  · rintro ⟨n, st, hst, hno⟩
    have run := fun x => running hS hp hp' ho hm hw hq x
    have hf' := C86_quiet hS hp hp' ho hm hw hq (F.runs n) (fun x h => (hL x ((run x).mp h)).reads) (hf n)
    refine ⟨linesRead (soFar σ n), fun b i h hh ht => ?_⟩
    obtain ⟨L, S, h1, h2⟩ := hI b i h hh ht
    exact ⟨L, S, h1, h2, .of_perm ((C92_balanced hS hp hp' ho hm hw hq hb hcap hun hroom (F.runs n) hst hf' hno hx hL fun b i g hg e => ⟨hF n b i g hg e, hB b i g hg e⟩).1 b i h L S hh ht h1 h2).symm⟩

/-- **C93** It lasts: in a runtime without managers, once nothing is on its way any more and no junction has met a failure, all that can ever happen is that those that were looking again and again then go on
looking, finding nothing: programs and pipes do nothing more, nothing more is in any channel, and files, programs' inputs and outputs, buffers, regulators and drains do nothing more. -/
theorem C93_final (hc : c.connection = hopSets R) (hw : getWaiter c = .ok w) (hp : w.regulatorSettings order = .ok ([], w')) (hC : Complete (R.map (·.2))) (hcap : ∀ k ch, cap k ch ≠ some 0)
    {st : Store} (hst : execAll cap Store.init ((coreOf T).map Prod.snd) = some st) (hno : ¬ w'.Stirs [] cap room prog st T)
    (hj : ∀ i inputs pushs spy, w'.node i = some (.junction inputs pushs spy) → ∀ f ∈ acts (proj i (coreOf T)), f.fails = false) {U : List Happening} (hU : w'.WorldRun [] cap room prog (T ++ U)) :
    (∀ a ∈ U, ∃ i e, a = .core i e ∧ w'.Dozes [] st (coreOf T) i ∧ e.looks = true) ∧
    (∀ i, (∀ inputs pushs spy, w'.node i ≠ some (.junction inputs pushs spy)) → (∀ r, i ≠ .part r .count) → proj i (coreOf (T ++ U)) = proj i (coreOf T)) ∧
    ∃ st', execAll cap Store.init ((coreOf (T ++ U)).map Prod.snd) = some st' ∧ ∀ ch, st' .data ch = st .data ch := by
  obtain ⟨h1, st', h2, h3⟩ := (assembled hc hw hp).toRigged.final hC (attended hc hw hp) hcap hst hno hj hU
  refine ⟨h1, fun i n1 n2 => h3.others i ?_, st', h2, fun ch => h3.chans _ ch (by simp)⟩
  rintro ⟨(⟨inputs, pushs, spy, hn, _⟩ | ⟨r, h, _⟩) | ⟨_, h, _⟩, _⟩
  · exact n1 _ _ _ hn
  · exact n2 r h
  · cases h

theorem Comp.node_kind {k : Comp} {id n : Nat} {p : Piece} {inputs pushs spy} (h : k.node id n p = some (.junction inputs pushs spy)) : ∃ y z, k = .junction y z := by
  unfold Comp.node at h
  split at h <;> first | exact ⟨_, _, rfl⟩ | (unfold relayNode at h; split at h <;> cases h) | cases h

/-- Whatever is a junction is called one. -/
theorem Rigged.junctions {c : Config} {hs : List Hop} {w : Waiter} (A : Rigged c hs w) {i : Who} {inputs pushs spy} (h : w.node i = some (.junction inputs pushs spy)) : ∃ x p, i = .part (.junction, x) p := by
  obtain ⟨r, p, kk, rfl, _, hk, hexp, hkn⟩ := A.node_inv h
  obtain ⟨y, z, rfl⟩ := Comp.node_kind hkn
  obtain ⟨_, x⟩ := r
  cases expected_ty_junction hexp.symm
  exact ⟨x, p, rfl⟩

/-- **C93** So, where there are no managers and nothing went wrong: once nothing is on its way any more, nothing will go wrong any more, programs have done what they will ever do, files have been read as far as they
will ever be, and drains have got what they will ever get. -/
theorem C93_stays (hS : c.Sound hs) (hp : ∀ l, (perm l).Perm l) (hp' : ∀ l, (perm' l).Perm l) (ho : ∀ l, (spyOrder l).Perm l)
    (hm : manipulate perm perm' spyOrder c = some (c', printed)) (hw : getWaiter c' = .ok w) (hq : w.regulatorSettings order = .ok ([], w')) (hcap : ∀ k ch, cap k ch ≠ some 0)
    {st : Store} (hst : execAll cap Store.init ((coreOf T).map Prod.snd) = some st) (hno : ¬ w'.Stirs [] cap room prog st T)
    (hf : ∀ i, ∀ f ∈ acts (proj i (coreOf T)), f.trouble = false) {U : List Happening} (hU : w'.WorldRun [] cap room prog (T ++ U)) :
    (∀ i, ∀ f ∈ acts (proj i (coreOf (T ++ U))), f.trouble = false) ∧ (∀ x, historyOf x (T ++ U) = historyOf x T) ∧
    (∀ b i h, c.HopOf b i h → h.src.ty = .faucet → proj h.writer (coreOf (T ++ U)) = proj h.writer (coreOf T)) ∧
    ∀ b i h, c.HopOf b i h → h.dst.ty = .drain → proj h.reader (coreOf (T ++ U)) = proj h.reader (coreOf T) := by
  obtain ⟨M', R, R', S', E, T', drain', printed', k1, P, k3⟩ := hS.laid hp hp' ho
  rw [hm] at k1
  cases k1
  have A := assembled rfl hw hq
  have hC := P.complete hS.hops hS.complete
  obtain ⟨h1, h2, _⟩ := C93_final rfl hw hq hC hcap hst hno (fun i inputs pushs spy hn f hm => by
    obtain ⟨E, U⟩ := A.run hC hU.prefix.core
    exact C55_no_failures (A.wired hC) E U (A.inside hC hU.prefix.core hf) i _ f hn hm) hU
  refine ⟨fun i f hm => ?_, fun x => ?_, fun b i h hh ht => h2 _ (fun _ _ _ hn => ?_) (fun r hr => ?_), fun b i h hh ht => h2 _ (fun _ _ _ hn => ?_) (fun r hr => ?_)⟩
  · rw [coreOf_append, proj_append, acts_append, List.mem_append] at hm
    rcases hm with hm | hm
    · exact hf i f hm
    · obtain ⟨e, he, rfl⟩ := List.mem_map.mp hm
      have := mem_proj.mp he
      simp only [coreOf, List.mem_filterMap] at this
      obtain ⟨a, ha, hb⟩ := this
      obtain ⟨j, e', rfl, _, hl⟩ := h1 a ha
      cases hb
      exact (looks_act hl).2.2.2
  · rw [historyOf_append, (cores (u := U) fun a ha => by obtain ⟨i, e, h, _⟩ := h1 a ha; exact ⟨i, e, h⟩).1, List.append_nil]
  · obtain ⟨x, p, h3⟩ := A.toRigged.junctions hn
    obtain ⟨h4, _⟩ := Hop.writer_iff.mp h3
    have := congrArg Prod.fst h4
    simp [Hop.from, ht] at this
  · simp [Hop.writer, ht] at hr
  · obtain ⟨x, p, h3⟩ := A.toRigged.junctions hn
    simp [Hop.reader, Hop.to, ht] at h3
  · simp [Hop.reader, ht] at hr

/-- **C93** Whatever has happened so far, it can go on so that whoever can make something happen does so sooner or later. -/
theorem C93_fair {w : Waiter} (hT : w.WorldRun cs cap room prog T) : ∃ σ, w.FairWorld cs cap room prog σ ∧ soFar σ T.length = T :=
  ⟨_, Waiter.schedule_fair hT, by rw [Waiter.schedule_before (Nat.le_refl _), List.take_length]⟩

end
end Verif
