import Verif.Lemmas.WorldSteer
import Verif.Lemmas.Braids
import Verif.Props.WorldSettles
/-!
# Property C95: flow control with programs

C87 and C93 say that pipelines without managers come to their end, or to rest, having computed what they should. Here: so do those with managers, if nobody can hold up themselves and unless a manager is kept
waiting for ever by a regulator that does not take out what it was told earlier.
-/
namespace Verif

section
variable {c c' : Config} {hs : List Hop} {perm : List OutRef → List OutRef} {perm' : List InRef → List InRef} {spyOrder : List Str → List Str} {printed : List Str}
variable {R : Map Hop} {w w' : Waiter} {order : List (Str × Watch)} {cs : List Capture} {cap : Caps} {room : Nat} {prog : Str → Program} {σ : Nat → Option Happening}

/-- From some time on a manager waits for ever for room for a request, nothing being taken out of any channel nor put into one any more. -/
def Waiter.LeftWaiting (w : Waiter) (cs : List Capture) (cap : Caps) (σ : Nat → Option Happening) : Prop :=
  ∃ r n st, ∀ m, n ≤ m → execAll cap Store.init ((coreOf (soFar σ m)).map Prod.snd) = some st ∧ w.Unheard cs cap st (coreOf (soFar σ m)) r

/-- Where requests can be left in any number nobody is. -/
theorem not_leftWaiting (h : ∀ ch, cap .ctl ch = none) : ¬ w.LeftWaiting cs cap σ := by
  rintro ⟨r, n, st, hn⟩
  obtain ⟨_, _, _, h3⟩ := hn n (Nat.le_refl _)
  rw [h] at h3
  exact h3 trivial

/-- **C95** A runtime with managers nothing of which leads back, be it through programs, and in which nobody can hold up themselves: if whoever can make something happen, pipes and programs included, does so sooner
or later, no program goes on for ever without reading more and more, every file that is read has an end and no junction or buffer meets a failure, everything ends, programs included, and then nothing more
happens, unless from some time on a manager waits for ever for room for a request. In particular no regulator stays paused for ever for any other reason. -/
theorem C95_ends (hc : c.connection = hopSets R) (hw : getWaiter c = .ok w) (hp : w.regulatorSettings order = .ok (cs, w')) (hC : Complete (R.map (·.2)))
    (hcf : NoWayBack (R.map (·.2))) (hub : Unbraided (R.map (·.2)) cs) (hlh : ∀ a ∈ cs, a.low < a.high) (hcap : ∀ k ch, cap k ch ≠ some 0) (hun : ∀ ch, R.length ≤ ch → cap .data ch = none)
    (hroom : 0 < room) (F : w'.FairWorld cs cap room prog σ) (hfin : ∀ x, w'.comps.get (.launch, x) ≠ none → (prog x).Finite)
    (hB : ∀ x nd h, w'.node (.part (.faucet, x) .main) = some nd → .handle h ∈ nd.sources → ∃ B, ∀ n, (receivedFrom (.handle h) (proj (.part (.faucet, x) .main) (coreOf (soFar σ n)))).length ≤ B)
    (hj : ∀ n i inputs pushs spy, w'.node i = some (.junction inputs pushs spy) → ∀ f ∈ acts (proj i (coreOf (soFar σ n))), f.ruins pushs = false)
    (hb : ∀ n x p k, w'.node (.part (.buffer, x) p) = some k → ∀ f ∈ acts (proj (.part (.buffer, x) p) (coreOf (soFar σ n))), f.fails = false) :
    (∃ n, w'.AllOver cs (soFar σ n) ∧ ∀ m, n ≤ m → σ m = none) ∨ w'.LeftWaiting cs cap σ := by
  have A := assembled hc hw hp
  have M := attended hc hw hp
  have runs := F.runs
  have cruns : ∀ n, w'.Run cs cap (upTo (coreAt σ) n) := fun n => by rw [← coreOf_soFar]; exact (runs n).core
  obtain ⟨⟨K, hK⟩, hmv⟩ := A.toRigged.worldMoves M hC hcf hlh runs hfin hB
  obtain ⟨n1, h1⟩ := Waiter.calmed cruns hmv
  obtain ⟨n2, h2⟩ := A.toRigged.quietens hC runs hfin hK
  obtain ⟨st, C⟩ := h1 (max n1 n2) (Nat.le_max_left _ _)
  have quiet : ∀ m, max n1 n2 ≤ m → ∀ a, σ m = some a → a.IsCore := fun m hm => h2 m (by omega)
  generalize max n1 n2 = n at C quiet
  by_cases hu : ∃ r, w'.Unheard cs cap st (coreOf (soFar σ n)) r
  · obtain ⟨r, hr⟩ := hu
    exact Or.inr ⟨r, n, st, C.unheard hr⟩
  · left
    have hu : ∀ r, ¬ w'.Unheard cs cap st (coreOf (soFar σ n)) r := fun r h => hu ⟨r, h⟩
    have hst := C.quiet n (Nat.le_refl _)
    rw [← coreOf_soFar] at hst
    have hno : ¬ w'.Lively cs cap room prog st (soFar σ n) := by
      rintro ⟨a, ha, hrest⟩
      obtain ⟨i, e, t, g, rfl, ht, g1, g2⟩ := A.toRigged.worldLull hC F C quiet a ha
      rw [← coreOf_soFar] at g1
      exact hrest i e rfl (A.toRigged.resting hC M hst (hj n) ht g1 g2)
    have hov := A.toRigged.all_over hC M hcf (runs n) hroom hst hcap (hj n) hno hu
      (A.unpaused hC M hub hroom hcap (by simpa using hun) F C quiet (fun x p k f hk hm => hb n x p k hk f hm) (hj n) hu)
    exact ⟨n, hov, fun m hm => (F.after hov m hm).1⟩

/-- Files of known content have an end. -/
theorem Laid.filesEnd {M R R' : Map Hop} {S : List SIns} {E : List EIns} {T : List Spy} (P : Laid c M R R' S E T) (A : Rigged c' (R'.map (·.2)) w') {B : Hop → Bytes}
    (hF : ∀ n b i g, c.HopOf b i g → g.src.ty = .faucet → w'.Supplies (coreOf (soFar σ n)) g (B g)) (x : Str) (nd : Node) (h : Nat)
    (hn : w'.node (.part (.faucet, x) .main) = some nd) (hh : .handle h ∈ nd.sources) :
    ∃ B, ∀ n, (receivedFrom (.handle h) (proj (.part (.faucet, x) .main) (coreOf (soFar σ n)))).length ≤ B := by
  obtain ⟨rfl, g, hg, hgf⟩ := A.faucetStream hn hh
  obtain ⟨k, hk⟩ := (lists_map P.sorted' g).mp hg
  have hty : g.src.ty = .faucet := congrArg Prod.fst hgf
  have hR : R.get k = some g := by
    rcases P.split k g hk with ⟨t, _, _, rfl⟩ | h
    · cases hty
    · exact h
  obtain ⟨k', g', h1, h2⟩ := (P.ins.srcs (p := g.src) (by simp [hty])).mp ⟨k, g, hR, rfl⟩
  obtain ⟨b, i, h3, _⟩ := (P.hops k' g').mp h1
  have hgf' : g'.from = (.faucet, x) := by rw [← hgf]; simp [Hop.from, h2]
  have hty' : g'.src.ty = .faucet := by rw [h2]; exact hty
  refine ⟨(B g').length, fun n => ?_⟩
  rcases hF n b i g' h3 hty' with ⟨s, chunks, e1, e2, e3, e4⟩ | ⟨e1, _⟩
  case inr => rw [e1.1] at hty'; cases hty'
  have e5 : s = 3 * w'.idOf (.faucet, x) := by
    simp [Hop.stream, hty', hgf'] at e1
    exact e1.symm
  have e6 : g'.writer = .part (.faucet, x) .main := Hop.writer_iff.mpr ⟨hgf', by simp [hty']⟩
  rw [e5, e6] at e4
  have := (e4.lines e2).1.length_le
  have := specLines_few chunks.flatten
  rw [e3] at *
  omega

/-- **C95** Total correctness with flow control: a pipeline nothing of which leads back and in which nobody can hold up themselves, all programs of which read their input to the end and do not go on for ever
without reading: whatever the order in which things happen, provided only that whoever can make something happen does so sooner or later, and that no file or notification fails, the pipeline comes to its end, and
by then what a drain has written is what the programs on the way make, one after the other, of what the file contains; unless a manager is kept waiting for ever. -/
theorem C95_computes (hS : c.Sound hs) (hp : ∀ l, (perm l).Perm l) (hp' : ∀ l, (perm' l).Perm l) (ho : ∀ l, (spyOrder l).Perm l)
    (hm : manipulate perm perm' spyOrder c = some (c', printed)) (hw : getWaiter c' = .ok w) (hq : w.regulatorSettings order = .ok (cs, w')) (hcf : NoWayBack hs) (hub : Unbraided hs cs)
    (hlh : ∀ a ∈ cs, a.low < a.high) (hcap : ∀ k ch, cap k ch ≠ some 0) (hun : ∀ ch, c'.connection.length ≤ ch → cap .data ch = none) (hroom : 0 < room) (F : w'.FairWorld cs cap room prog σ)
    (hpat : ∀ x, w'.comps.get (.launch, x) ≠ none → (prog x).Patient) (hfin : ∀ x, w'.comps.get (.launch, x) ≠ none → (prog x).Finite)
    (hf : ∀ n i, (∀ x p, i ≠ .part (.launch, x) p) → ∀ f ∈ acts (proj i (coreOf (soFar σ n))), f.trouble = false)
    {B : Hop → Bytes} (hF : ∀ n b i g, c.HopOf b i g → g.src.ty = .faucet → w'.Supplies (coreOf (soFar σ n)) g (B g)) :
    (∃ n, w'.AllOver cs (soFar σ n) ∧ (∀ m, n ≤ m → σ m = none) ∧
      ∀ {b : Str} {i : Nat} {h g : Hop} {L : List (Str × Nat)} {bs : Bytes}, c.HopOf b i h → h.dst.ty = .drain → c.drain.get h.dst.name ≠ some "/dev/null".toList → c.Into h.dst L →
        c.Brings L [g] → c.Gives prog B g bs → bytesIn (3 * w'.idOf h.to) (proj h.reader (coreOf (soFar σ n))) = bs) ∨ w'.LeftWaiting cs cap σ := by
  have hf' := fun n => C86_quiet hS hp hp' ho hm hw hq (F.runs n) hpat (hf n)
  have fin : (∃ n, w'.AllOver cs (soFar σ n) ∧ ∀ m, n ≤ m → σ m = none) ∨ w'.LeftWaiting cs cap σ := by
    obtain ⟨M, R, R', S', E, T', drain', printed', k1, P, k3⟩ := hS.laid hp hp' ho
    rw [hm] at k1
    cases k1
    have A := assembled rfl hw hq
    have hC := P.complete hS.hops hS.complete
    have nf := fun n i k f (hn : w'.node i = some k) hm => by
      obtain ⟨E, U⟩ := A.run hC (F.runs n).core
      exact C55_no_failures (A.wired hC) E U (A.inside hC (F.runs n).core (hf' n)) i k f hn hm
    refine C95_ends rfl hw hq hC (P.noWayBack hS.hops hS.legal.notDrain hcf) (P.unbraided hS.hops hub) hlh hcap (by simpa [hopSets] using hun) hroom F hfin (P.filesEnd A.toRigged hF)
      (fun n i _ _ _ hn f hm => not_ruins (nf n i _ f hn hm)) fun n x p k hk f hm => nf n _ k f hk hm
  rcases fin with ⟨n, hov, hn⟩ | h
  · exact Or.inl ⟨n, hov, hn, fun hh ht hn hI hB hg => C86_pipeline hS hp hp' ho hm hw hq (F.runs n) hov (hf' n) (hF n) hh ht hn hI hB hg⟩
  · exact Or.inr h

/-- **C95** So were the channels for requests unlimited, the outcome would be what it is without flow control. -/
theorem C95_unlimited (hS : c.Sound hs) (hp : ∀ l, (perm l).Perm l) (hp' : ∀ l, (perm' l).Perm l) (ho : ∀ l, (spyOrder l).Perm l)
    (hm : manipulate perm perm' spyOrder c = some (c', printed)) (hw : getWaiter c' = .ok w) (hq : w.regulatorSettings order = .ok (cs, w')) (hcf : NoWayBack hs) (hub : Unbraided hs cs)
    (hlh : ∀ a ∈ cs, a.low < a.high) (hcap : ∀ k ch, cap k ch ≠ some 0) (hun : ∀ ch, c'.connection.length ≤ ch → cap .data ch = none) (hctl : ∀ ch, cap .ctl ch = none) (hroom : 0 < room)
    (F : w'.FairWorld cs cap room prog σ) (hpat : ∀ x, w'.comps.get (.launch, x) ≠ none → (prog x).Patient) (hfin : ∀ x, w'.comps.get (.launch, x) ≠ none → (prog x).Finite)
    (hf : ∀ n i, (∀ x p, i ≠ .part (.launch, x) p) → ∀ f ∈ acts (proj i (coreOf (soFar σ n))), f.trouble = false)
    {B : Hop → Bytes} (hF : ∀ n b i g, c.HopOf b i g → g.src.ty = .faucet → w'.Supplies (coreOf (soFar σ n)) g (B g)) :
    ∃ n, w'.AllOver cs (soFar σ n) ∧ (∀ m, n ≤ m → σ m = none) ∧
      ∀ {b : Str} {i : Nat} {h g : Hop} {L : List (Str × Nat)} {bs : Bytes}, c.HopOf b i h → h.dst.ty = .drain → c.drain.get h.dst.name ≠ some "/dev/null".toList → c.Into h.dst L →
        c.Brings L [g] → c.Gives prog B g bs → bytesIn (3 * w'.idOf h.to) (proj h.reader (coreOf (soFar σ n))) = bs :=
  (C95_computes hS hp hp' ho hm hw hq hcf hub hlh hcap hun hroom F hpat hfin hf hF).resolve_right (not_leftWaiting hctl)

/-- **C95** With loops and merges: a pipeline every loop of which goes through a program, in which nobody can hold up themselves (so every loop has a buffer), all programs of which go through their input line by line and
do not go on for ever without reading: whatever the order in which things happen, provided only that whoever can make something happen does so sooner or later, and that no file or notification fails, if there is a
plan, then from some time on nothing is on its way any more, every program has read the lines of the least solution, and every drain has written what the programs and files before it make of that; unless a manager
is kept waiting for ever. -/
theorem C95_rests {f : Str → Port → Bytes → List Bytes} {B : Hop → Bytes} (hS : c.Sound hs) (hp : ∀ l, (perm l).Perm l) (hp' : ∀ l, (perm' l).Perm l) (ho : ∀ l, (spyOrder l).Perm l)
    (hm : manipulate perm perm' spyOrder c = some (c', printed)) (hw : getWaiter c' = .ok w) (hq : w.regulatorSettings order = .ok (cs, w')) (hcf : CircleFree hs)
    (hub : Unbraided hs cs) (hlh : ∀ a ∈ cs, a.low < a.high) (hcap : ∀ k ch, cap k ch ≠ some 0) (hun : ∀ ch, c'.connection.length ≤ ch → cap .data ch = none) (hroom : 0 < room)
    (F : w'.FairWorld cs cap room prog σ) (hfin : ∀ x, c.Launches x → (prog x).Finite)
    (hf : ∀ n i, (∀ x p, i ≠ .part (.launch, x) p) → ∀ f ∈ acts (proj i (coreOf (soFar σ n))), f.trouble = false)
    (hx : ∀ b i g, c.HopOf b i g → ¬ g.isExit) (hL : ∀ x, c.Launches x → (prog x).LineByLine (f x))
    (hF : ∀ n b i g, c.HopOf b i g → g.src.ty = .faucet → w'.Supplies (coreOf (soFar σ n)) g (B g)) (hB : ∀ b i g, c.HopOf b i g → g.src.ty = .faucet → ∀ l ∈ specLines (B g), IsCompleteLine l)
    {M : Str → List Bytes} (hM : c.Grants f B M) :
    (∃ N, ∀ n, N ≤ n → (∃ st, execAll cap Store.init ((coreOf (soFar σ n)).map Prod.snd) = some st ∧ w'.AtRest cs cap room prog st (soFar σ n)) ∧
      (c.Balances f B (linesRead (soFar σ n)) ∧ (∀ M, c.Grants f B M → ∀ x, Among (linesRead (soFar σ n) x) (M x)) ∧
       ∀ b i h L S, c.HopOf b i h → h.dst.ty = .drain → c.drain.get h.dst.name ≠ some "/dev/null".toList → c.Into h.dst L → c.Brings L S →
        (specLines (bytesIn (3 * w'.idOf h.to) (proj h.reader (coreOf (soFar σ n))))).Perm (S.flatMap (·.flow f B (linesRead (soFar σ n)))))) ∨ w'.LeftWaiting cs cap σ := by
  have run := fun x => running hS hp hp' ho hm hw hq x
  have hf' := fun n => C86_quiet hS hp hp' ho hm hw hq (F.runs n) (fun x h => (hL x ((run x).mp h)).reads) (hf n)
  have hF' := fun n b i g hg e => And.intro (hF n b i g hg e) (hB b i g hg e)
  have given := fun n => C93_given hS hp hp' ho hm hw hq (F.runs n) (hf' n) hx hL (fun b i g hg e => ⟨hF n b i g hg e, hB b i g hg e⟩) hM
  have rest : (∃ N, ∀ n, N ≤ n → ∃ st, execAll cap Store.init ((coreOf (soFar σ n)).map Prod.snd) = some st ∧ w'.AtRest cs cap room prog st (soFar σ n)) ∨ w'.LeftWaiting cs cap σ := by
    obtain ⟨N0, hN0⟩ := C93_settles hS hp hp' ho hm hw hq hcf hlh F hfin hf hx hL hF hB hM
    obtain ⟨M', R, R', S', E, T', drain', printed', k1, P, k3⟩ := hS.laid hp hp' ho
    rw [hm] at k1
    cases k1
    have A := assembled rfl hw hq
    have T := attended rfl hw hq
    have hC := P.complete hS.hops hS.complete
    have nf := fun n i k f (hn : w'.node i = some k) hm => by
      obtain ⟨E, U⟩ := A.run hC (F.runs n).core
      exact C55_no_failures (A.wired hC) E U (A.inside hC (F.runs n).core (hf' n)) i k f hn hm
    have runs := F.runs
    have cruns : ∀ n, w'.Run cs cap (upTo (coreAt σ) n) := fun n => by rw [← coreOf_soFar]; exact (runs n).core
    have hfin' : ∀ x, w'.comps.get (.launch, x) ≠ none → (prog x).Finite := fun x h => hfin x ((run x).mp h)
    have hin : ∀ x, w'.comps.get (.launch, x) ≠ none → ∃ K, ∀ n, (received (proj (.part (.launch, x) .input) (coreOf (soFar σ n)))).length ≤ K := fun x _ => ⟨(M x).length, fun n => by
      obtain ⟨r, hr⟩ := given n x
      have := hr.length_eq
      rw [List.length_append] at this
      omega⟩
    obtain ⟨n1, h1⟩ := Waiter.calmed cruns (A.toRigged.limitedMoves T hC (P.circleFree hS.hops hS.legal.notDrain hcf) hlh runs hfin' (P.filesEnd A.toRigged hF) hin)
    obtain ⟨n2, h2⟩ := A.toRigged.limitedQuiet hC runs hfin' hin
    by_cases hu : ∃ n st, max n1 n2 ≤ n ∧ w'.Calmed cs cap (coreAt σ) n st ∧ ∃ r, w'.Unheard cs cap st (coreOf (soFar σ n)) r
    · obtain ⟨n, st, _, C, r, hr⟩ := hu
      exact Or.inr ⟨r, n, st, C.unheard hr⟩
    · refine Or.inl ⟨max N0 (max n1 n2), fun n hn => ?_⟩
      obtain ⟨st, hst, hno⟩ := hN0 n (by omega)
      obtain ⟨st', C⟩ := h1 n (by omega)
      have hst' := C.quiet n (Nat.le_refl _)
      rw [← coreOf_soFar, hst] at hst'
      cases hst'
      have hu : ∀ r, ¬ w'.Unheard cs cap st (coreOf (soFar σ n)) r := fun r h => hu ⟨n, st, by omega, C, r, h⟩
      exact ⟨st, hst, hno, hu, A.unpaused hC T (P.unbraided hS.hops hub) hroom hcap (by simpa [hopSets] using hun) F C (fun m hm => h2 m (by omega)) (fun x p k f hk hm => nf n _ k f hk hm)
        (fun i _ _ _ hn f hm => not_ruins (nf n i _ f hn hm)) hu⟩
  rcases rest with ⟨N, hN⟩ | h
  · refine Or.inl ⟨N, fun n hn => ?_⟩
    obtain ⟨st, hst, rest⟩ := hN n hn
    obtain ⟨k1, _, k3⟩ := C92_balanced hS hp hp' ho hm hw hq hub.buffered hcap hun hroom (F.runs n) hst (hf' n) rest hx hL (hF' n)
    exact ⟨⟨st, hst, rest⟩, k1, fun M hM => C92_bounded hS hp hp' ho hm hw hq (F.runs n) (hf' n) hx hL (hF' n) hM, k3⟩
  · exact Or.inr h

end
end Verif
