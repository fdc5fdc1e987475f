import Verif.Lemmas.Relieves
import Verif.Props.WorldSteer
/-!
# Property C96: another buffer lets the requests through

C95 has an exception: a manager may be kept waiting for ever by a regulator that does not take out what it was told earlier. Here: not if whatever the buffers it looks after can hold up lies downstream of the
regulator, as is the case with another buffer in between.
-/
namespace Verif

section
variable {c c' : Config} {hs : List Hop} {perm : List OutRef → List OutRef} {perm' : List InRef → List InRef} {spyOrder : List Str → List Str} {printed : List Str}
variable {R : Map Hop} {w w' : Waiter} {order : List (Str × Watch)} {cs : List Capture} {cap : Caps} {room : Nat} {prog : Str → Program} {σ : Nat → Option Happening}

/-- **C96** A runtime with managers nothing of which leads back, be it through programs, in which everything that a buffer with a manager can hold up lies downstream of the regulator, and no such buffer holds up
another: if whoever can make something happen, pipes and programs included, does so sooner or later, no program goes on for ever without reading more and more, every file that is read has an end, no junction or
regulator meets anything it cannot get over and no buffer meets a failure, everything ends, programs included, and then nothing more happens. -/
theorem C96_ends (hc : c.connection = hopSets R) (hw : getWaiter c = .ok w) (hp : w.regulatorSettings order = .ok (cs, w')) (hC : Complete (R.map (·.2)))
    (hcf : NoWayBack (R.map (·.2))) (hre : Relieved (R.map (·.2)) cs) (hlh : ∀ a ∈ cs, a.low < a.high) (hcap : ∀ k ch, cap k ch ≠ some 0) (hun : ∀ ch, R.length ≤ ch → cap .data ch = none)
    (hroom : 0 < room) (F : w'.FairWorld cs cap room prog σ) (hfin : ∀ x, w'.comps.get (.launch, x) ≠ none → (prog x).Finite)
    (hB : ∀ x nd h, w'.node (.part (.faucet, x) .main) = some nd → .handle h ∈ nd.sources → ∃ B, ∀ n, (receivedFrom (.handle h) (proj (.part (.faucet, x) .main) (coreOf (soFar σ n)))).length ≤ B)
    (hj : ∀ n i inputs pushs spy, w'.node i = some (.junction inputs pushs spy) → ∀ f ∈ acts (proj i (coreOf (soFar σ n))), f.ruins pushs = false)
    (hb : ∀ n x p k, w'.node (.part (.buffer, x) p) = some k → ∀ f ∈ acts (proj (.part (.buffer, x) p) (coreOf (soFar σ n))), f.fails = false)
    (hg : ∀ n r k, w'.node (.part (.regulator, r) .main) = some k → ¬ Failed (StopsAt (R.map (·.2)) (.part (.regulator, r) .main)) (proj (.part (.regulator, r) .main) (coreOf (soFar σ n)))) :
    ∃ n, w'.AllOver cs (soFar σ n) ∧ ∀ m, n ≤ m → σ m = none := by
  have A := assembled hc hw hp
  have M := attended hc hw hp
  have runs := F.runs
  have cruns : ∀ n, w'.Run cs cap (upTo (coreAt σ) n) := fun n => by rw [← coreOf_soFar]; exact (runs n).core
  obtain ⟨⟨K, hK⟩, hmv⟩ := A.toRigged.worldMoves M hC hcf hlh runs hfin hB
  obtain ⟨n1, h1⟩ := Waiter.calmed cruns hmv
  obtain ⟨n2, h2⟩ := A.toRigged.quietens hC runs hfin hK
  obtain ⟨st, C⟩ := h1 (max n1 n2) (Nat.le_max_left _ _)
  have quiet : ∀ m, max n1 n2 ≤ m → ∀ a, σ m = some a → a.IsCore := fun m hm => h2 m (by omega)
  generalize max n1 n2 = n at C quiet
  have hst := C.quiet n (Nat.le_refl _)
  rw [← coreOf_soFar] at hst
  have hno : ¬ w'.Lively cs cap room prog st (soFar σ n) := by
    rintro ⟨a, ha, hrest⟩
    obtain ⟨i, e, t, g, rfl, ht, g1, g2⟩ := A.toRigged.worldLull hC F C quiet a ha
    rw [← coreOf_soFar] at g1
    exact hrest i e rfl (A.toRigged.resting hC M hst (hj n) ht g1 g2)
  have hpa := A.unpausedBut hC M (hre.unbraided hcf) hroom hcap (by simpa using hun) F C quiet (fun x p k f hk hm => hb n x p k hk f hm) (hj n)
    (fun a ha x hx y ⟨b, hb, hy, _⟩ ht => hre.apart a ha x hx b hb y hy (Or.inr ht))
  have hu := A.relieved hC M hcf hre (runs n) hroom hst hcap (by simpa using hun) (hj n) (hg n) hno hpa
  have hov := A.toRigged.all_over hC M hcf (runs n) hroom hst hcap (hj n) hno hu hpa
  exact ⟨n, hov, fun m hm => (F.after hov m hm).1⟩

/-- **C96** Total correctness with flow control and the capacities of the code: a pipeline without exit ports nothing of which leads back, in which everything that a buffer with a manager can hold up lies downstream
of the regulator and no such buffer holds up another, all programs of which read their input to the end and do not go on for ever without reading: whatever the order in which things happen, provided only that whoever
can make something happen does so sooner or later, and that no file or notification fails, the pipeline comes to its end, and by then what a drain has written is what the programs on the way make, one after the
other, of what the file contains. -/
theorem C96_computes (hS : c.Sound hs) (hp : ∀ l, (perm l).Perm l) (hp' : ∀ l, (perm' l).Perm l) (ho : ∀ l, (spyOrder l).Perm l)
    (hm : manipulate perm perm' spyOrder c = some (c', printed)) (hw : getWaiter c' = .ok w) (hq : w.regulatorSettings order = .ok (cs, w')) (hcf : NoWayBack hs) (hx : ∀ h ∈ hs, ¬ h.isExit)
    (hre : Relieved hs cs) (hlh : ∀ a ∈ cs, a.low < a.high) (hcap : ∀ k ch, cap k ch ≠ some 0) (hun : ∀ ch, c'.connection.length ≤ ch → cap .data ch = none) (hroom : 0 < room)
    (F : w'.FairWorld cs cap room prog σ) (hpat : ∀ x, w'.comps.get (.launch, x) ≠ none → (prog x).Patient) (hfin : ∀ x, w'.comps.get (.launch, x) ≠ none → (prog x).Finite)
    (hf : ∀ n i, (∀ x p, i ≠ .part (.launch, x) p) → ∀ f ∈ acts (proj i (coreOf (soFar σ n))), f.trouble = false)
    {B : Hop → Bytes} (hF : ∀ n b i g, c.HopOf b i g → g.src.ty = .faucet → w'.Supplies (coreOf (soFar σ n)) g (B g)) :
    ∃ n, w'.AllOver cs (soFar σ n) ∧ (∀ m, n ≤ m → σ m = none) ∧
      ∀ {b : Str} {i : Nat} {h g : Hop} {L : List (Str × Nat)} {bs : Bytes}, c.HopOf b i h → h.dst.ty = .drain → c.drain.get h.dst.name ≠ some "/dev/null".toList → c.Into h.dst L →
        c.Brings L [g] → c.Gives prog B g bs → bytesIn (3 * w'.idOf h.to) (proj h.reader (coreOf (soFar σ n))) = bs := by
  have hf' := fun n => C86_quiet hS hp hp' ho hm hw hq (F.runs n) hpat (hf n)
  have fin : ∃ n, w'.AllOver cs (soFar σ n) ∧ ∀ m, n ≤ m → σ m = none := by
    obtain ⟨M, R, R', S', E, T', drain', printed', k1, P, k3⟩ := hS.laid hp hp' ho
    rw [hm] at k1
    cases k1
    have A := assembled rfl hw hq
    have hC := P.complete hS.hops hS.complete
    have nf := fun n i k f (hn : w'.node i = some k) hm => by
      obtain ⟨E, U⟩ := A.run hC (F.runs n).core
      exact C55_no_failures (A.wired hC) E U (A.inside hC (F.runs n).core (hf' n)) i k f hn hm
    exact C96_ends rfl hw hq hC (P.noWayBack hS.hops hS.legal.notDrain hcf) (P.relieved hS.hops hx hre) hlh hcap (by simpa [hopSets] using hun) hroom F hfin (P.filesEnd A.toRigged hF)
      (fun n i _ _ _ hn f hm => not_ruins (nf n i _ f hn hm)) (fun n x p k hk f hm => nf n _ k f hk hm) (fun n r k hk ⟨f, hm, hf⟩ => not_fatal (nf n _ k f hk hm) hf)
  obtain ⟨n, hov, hn⟩ := fin
  exact ⟨n, hov, hn, fun hh ht hn hI hB hg => C86_pipeline hS hp hp' ho hm hw hq (F.runs n) hov (hf' n) (hF n) hh ht hn hI hB hg⟩

/-- **C96** In particular with the capacities of the code. -/
theorem C96_real (hS : c.Sound hs) (hp : ∀ l, (perm l).Perm l) (hp' : ∀ l, (perm' l).Perm l) (ho : ∀ l, (spyOrder l).Perm l)
    (hm : manipulate perm perm' spyOrder c = some (c', printed)) (hR : c'.connection = hopSets R) (hw : getWaiter c' = .ok w) (hq : w.regulatorSettings order = .ok (cs, w')) (hcf : NoWayBack hs)
    (hx : ∀ h ∈ hs, ¬ h.isExit) (hre : Relieved hs cs) (hlh : ∀ a ∈ cs, a.low < a.high) (hroom : 0 < room)
    (F : w'.FairWorld cs (realCaps (R.map (·.2))) room prog σ) (hpat : ∀ x, w'.comps.get (.launch, x) ≠ none → (prog x).Patient)
    (hfin : ∀ x, w'.comps.get (.launch, x) ≠ none → (prog x).Finite)
    (hf : ∀ n i, (∀ x p, i ≠ .part (.launch, x) p) → ∀ f ∈ acts (proj i (coreOf (soFar σ n))), f.trouble = false)
    {B : Hop → Bytes} (hF : ∀ n b i g, c.HopOf b i g → g.src.ty = .faucet → w'.Supplies (coreOf (soFar σ n)) g (B g)) :
    ∃ n, w'.AllOver cs (soFar σ n) ∧ (∀ m, n ≤ m → σ m = none) ∧
      ∀ {b : Str} {i : Nat} {h g : Hop} {L : List (Str × Nat)} {bs : Bytes}, c.HopOf b i h → h.dst.ty = .drain → c.drain.get h.dst.name ≠ some "/dev/null".toList → c.Into h.dst L →
        c.Brings L [g] → c.Gives prog B g bs → bytesIn (3 * w'.idOf h.to) (proj h.reader (coreOf (soFar σ n))) = bs :=
  C96_computes hS hp hp' ho hm hw hq hcf hx hre hlh (realCaps_room _) (fun ch h => realCaps_buffers _ ch (by simpa [hR, hopSets] using h)) hroom F hpat hfin hf hF

end
end Verif
