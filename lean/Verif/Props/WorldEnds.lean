import Verif.Lemmas.WorldEnds
import Verif.Props.WorldBytes
/-!
# Property C87: a pipeline nothing of which leads back comes to its end, having computed what its programs compute

C85 says that something can always happen until everything has ended, C86 what has been computed by then. Here: if whoever can do something sooner or later does it, and no program goes on for ever by itself, the
end is reached.
-/
namespace Verif

section
variable {c c' : Config} {hs : List Hop} {perm : List OutRef → List OutRef} {perm' : List InRef → List InRef} {spyOrder : List Str → List Str} {printed : List Str}
variable {R : Map Hop} {w w' : Waiter} {order : List (Str × Watch)} {cs : List Capture} {cap : Caps} {room : Nat} {prog : Str → Program} {σ : Nat → Option Happening}

/-- Without managers no regulator waits to be told to resume. -/
theorem not_paused (hc : c.connection = hopSets R) (hw : getWaiter c = .ok w) (hp : w.regulatorSettings order = .ok ([], w')) (hC : Complete (R.map (·.2))) {τ : List (Who × Ev)} {r : Str} {t : Task}
    (h1 : w'.sys [] (.part (.regulator, r) .main) = some t) (h2 : t.Awaits (proj (.part (.regulator, r) .main) τ) (.recv .ctl (w'.idOf (.regulator, r)))) : False := by
  have A := assembled hc hw hp
  have hu : w'.Unmanaged := by rw [regulatorSettings_none hp]; exact unmanaged hc hw
  have hn : w'.node (.part (.regulator, r) .main) ≠ none := by
    intro hn
    rcases A.toRigged.others hC h1 hn with ⟨_, _, _, _, he, _⟩ | ⟨_, _, he, _⟩ | ⟨_, _, he, _⟩ | ⟨_, _, he, hd, _⟩ <;> cases he
    cases hd
  obtain ⟨n, hn⟩ := Option.ne_none_iff_exists'.mp hn
  rw [sys_node hn] at h1
  cases h1
  rcases A.kinds hC hu hn (h2.step none) (e := ⟨.recv .ctl (w'.idOf (.regulator, r)), none⟩) (by simp) rfl with h | ⟨h, _⟩ <;> cases h

/-- After the end nothing happens. -/
theorem Waiter.FairWorld.after (F : w.FairWorld cs cap room prog σ) {n : Nat} (h : w.AllOver cs (soFar σ n)) : ∀ m, n ≤ m → σ m = none ∧ soFar σ m = soFar σ n := by
  have key : ∀ m, n ≤ m → soFar σ m = soFar σ n := by
    intro m hm
    induction hm with
    | refl => rfl
    | @step m _ ih =>
      rw [soFar]
      cases ha : σ m with
      | none => simpa using ih
      | some a =>
        have := scheduled F.runs ha
        rw [ih] at this
        exact absurd this h.still
  refine fun m hm => ⟨?_, key m hm⟩
  cases ha : σ m with
  | none => rfl
  | some a =>
    have := scheduled F.runs ha
    rw [key m hm] at this
    exact absurd this h.still

/-- **C87** A runtime without managers nothing of which leads back, be it through programs: if whoever can make something happen, pipes and programs included, does so sooner or later, no program goes on for ever
without reading more and more, every file that is read has an end and no junction meets a failure, everything ends, programs included, and then nothing more happens. -/
theorem C87_ends (hc : c.connection = hopSets R) (hw : getWaiter c = .ok w) (hp : w.regulatorSettings order = .ok ([], w')) (hC : Complete (R.map (·.2)))
    (hcf : NoWayBack (R.map (·.2))) (hcap : ∀ k ch, cap k ch ≠ some 0) (hroom : 0 < room) (F : w'.FairWorld [] cap room prog σ)
    (hfin : ∀ x, w'.comps.get (.launch, x) ≠ none → (prog x).Finite)
    (hB : ∀ x h, ∃ B, ∀ n, (receivedFrom (.handle h) (proj (.part (.faucet, x) .main) (coreOf (soFar σ n)))).length ≤ B)
    (hj : ∀ n i inputs pushs spy, w'.node i = some (.junction inputs pushs spy) → ∀ f ∈ acts (proj i (coreOf (soFar σ n))), f.ruins pushs = false) :
    ∃ n, w'.AllOver [] (soFar σ n) ∧ ∀ m, n ≤ m → σ m = none := by
  obtain ⟨n, st, hst, h⟩ := (assembled hc hw hp).toRigged.worldEnds (attended hc hw hp) hC hcf (by simp) hcap hroom F hfin (fun x _ h _ _ => hB x h) hj
  have ho : w'.AllOver [] (soFar σ n) := Classical.byContradiction fun ho => by
    rcases h with h | ⟨r, ⟨_, h1, _⟩, _⟩ | ⟨r, ⟨t, h1, h2⟩, _⟩
    · exact ho h
    · cases h1
    · exact not_paused hc hw hp hC h1 h2
  exact ⟨n, ho, fun m hm => (F.after ho m hm).1⟩

/-- **C87** With managers: unless a manager is left waiting for room for a request, or a regulator is left waiting to be told to resume. -/
theorem C87_managed (hc : c.connection = hopSets R) (hw : getWaiter c = .ok w) (hp : w.regulatorSettings order = .ok (cs, w')) (hC : Complete (R.map (·.2)))
    (hcf : NoWayBack (R.map (·.2))) (hlh : ∀ a ∈ cs, a.low < a.high) (hcap : ∀ k ch, cap k ch ≠ some 0) (hroom : 0 < room) (F : w'.FairWorld cs cap room prog σ)
    (hfin : ∀ x, w'.comps.get (.launch, x) ≠ none → (prog x).Finite)
    (hB : ∀ x h, ∃ B, ∀ n, (receivedFrom (.handle h) (proj (.part (.faucet, x) .main) (coreOf (soFar σ n)))).length ≤ B)
    (hj : ∀ n i inputs pushs spy, w'.node i = some (.junction inputs pushs spy) → ∀ f ∈ acts (proj i (coreOf (soFar σ n))), f.ruins pushs = false) :
    ∃ n st, execAll cap Store.init ((coreOf (soFar σ n)).map Prod.snd) = some st ∧
      (w'.AllOver cs (soFar σ n) ∨ (∃ r, w'.Unheard cs cap st (coreOf (soFar σ n)) r) ∨ ∃ r, w'.Paused cs st (coreOf (soFar σ n)) r) :=
  (assembled hc hw hp).toRigged.worldEnds (attended hc hw hp) hC hcf hlh hcap hroom F hfin (fun x _ h _ _ => hB x h) hj

/-- Such a pipeline comes to its end. -/
theorem comesToEnd (hS : c.Sound hs) (hp : ∀ l, (perm l).Perm l) (hp' : ∀ l, (perm' l).Perm l) (ho : ∀ l, (spyOrder l).Perm l)
    (hm : manipulate perm perm' spyOrder c = some (c', printed)) (hw : getWaiter c' = .ok w) (hq : w.regulatorSettings order = .ok ([], w')) (hcf : NoWayBack hs)
    (hcap : ∀ k ch, cap k ch ≠ some 0) (hroom : 0 < room) (F : w'.FairWorld [] cap room prog σ) (hfin : ∀ x, w'.comps.get (.launch, x) ≠ none → (prog x).Finite)
    (hf' : ∀ n i, ∀ f ∈ acts (proj i (coreOf (soFar σ n))), f.trouble = false)
    {B : Hop → Bytes} (hF : ∀ n b i g, c.HopOf b i g → g.src.ty = .faucet → w'.Supplies (coreOf (soFar σ n)) g (B g)) : ∃ n, w'.AllOver [] (soFar σ n) := by
  obtain ⟨M, R, R', S', E, T', drain', printed', k1, P, k3⟩ := hS.laid hp hp' ho
  rw [hm] at k1
  cases k1
  have A := assembled rfl hw hq
  have hC := P.complete hS.hops hS.complete
  obtain ⟨n, st, hst, h⟩ := A.toRigged.worldEnds (attended rfl hw hq) hC (P.noWayBack hS.hops hS.legal.notDrain hcf) (by simp) hcap hroom F hfin (by
    intro x nd h hn hh
    obtain ⟨rfl, g, hg, hgf⟩ := A.toRigged.faucetStream hn hh
    obtain ⟨k, hk⟩ := (lists_map P.sorted' g).mp hg
    have hty : g.src.ty = .faucet := congrArg Prod.fst hgf
    have hR : R.get k = some g := by
      rcases P.split k g hk with ⟨t, _, _, rfl⟩ | h
      · cases hty
      · exact h
    obtain ⟨k', g', h1, h2⟩ := (P.ins.srcs (p := g.src) (by simp [hty])).mp ⟨k, g, hR, rfl⟩
    obtain ⟨b, i, h3, _⟩ := (P.hops k' g').mp h1
    have hgf' : g'.from = (.faucet, x) := by rw [← hgf]; simp [Hop.from, h2]
    have hty' : g'.src.ty = .faucet := by rw [h2]; exact hty
    refine ⟨(B g').length, fun n => ?_⟩
    rcases hF n b i g' h3 hty' with ⟨s, chunks, e1, e2, e3, e4⟩ | ⟨e1, _⟩
    case inr => rw [e1.1] at hty'; cases hty'
    have e5 : s = 3 * w'.idOf (.faucet, x) := by
      simp [Hop.stream, hty', hgf'] at e1
      exact e1.symm
    have e6 : g'.writer = .part (.faucet, x) .main := Hop.writer_iff.mpr ⟨hgf', by simp [hty']⟩
    rw [e5, e6] at e4
    have := (e4.lines e2).1.length_le
    have := specLines_few chunks.flatten
    rw [e3] at *
    omega) (fun n i inputs pushs spy hn f hm => by
      obtain ⟨E, U⟩ := A.run hC (F.runs n).core
      exact not_ruins (C55_no_failures (A.wired hC) E U (A.inside hC (F.runs n).core (hf' n)) i _ f hn hm))
  refine ⟨n, ?_⟩
  rcases h with h | ⟨r, ⟨_, h1, _⟩, _⟩ | ⟨r, ⟨t, h1, h2⟩, _⟩
  · exact h
  · cases h1
  · exact (not_paused rfl hw hq hC h1 h2).elim

/-- **C87** Total correctness: a pipeline without managers nothing of which leads back, all programs of which read their input to the end and do not go on for ever without reading: whatever the order in which
things happen, provided only that whoever can make something happen does so sooner or later, and that no file or notification fails, the pipeline comes to its end, and by then what a drain has written is what
the programs on the way make, one after the other, of what the file contains. -/
theorem C87_computes (hS : c.Sound hs) (hp : ∀ l, (perm l).Perm l) (hp' : ∀ l, (perm' l).Perm l) (ho : ∀ l, (spyOrder l).Perm l)
    (hm : manipulate perm perm' spyOrder c = some (c', printed)) (hw : getWaiter c' = .ok w) (hq : w.regulatorSettings order = .ok ([], w')) (hcf : NoWayBack hs)
    (hcap : ∀ k ch, cap k ch ≠ some 0) (hroom : 0 < room) (F : w'.FairWorld [] cap room prog σ)
    (hpat : ∀ x, w'.comps.get (.launch, x) ≠ none → (prog x).Patient) (hfin : ∀ x, w'.comps.get (.launch, x) ≠ none → (prog x).Finite)
    (hf : ∀ n i, (∀ x p, i ≠ .part (.launch, x) p) → ∀ f ∈ acts (proj i (coreOf (soFar σ n))), f.trouble = false)
    {B : Hop → Bytes} (hF : ∀ n b i g, c.HopOf b i g → g.src.ty = .faucet → w'.Supplies (coreOf (soFar σ n)) g (B g)) :
    ∃ n, w'.AllOver [] (soFar σ n) ∧ (∀ m, n ≤ m → σ m = none) ∧
      ∀ {b : Str} {i : Nat} {h g : Hop} {L : List (Str × Nat)} {bs : Bytes}, c.HopOf b i h → h.dst.ty = .drain → c.drain.get h.dst.name ≠ some "/dev/null".toList → c.Into h.dst L →
        c.Brings L [g] → c.Gives prog B g bs → bytesIn (3 * w'.idOf h.to) (proj h.reader (coreOf (soFar σ n))) = bs := by
  have hf' := fun n => C86_quiet hS hp hp' ho hm hw hq (F.runs n) hpat (hf n)
  obtain ⟨n, hov⟩ := comesToEnd hS hp hp' ho hm hw hq hcf hcap hroom F hfin hf' hF
  exact ⟨n, hov, fun m hm => (F.after hov m hm).1, fun hh ht hn hI hB hg => C86_pipeline hS hp hp' ho hm hw hq (F.runs n) hov (hf' n) (hF n) hh ht hn hI hB hg⟩

end
end Verif
