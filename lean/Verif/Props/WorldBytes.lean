import Verif.Lemmas.WorldBytes
import Verif.Lemmas.WorldProgress
import Verif.Lemmas.WorldCircles
import Verif.Lemmas.WorldExit
import Verif.Props.World
import Verif.Spec.World
/-!
# Property C86: pipelines compute what their programs compute

With programs as processes and pipes of limited size (C85): what a program reads is what the programs and files before it give, byte for byte; so a drain gets what the programs before it make, one after the
other, of what the faucet gives, as in a UNIX pipeline.
-/
namespace Verif

/-- The text of an exit code: in decimal notation (`codeText_decimal`), or an underscore. -/
def endBytes : Option Int → Bytes
  | some n => asciiBytes (codeText n)
  | none => [95]

/-- What an exit port tells about a program so far: nothing, or the text of its exit code. -/
def lastWord (l : List PEv) : Bytes := l.flatMap fun
  | .exit k => endBytes k
  | _ => []

/-- What comes out of where a hop begins: what the program has printed so far, or what it has ended with, or what the file contains. -/
def Hop.printed (B : Hop → Bytes) (T : List Happening) (g : Hop) : Bytes :=
  match g.src.ty, g.src.port with
  | .launch, .out => putOut .out (historyOf g.src.name T)
  | .launch, .err => putOut .err (historyOf g.src.name T)
  | .launch, .exit => lastWord (historyOf g.src.name T)
  | _, _ => B g

/-- What comes out of where a hop begins, according to the programs on the way. -/
inductive Config.Gives (c : Config) (prog : Str → Program) (B : Hop → Bytes) : Hop → Bytes → Prop
  | file {b : Str} {i : Nat} {g : Hop} : c.HopOf b i g → g.src.ty = .faucet → c.Gives prog B g (B g)
  | program {b b' : Str} {i i' : Nat} {g h g' : Hop} {L : List (Str × Nat)} {f : Bytes → Bytes} {bs : Bytes} : c.HopOf b i g → g.src.ty = .launch → g.src.port = .out → (prog g.src.name).Filters f →
      c.HopOf b' i' h → h.dst = ⟨.launch, g.src.name⟩ → c.Into h.dst L → c.Brings L [g'] → c.Gives prog B g' bs → c.Gives prog B g (f bs)

/-- What comes out of where a hop begins at most, according to the programs on the way, whatever else happens. -/
inductive Config.GivesAtMost (c : Config) (prog : Str → Program) (B : Hop → Bytes) : Hop → Bytes → Prop
  | file {b : Str} {i : Nat} {g : Hop} : c.HopOf b i g → g.src.ty = .faucet → c.GivesAtMost prog B g (B g)
  | program {b b' : Str} {i i' : Nat} {g h g' : Hop} {L : List (Str × Nat)} {f : Bytes → Bytes} {bs : Bytes} : c.HopOf b i g → g.src.ty = .launch → g.src.port = .out → (prog g.src.name).Follows f →
      (∀ x y, x <+: y → f x <+: f y) → c.HopOf b' i' h → h.dst = ⟨.launch, g.src.name⟩ → c.Into h.dst L → c.Brings L [g'] → c.GivesAtMost prog B g' bs → c.GivesAtMost prog B g (f bs)

section
variable {c c' : Config} {hs : List Hop} {perm : List OutRef → List OutRef} {perm' : List InRef → List InRef} {spyOrder : List Str → List Str} {printed : List Str}
  {w w' : Waiter} {order : List (Str × Watch)} {cs : List Capture} {cap : Caps} {room : Nat} {prog : Str → Program} {T : List Happening}

theorem Config.Brings.sources {L : List (Str × Nat)} {S : List Hop} (h : c.Brings L S) : ∀ g ∈ S, (∃ b i, c.HopOf b i g) ∧ (g.src.ty = .faucet ∨ g.src.ty = .launch) := by
  induction h with
  | none => intro g hg; cases hg
  | stream h1 h2 _ ih =>
    intro g hg
    rcases List.mem_cons.mp hg with rfl | hg
    · exact ⟨⟨_, _, h1⟩, h2⟩
    · exact ih g hg
  | through _ _ _ _ _ _ _ ih1 ih2 =>
    intro g hg
    rcases List.mem_append.mp hg with hg | hg
    · exact ih1 g hg
    · exact ih2 g hg

theorem lastWord_none {l : List PEv} (h : ¬ Exited l) : lastWord l = [] := by
  unfold lastWord
  rw [List.flatMap_eq_nil_iff]
  intro e he
  cases e with
  | exit k => exact absurd ⟨k, he⟩ h
  | _ => rfl

theorem Waiter.WorldRun.lastWord (hT : w'.WorldRun cs cap room prog T) {x : Str} {k : Option Int} (h : .exit k ∈ historyOf x T) : Verif.lastWord (historyOf x T) = endBytes k := by
  obtain ⟨l, e, hl⟩ := hT.final h
  have : Verif.lastWord (l ++ [.exit k]) = Verif.lastWord l ++ Verif.lastWord [.exit k] := by simp [Verif.lastWord]
  rw [e, this, lastWord_none hl, List.nil_append]
  simp [Verif.lastWord]

theorem endBytes_text (k : Option Int) : ExitText (statusOf k) (endBytes k) := by
  cases k with
  | none => rfl
  | some n => exact ⟨_, codeText_decimal n, rfl⟩

/-- What a program prints is what its streams supply. -/
theorem Waiter.WorldRun.supplies (hT : w'.WorldRun cs cap room prog T) {B : Hop → Bytes} {g : Hop} (hg : g.src.ty = .faucet ∨ g.src.ty = .launch)
    (hB : g.src.ty = .faucet → w'.Supplies (coreOf T) g (B g)) : w'.Supplies (coreOf T) g (g.printed B T) := by
  rcases hg with hg | h1
  · have : g.printed B T = B g := by simp [Hop.printed, hg]
    rw [this]
    exact hB hg
  · obtain ⟨⟨ty, name, port⟩, _, _, _, _⟩ := g
    dsimp only at h1
    subst h1
    cases port with
    | out =>
      obtain ⟨ch, k1, k2, k3⟩ := hT.portReads name .out
      exact Or.inl ⟨_, ch, rfl, k1, k2, k3⟩
    | err =>
      obtain ⟨ch, k1, k2, k3⟩ := hT.portReads name .err
      exact Or.inl ⟨_, ch, rfl, k1, k2, k3⟩
    | exit =>
      refine Or.inr ⟨⟨rfl, rfl⟩, fun s hs _ => ?_⟩
      obtain ⟨k, h1, rfl⟩ := hT.status (mem_statuses hs)
      rw [show Hop.printed B T ⟨⟨.launch, name, .exit⟩, _, _, _, _⟩ = Verif.lastWord (historyOf name T) from rfl, hT.lastWord h1]
      exact endBytes_text k

/-- If nothing fails, programs are listened to. -/
theorem Assembled.regular {c : Config} (A : Assembled c hs w) (hC : Complete hs) (hT : w.WorldRun cs cap room prog T) (hf : ∀ i, ∀ f ∈ acts (proj i (coreOf T)), f.trouble = false) (x : Str) :
    Regular (historyOf x T) := by
  refine ⟨fun a b e => hT.nothing e, ?_⟩
  induction hT with
  | start => intro a p b e; simp [historyOf] at e
  | @next T s hT hs ih =>
    have hf' : ∀ i, ∀ f ∈ acts (proj i (coreOf T)), f.trouble = false := fun i f hm => hf i f (by
      rw [coreOf_append, proj_append, acts_append]; exact List.mem_append_left _ hm)
    have ih := ih hf'
    intro a p b e
    cases hs with
    | core => exact ih a p b (by simpa using e)
    | draw => exact ih a p b (by simpa using e)
    | feed => exact ih a p b (by simpa using e)
    | @prog y z h1 h2 h3 h4 =>
      rw [historyOf_append, historyOf_prog] at e
      split at e
      · next hy =>
        subst hy
        rcases List.eq_nil_or_concat b with rfl | ⟨v', z', rfl⟩
        · obtain ⟨rfl, rfl⟩ := snoc_inj e
          rcases h4 with h4 | ⟨h4, h5⟩
          · exact h4
          · obtain ⟨ex, u⟩ := A.run hC hT.core
            have nf := C55_no_failures (A.wired hC) ex u (A.inside hC hT.core hf')
            obtain ⟨t, ht⟩ := Option.ne_none_iff_exists'.mp h4
            obtain ⟨n, hn, _⟩ := A.launchNode hC p.relays ht
            exact A.printed hC hT h4 h5 fun f hm => nf (.part (.launch, y) p.piece) n f hn hm
        · rw [List.concat_eq_append, ← List.cons_append, ← List.append_assoc] at e
          exact ih a p v' (snoc_inj e).1
      · exact ih a p b (by simpa using e)

/-- What a launch does can only fail because the program is gone. -/
theorem Assembled.quiet {c : Config} (A : Assembled c hs w) (hC : Complete hs) (hT : w.WorldRun cs cap room prog T) (hpat : ∀ x, w.comps.get (.launch, x) ≠ none → (prog x).Patient)
    (hf : ∀ i, (∀ x p, i ≠ .part (.launch, x) p) → ∀ f ∈ acts (proj i (coreOf T)), f.trouble = false) : ∀ i, ∀ f ∈ acts (proj i (coreOf T)), f.trouble = false := by
  induction hT with
  | start => intro i f hm; cases hm
  | @next T a hT ha ih =>
    have ih := ih fun i hi f hm => hf i hi f (by rw [coreOf_append, proj_append, acts_append]; exact List.mem_append_left _ hm)
    cases ha with
    | draw => simpa using ih
    | feed => simpa using ih
    | prog => simpa using ih
    | @core j e h1 h2 =>
      intro i f hm
      by_cases hi : ∀ x p, i ≠ .part (.launch, x) p
      · exact hf i hi f hm
      rw [coreOf_append, coreOf_core, proj_append, acts_append, proj_one] at hm
      replace hm := List.mem_append.mp hm
      rcases hm with hm | hm
      · exact ih i f hm
      split at hm
      case isFalse => cases hm
      next hij =>
      subst hij
      have hm : f = act e := by simpa [acts] using hm
      subst hm
      have hi : ∃ x p, j = .part (.launch, x) p := Classical.byContradiction fun g => hi fun x p e => g ⟨x, p, e⟩
      obtain ⟨x, p, rfl⟩ := hi
      obtain ⟨t, ht⟩ := Option.ne_none_iff_exists'.mp (h1.known (.part (.launch, x) p, e) (by simp))
      have hpar := h1.exec.tasks _ _ ht
      rw [proj_append, proj_one, if_pos rfl] at hpar
      cases hn : w.node (.part (.launch, x) p) with
      | none =>
        rcases A.toRigged.others hC ht hn with ⟨r, pe, ch, g, he, hr, rfl, _⟩ | ⟨_, _, he, hr, _⟩ | ⟨_, _, he, _⟩ | ⟨_, _, he, hr, _⟩
        · have := Task.only (t := exitTask pe) (fun _ => exitBody_only pe) (by simp [exitTask]) hpar e (by simp)
          obtain ⟨q, r⟩ := e
          rcases this with rfl | rfl | ⟨m, rfl⟩ | rfl
          · rfl
          · rfl
          · cases r <;> rfl
          · rfl
        · cases he; cases hr
        · cases he
        · cases he; cases hr
      | some n =>
        rw [sys_node hn] at ht
        cases ht
        have hp : p = .input ∨ ∃ q : Port, p = q.piece := by
          obtain ⟨r, p', k, e1, hme, hk, hpl, hkn⟩ := A.node_inv hn
          simp only [Who.part.injEq] at e1
          obtain ⟨e1, e2⟩ := e1
          subst e1 e2
          rw [expected_launch _ _ _ _ rfl] at hpl
          rw [plain_launch hpl] at hkn
          cases p with
          | input => exact Or.inl rfl
          | output => exact Or.inr ⟨.out, rfl⟩
          | error => exact Or.inr ⟨.err, rfl⟩
          | _ => simp [Comp.node] at hkn
        have hok := (A.wired hC).ok (.part (.launch, x) p) _ hn
        have hcon := node_conduct hok hpar
        have haw := relay_awaits hpar
        obtain ⟨q, r⟩ := e
        rcases hp with rfl | ⟨po, rfl⟩
        · obtain ⟨jj, ch, j', rfl⟩ := A.inputNode hn
          have hw := relayTask_only hpar ⟨q, r⟩ (by simp)
          cases q with
          | recv k c => cases k <;> cases r <;> rfl
          | tryRecv k c => cases k <;> cases r <;> rfl
          | send k c m =>
            have := hw (k, c) rfl
            simp [relayChans, Push.owned, Pull.owned] at this
            obtain ⟨rfl, rfl⟩ := this
            cases r <;> rfl
          | streamRead h =>
            rcases haw with haw | ⟨_, _, haw⟩
            · have := reading_sources hok haw
              simp [Node.sources, Pull.source] at this
            · have := congrArg Ev.q haw; cases this
          | ioFlush h =>
            have := h2.flush x h r rfl rfl
            subst this
            rfl
          | ioWrite h d =>
            rcases h2.write x h d r rfl rfl with ⟨rfl, _⟩ | ⟨rfl, g⟩
            · rfl
            · exfalso
              have hx : w.comps.get (.launch, x) ≠ none := by
                intro hx
                simp [Waiter.node, hx] at hn
              have hall := hpat x hx _ (hT.lives x) (A.regular hC hT ih x) g
              exact ((hT.readsAll hall).2 _ (sys_node hn)).stops hpar
          | _ => rfl
        · obtain ⟨jj, j', ch, rfl⟩ := A.portNode hn
          have hw := relayTask_only hpar ⟨q, r⟩ (by simp)
          cases q with
          | recv k c => cases k <;> cases r <;> rfl
          | tryRecv k c => cases k <;> cases r <;> rfl
          | send k c m =>
            have := hw (k, c) rfl
            simp [relayChans, Push.owned, Pull.owned] at this
            obtain ⟨rfl, rfl⟩ := this
            cases r <;> rfl
          | streamRead h =>
            cases r with
            | err n =>
              exfalso
              obtain ⟨g, _⟩ := h2.read x po h _ rfl rfl
              rw [readsFrom_at (hT.fine x po)] at g
              have e1 : answers h (proj (.part (.launch, x) po.piece) (coreOf T) ++ [⟨.streamRead h, .err n⟩]) = answers h (proj (.part (.launch, x) po.piece) (coreOf T)) ++ [.err n] := by
                rw [answers_append]; simp [answers]
              rw [e1] at g
              have := g (answers h (proj (.part (.launch, x) po.piece) (coreOf T))).length (by simp)
              simp only [List.getElem?_append_right (Nat.le_refl _), Nat.sub_self, List.getElem?_cons_zero, Option.some.injEq] at this
              unfold lineAt at this
              split at this <;> cases this
            | _ => rfl
          | ioFlush h =>
            rcases haw with haw | ⟨_, _, haw⟩
            · obtain ⟨s, t1, t2, _, h4, _⟩ := haw
              exact absurd rfl ((sender_noFlush (n := s)).awaits h4 h)
            · have := congrArg Ev.q haw; cases this
          | ioWrite h d =>
            exfalso
            have : ∃ y, (⟨.handle h, d, y⟩ : Offer) ∈ offers [⟨.ioWrite h d, r⟩] := by
              cases r <;> exact ⟨_, by simp [offers, acts, act]; rfl⟩
            obtain ⟨y, hy⟩ := this
            have := hcon.to _ (by rw [offers_append]; exact List.mem_append_right _ hy)
            simp [Node.targets, Push.target] at this
          | _ => rfl

/-- **C86** At all times, whatever the programs do: what a program has read is the beginning of a mixture of lines that the programs and files before it have given, each keeping its order. -/
theorem C86_reads (hS : c.Sound hs) (hp : ∀ l, (perm l).Perm l) (hp' : ∀ l, (perm' l).Perm l) (ho : ∀ l, (spyOrder l).Perm l)
    (hm : manipulate perm perm' spyOrder c = some (c', printed)) (hw : getWaiter c' = .ok w) (hq : w.regulatorSettings order = .ok (cs, w')) (hT : w'.WorldRun cs cap room prog T)
    {b : Str} {i : Nat} {h : Hop} {L : List (Str × Nat)} {S : List Hop} {B : Hop → Bytes} (hh : c.HopOf b i h) (ht : h.dst.ty = .launch) (hI : c.Into h.dst L) (hB : c.Brings L S)
    (hF : ∀ g ∈ S, g.src.ty = .faucet → w'.Supplies (coreOf T) g (B g)) :
    ∃ ls l, EachBegins ls (S.map fun g => specLines (g.printed B T)) ∧ Mix ls l ∧ takenIn (historyOf h.dst.name T) <+: l.flatten := by
  obtain ⟨ls, q1, q2⟩ := C78_taken hS hp hp' ho hm hw hq hT.core (B := fun g => g.printed B T) hh hI hB fun g hg => hT.supplies (hB.sources g hg).2 (hF g hg)
  obtain ⟨M, R, R', S', E, T', drain', printed', k1, P, k3⟩ := hS.laid hp hp' ho
  rw [hm] at k1
  cases k1
  have hC := P.complete hS.hops hS.complete
  have A := assembled rfl hw hq
  have er : h.reader = .part (.launch, h.dst.name) .input := by simp only [Hop.reader, Hop.to, ht]
  rw [er] at q2
  exact ⟨ls, _, q1, q2, (hT.taken _).trans (A.fedReceived hC hT _)⟩

/-- **C86** If only one program or file leads there, it is the beginning of what that has given, byte for byte. -/
theorem C86_reads_one (hS : c.Sound hs) (hp : ∀ l, (perm l).Perm l) (hp' : ∀ l, (perm' l).Perm l) (ho : ∀ l, (spyOrder l).Perm l)
    (hm : manipulate perm perm' spyOrder c = some (c', printed)) (hw : getWaiter c' = .ok w) (hq : w.regulatorSettings order = .ok (cs, w')) (hT : w'.WorldRun cs cap room prog T)
    {b : Str} {i : Nat} {h g : Hop} {L : List (Str × Nat)} {B : Hop → Bytes} (hh : c.HopOf b i h) (ht : h.dst.ty = .launch) (hI : c.Into h.dst L) (hB : c.Brings L [g])
    (hF : g.src.ty = .faucet → w'.Supplies (coreOf T) g (B g)) : takenIn (historyOf h.dst.name T) <+: g.printed B T := by
  obtain ⟨ls, l, q1, q2, q3⟩ := C86_reads hS hp hp' ho hm hw hq hT hh ht hI hB (B := B) (by simpa using hF)
  obtain ⟨l', rfl, q4⟩ := each_single q1
  rw [Mix.single_iff] at q2
  subst q2
  have := flatten_prefix q4
  rw [lines_flatten] at this
  exact q3.trans this

/-- **C86** In the end, if no file, stream or notification fails: a program that has read to the end has read a mixture of all the lines that the programs and files before it have given. -/
theorem C86_reads_all (hS : c.Sound hs) (hp : ∀ l, (perm l).Perm l) (hp' : ∀ l, (perm' l).Perm l) (ho : ∀ l, (spyOrder l).Perm l)
    (hm : manipulate perm perm' spyOrder c = some (c', printed)) (hw : getWaiter c' = .ok w) (hq : w.regulatorSettings order = .ok (cs, w')) (hT : w'.WorldRun cs cap room prog T)
    (hov : w'.Over cs (coreOf T)) (hf : ∀ i, ∀ f ∈ acts (proj i (coreOf T)), f.trouble = false)
    {b : Str} {i : Nat} {h : Hop} {L : List (Str × Nat)} {S : List Hop} {B : Hop → Bytes} (hh : c.HopOf b i h) (ht : h.dst.ty = .launch) (hI : c.Into h.dst L) (hB : c.Brings L S)
    (hF : ∀ g ∈ S, g.src.ty = .faucet → w'.Supplies (coreOf T) g (B g)) (hr : ReadsAll (historyOf h.dst.name T)) :
    ∃ l, Mix (S.map fun g => specLines (g.printed B T)) l ∧ takenIn (historyOf h.dst.name T) = l.flatten := by
  have q := C78_taken_all hS hp hp' ho hm hw hq hT.core hov hf (B := fun g => g.printed B T) hh hI hB fun g hg => hT.supplies (hB.sources g hg).2 (hF g hg)
  obtain ⟨_, _, r3⟩ := given_taken hS hp hp' ho hm hw hq hT.core hh (Or.inl ht)
  have r3 := r3 hov hf (Or.inl ht)
  obtain ⟨M, R, R', S', E, T', drain', printed', k1, P, k3⟩ := hS.laid hp hp' ho
  rw [hm] at k1
  cases k1
  have hC := P.complete hS.hops hS.complete
  have A := assembled rfl hw hq
  have er : h.reader = .part (.launch, h.dst.name) .input := by simp only [Hop.reader, Hop.to, ht]
  refine ⟨_, q, ?_⟩
  rw [(hT.readsAll hr).1]
  rw [er] at r3 ⊢
  have h1 := A.fedReceived hC hT h.dst.name
  obtain ⟨g', hg', e⟩ := P.enters hh
  obtain ⟨j, hj⟩ := List.mem_iff_getElem?.mp hg'
  obtain ⟨n, hn, _, _⟩ := A.readerStream hj (by rw [e]; exact Or.inl ht)
  rw [reader_dst e, er] at hn
  have hn : w'.node (.part (.launch, h.dst.name) .input) = some n := hn
  have h2 := (A.toRigged.fed hC hT (sys_node hn)).given
  have e1 : h.to = (.launch, h.dst.name) := by simp only [Hop.to, ht]
  have e2 : w'.given T h.dst.name = (received (proj (.part (.launch, h.dst.name) .input) (coreOf T))).flatten := by
    rw [← r3, e1]; rfl
  rw [e2] at h2
  exact List.IsPrefix.eq_of_length h1 (Nat.le_antisymm h1.length_le h2.length_le)

/-- **C86** In the end, if no file, stream or notification fails: what a program on the way has printed is what the programs make, one after the other, of what the file contains. -/
theorem C86_prints (hS : c.Sound hs) (hp : ∀ l, (perm l).Perm l) (hp' : ∀ l, (perm' l).Perm l) (ho : ∀ l, (spyOrder l).Perm l)
    (hm : manipulate perm perm' spyOrder c = some (c', printed)) (hw : getWaiter c' = .ok w) (hq : w.regulatorSettings order = .ok (cs, w')) (hT : w'.WorldRun cs cap room prog T)
    (hov : w'.AllOver cs T) (hf : ∀ i, ∀ f ∈ acts (proj i (coreOf T)), f.trouble = false) {B : Hop → Bytes}
    (hF : ∀ b i g, c.HopOf b i g → g.src.ty = .faucet → w'.Supplies (coreOf T) g (B g)) {g : Hop} {bs : Bytes} (hg : c.Gives prog B g bs) : g.printed B T = bs := by
  induction hg with
  | file _ h2 => simp [Hop.printed, h2]
  | @program b b' i i' g h g' L f bs h1 h2 h3 h4 h5 h6 h7 h8 h9 ih =>
    obtain ⟨M, R, R', S', E, T', drain', printed', k1, P, k3⟩ := hS.laid hp hp' ho
    have hm' := hm
    rw [hm'] at k1
    cases k1
    have hC := P.complete hS.hops hS.complete
    have A := assembled rfl hw hq
    obtain ⟨g1, hg1, e1⟩ := P.leaves h1
    obtain ⟨k, hk, _⟩ := A.comps g1.from ⟨g1, hg1, Or.inl rfl⟩
    have e2 : g1.from = (.launch, g.src.name) := by simp only [Hop.from, e1, h2]
    rw [e2] at hk
    have hx := hov.2 g.src.name (by rw [hk]; simp)
    have hR := A.regular hC hT hf g.src.name
    have hL := hT.lives g.src.name
    have hall := h4.reads _ hL hR (Or.inr hx)
    have e3 : h.dst.name = g.src.name := by rw [h6]
    obtain ⟨l, q1, q2⟩ := C86_reads_all hS hp hp' ho hm hw hq hT hov.1 hf (B := B) h5 (by rw [h6]) h7 h8 (fun g' hg' hs' => by
      obtain ⟨⟨b, i, hb⟩, _⟩ := h8.sources g' hg'
      exact hF b i g' hb hs') (by rw [e3]; exact hall)
    simp only [List.map_cons, List.map_nil, Mix.single_iff] at q1
    rw [q1, lines_flatten, ih, e3] at q2
    have : g.printed B T = putOut .out (historyOf g.src.name T) := by simp [Hop.printed, h2, h3]
    rw [this, h4.prints _ hL hR hx, q2]

/-- **C86** In the end, if no file, stream or notification fails: what a drain has written is what the programs on the way make, one after the other, of what the file contains. -/
theorem C86_pipeline (hS : c.Sound hs) (hp : ∀ l, (perm l).Perm l) (hp' : ∀ l, (perm' l).Perm l) (ho : ∀ l, (spyOrder l).Perm l)
    (hm : manipulate perm perm' spyOrder c = some (c', printed)) (hw : getWaiter c' = .ok w) (hq : w.regulatorSettings order = .ok (cs, w')) (hT : w'.WorldRun cs cap room prog T)
    (hov : w'.AllOver cs T) (hf : ∀ i, ∀ f ∈ acts (proj i (coreOf T)), f.trouble = false) {B : Hop → Bytes}
    (hF : ∀ b i g, c.HopOf b i g → g.src.ty = .faucet → w'.Supplies (coreOf T) g (B g)) {b : Str} {i : Nat} {h g : Hop} {L : List (Str × Nat)} {bs : Bytes} (hh : c.HopOf b i h)
    (ht : h.dst.ty = .drain) (hn : c.drain.get h.dst.name ≠ some "/dev/null".toList) (hI : c.Into h.dst L) (hB : c.Brings L [g]) (hg : c.Gives prog B g bs) :
    bytesIn (3 * w'.idOf h.to) (proj h.reader (coreOf T)) = bs := by
  obtain ⟨⟨b', i', hb⟩, hs'⟩ := hB.sources g (by simp)
  have hsup := hT.supplies hs' (hF b' i' g hb)
  rw [C86_prints hS hp hp' ho hm hw hq hT hov hf hF hg] at hsup
  exact C78_copied hS hp hp' ho hm hw hq hT.core hov.1 hf hh (Or.inr ⟨ht, hn⟩) hI hB hsup

/-- **C86** At all times, whatever fails: what a drain has written, or was to write, is the beginning of what the programs on the way make, one after the other, of what the file contains. -/
theorem C86_follows (hS : c.Sound hs) (hp : ∀ l, (perm l).Perm l) (hp' : ∀ l, (perm' l).Perm l) (ho : ∀ l, (spyOrder l).Perm l)
    (hm : manipulate perm perm' spyOrder c = some (c', printed)) (hw : getWaiter c' = .ok w) (hq : w.regulatorSettings order = .ok (cs, w')) (hT : w'.WorldRun cs cap room prog T)
    {B : Hop → Bytes} (hF : ∀ b i g, c.HopOf b i g → g.src.ty = .faucet → w'.Supplies (coreOf T) g (B g)) {b : Str} {i : Nat} {h g : Hop} {L : List (Str × Nat)} {bs : Bytes}
    (hh : c.HopOf b i h) (ht : h.dst.ty = .drain) (hI : c.Into h.dst L) (hB : c.Brings L [g]) (hg : c.GivesAtMost prog B g bs) :
    bytesTo (3 * w'.idOf h.to) (proj h.reader (coreOf T)) <+: bs := by
  have prints : g.printed B T <+: bs := by
    clear hB
    induction hg with
    | file _ h2 => simp [Hop.printed, h2]
    | @program b b' i i' g h g' L f bs h1 h2 h3 h4 h5 h6 h7 h8 h9 h10 ih =>
      have e3 : h.dst.name = g.src.name := by rw [h7]
      obtain ⟨⟨b', i', hb⟩, _⟩ := h9.sources g' (by simp)
      have q := C86_reads_one hS hp hp' ho hm hw hq hT (B := B) h6 (by rw [h7]) h8 h9 (hF b' i' g' hb)
      rw [e3] at q
      have : g.printed B T = putOut .out (historyOf g.src.name T) := by simp [Hop.printed, h2, h3]
      rw [this]
      exact (h4 _ (hT.lives _)).trans (h5 _ _ (q.trans ih))
  obtain ⟨⟨b', i', hb⟩, hs'⟩ := hB.sources g (by simp)
  exact (C78_copies hS hp hp' ho hm hw hq hT.core hh (Or.inr ht) hI hB (hT.supplies hs' (hF b' i' g hb))).2.trans prints

/-- **C86** If all programs read their input to the end, only files and notifications can fail. -/
theorem C86_quiet (hS : c.Sound hs) (hp : ∀ l, (perm l).Perm l) (hp' : ∀ l, (perm' l).Perm l) (ho : ∀ l, (spyOrder l).Perm l)
    (hm : manipulate perm perm' spyOrder c = some (c', printed)) (hw : getWaiter c' = .ok w) (hq : w.regulatorSettings order = .ok (cs, w')) (hT : w'.WorldRun cs cap room prog T)
    (hpat : ∀ x, w'.comps.get (.launch, x) ≠ none → (prog x).Patient)
    (hf : ∀ i, (∀ x p, i ≠ .part (.launch, x) p) → ∀ f ∈ acts (proj i (coreOf T)), f.trouble = false) : ∀ i, ∀ f ∈ acts (proj i (coreOf T)), f.trouble = false := by
  obtain ⟨M, R, R', S', E, T', drain', printed', k1, P, k3⟩ := hS.laid hp hp' ho
  rw [hm] at k1
  cases k1
  exact (assembled rfl hw hq).quiet (P.complete hS.hops hS.complete) hT hpat hf

/-- **C86** A pipeline without managers nothing of which leads back, all programs of which read their input to the end: when nothing more can happen, and no file or notification has failed, everything has ended
and what a drain has written is what the programs on the way make, one after the other, of what the file contains. -/
theorem C86_unix (hS : c.Sound hs) (hp : ∀ l, (perm l).Perm l) (hp' : ∀ l, (perm' l).Perm l) (ho : ∀ l, (spyOrder l).Perm l)
    (hm : manipulate perm perm' spyOrder c = some (c', printed)) (hw : getWaiter c' = .ok w) (hq : w.regulatorSettings order = .ok ([], w')) (hcf : NoWayBack hs)
    (hcap : ∀ k ch, cap k ch ≠ some 0) (hroom : 0 < room) (hT : w'.WorldRun [] cap room prog T) {st : Store} (hst : execAll cap Store.init ((coreOf T).map Prod.snd) = some st)
    (hpat : ∀ x, w'.comps.get (.launch, x) ≠ none → (prog x).Patient)
    (hf : ∀ i, (∀ x p, i ≠ .part (.launch, x) p) → ∀ f ∈ acts (proj i (coreOf T)), f.trouble = false) (hmax : ¬ w'.Lively [] cap room prog st T)
    {B : Hop → Bytes} (hF : ∀ b i g, c.HopOf b i g → g.src.ty = .faucet → w'.Supplies (coreOf T) g (B g)) :
    w'.AllOver [] T ∧ ∀ {b : Str} {i : Nat} {h g : Hop} {L : List (Str × Nat)} {bs : Bytes}, c.HopOf b i h → h.dst.ty = .drain → c.drain.get h.dst.name ≠ some "/dev/null".toList → c.Into h.dst L →
      c.Brings L [g] → c.Gives prog B g bs → bytesIn (3 * w'.idOf h.to) (proj h.reader (coreOf T)) = bs := by
  have hf' := C86_quiet hS hp hp' ho hm hw hq hT hpat hf
  have hov : w'.AllOver [] T := by
    obtain ⟨M, R, R', S', E, T', drain', printed', k1, P, k3⟩ := hS.laid hp hp' ho
    rw [hm] at k1
    cases k1
    exact (C85_stops rfl hw hq (P.complete hS.hops hS.complete) (P.noWayBack hS.hops hS.legal.notDrain hcf) hcap hroom hT hst hf' hmax).1
  exact ⟨hov, fun hh ht hn hI hB hg => C86_pipeline hS hp hp' ho hm hw hq hT hov hf' hF hh ht hn hI hB hg⟩

end
end Verif
