import Verif.Lemmas.WorldDoze
import Verif.Lemmas.JamCircles
import Verif.Props.WorldRest
import Verif.Props.WorldSolve
/-!
# C91: With a buffer on every loop, in the end everything a program has printed has been taken in by those behind it
-/
namespace Verif

/-- What comes from where a hop begins, as long as the program lives or afterwards: of what it has printed the lines that it has completed, and when it has shut its output all of it; nothing, or the exit
code once it has ended; or the content of the file. -/
def Hop.Tells (B : Hop → Bytes) (T : List Happening) (g : Hop) (ls : List Bytes) : Prop :=
  match g.src.ty, g.src.port with
  | .launch, .out => Shut .out (historyOf g.src.name T) ∧ ls = specLines (putOut .out (historyOf g.src.name T)) ∨ ¬ Shut .out (historyOf g.src.name T) ∧ ls = wholeLines (putOut .out (historyOf g.src.name T))
  | .launch, .err => Shut .err (historyOf g.src.name T) ∧ ls = specLines (putOut .err (historyOf g.src.name T)) ∨ ¬ Shut .err (historyOf g.src.name T) ∧ ls = wholeLines (putOut .err (historyOf g.src.name T))
  | .launch, .exit => ls = [] ∨ ∃ k, .exit k ∈ historyOf g.src.name T ∧ ls = [endBytes k]
  | _, _ => ls = specLines (B g)

/-- What comes from where each of these hops begins. -/
inductive EachTells (B : Hop → Bytes) (T : List Happening) : List Hop → List (List Bytes) → Prop
  | nil : EachTells B T [] []
  | cons {g : Hop} {ls : List Bytes} {S : List Hop} {lss : List (List Bytes)} : g.Tells B T ls → EachTells B T S lss → EachTells B T (g :: S) (ls :: lss)

theorem EachTells.append {B : Hop → Bytes} {T : List Happening} {S S' : List Hop} {l l' : List (List Bytes)} (h : EachTells B T S l) (h' : EachTells B T S' l') : EachTells B T (S ++ S') (l ++ l') := by
  induction h with
  | nil => exact h'
  | cons h1 _ ih => exact .cons h1 ih

section
variable {c c' : Config} {hs : List Hop} {perm : List OutRef → List OutRef} {perm' : List InRef → List InRef} {spyOrder : List Str → List Str} {printed : List Str}
  {w w' : Waiter} {order : List (Str × Watch)} {cs : List Capture} {cap : Caps} {room : Nat} {prog : Str → Program} {T : List Happening} {st : Store} {R : Map Hop}

/-- **C91** When nothing is on its way any more, whatever is wired up has handed on everything over each hop, through each buffer, and to each file and program. -/
theorem C91_passed (hc : c.connection = hopSets R) (hw : getWaiter c = .ok w) (hp : w.regulatorSettings order = .ok (cs, w')) (hC : Complete (R.map (·.2)))
    (hb : LoopsBuffered (R.map (·.2))) (hcap : ∀ k ch, cap k ch ≠ some 0) (hun : ∀ ch, (R.map (·.2)).length ≤ ch → cap .data ch = none) (hroom : 0 < room)
    (hT : w'.WorldRun cs cap room prog T) (hst : execAll cap Store.init ((coreOf T).map Prod.snd) = some st) (hf : ∀ i, ∀ f ∈ acts (proj i (coreOf T)), f.trouble = false)
    (hno : w'.AtRest cs cap room prog st T) :
    (∀ i h, (R.map (·.2))[i]? = some h → ¬ h.isExit → receivedFrom (.chan i) (proj h.reader (coreOf T)) = received (proj h.writer (coreOf T))) ∧
    (∀ x, Mentioned (R.map (·.2)) (.buffer, x) → received (proj (.part (.buffer, x) .output) (coreOf T)) = received (proj (.part (.buffer, x) .input) (coreOf T))) ∧
    ∀ i n, w'.node i = some n → ∀ t ∈ n.targets, acceptedBy t (proj i (coreOf T)) = received (proj i (coreOf T)) := by
  have A := assembled hc hw hp
  have W := A.wired hC
  obtain ⟨E, U⟩ := A.run hC hT.core
  have nf := C55_no_failures W E U (A.inside hC hT.core hf)
  have nf' : ∀ i n, w'.node i = some n → ∀ f ∈ acts (proj i (coreOf T)), f.fails = false := fun i n hn f hm => nf i n f hn hm
  have hl : ¬ w'.Lively cs cap room prog st T := fun h => hno.still h.stirs
  have pass := fun {i n} (hn : w'.node i = some n) {t} (ht : t ∈ n.targets) =>
    A.passed hC (attended hc hw hp) hb hT hroom hst hcap hun nf' hno.heard hno.open' hno.still hn ht
  have hungry : ∀ {i n}, w'.node i = some n → ¬ n.task.Done (proj i (coreOf T)) → w'.Hungry st (coreOf T) i := fun hn hnd =>
    A.unjammed hC (attended hc hw hp) hb hT.core hst hcap hun (fun i _ _ _ h f hf => not_ruins (nf' i _ h f hf)) hno.heard hno.open' (A.motionless hC hT hroom hst hl) hn hnd
  have edge : ∀ {a ch b}, w'.net.Edge a ch b → receivedFrom (.chan ch) (proj b (coreOf T)) = received (proj a (coreOf T)) := by
    intro a ch b he
    have F := w'.net.facts W E U he
    obtain ⟨n, m, hn, hm, ht, hs⟩ := he
    have hn : w'.node a = some n := hn
    have hm : w'.node b = some m := hm
    have hp := pass hn ht
    by_cases hd : m.task.Done (proj b (coreOf T))
    · have := (node_finished (W.ok b m hm) hd (nf' b m hm)).ended _ hs
      rw [(edge_complete hst F.on F.writer F.reader F.sent F.got this).2.1, hp.2]
    · have hq : (st .data ch).q = [] := by
        by_cases hcl : (Kind.data, ch) ∈ closings (proj b (coreOf T))
        · rcases node_closes (W.ok b m hm) (E.tasks b m.task (by simp [Network.sys, Waiter.net, hm])) hs hcl with h | ⟨f, h1, h2⟩
          · exact (ended_empty hst h).1
          · rw [nf' b m hm f h1] at h2; cases h2
        · exact A.hungry_empty hC hst hm (hungry hm hd) hs hcl
      have := edge_prefix hst F.sent F.got
      rw [hq, List.append_nil, hp.1] at this
      exact this.symm
  refine ⟨fun i h hi hx => edge ((A.edges hC _ i _).mpr (Or.inl ⟨h, hi, hx, rfl, rfl⟩)), fun x hm => ?_, fun i n hn t ht => (pass hn ht).1⟩
  have h1 := edge ((A.edges hC _ _ _).mpr (Or.inr ⟨x, hm, rfl, rfl, rfl⟩))
  obtain ⟨n, hn, hs⟩ := A.outputSources hC hm
  rwa [receivedFrom_only (fun s' d hd => by
    have := (w'.net.conduct W E hn).got s' d hd
    rw [hs, A.chans] at this; simpa using this)] at h1

/-- What an exit port has told. -/
theorem Waiter.WorldRun.exit_told (hT : w'.WorldRun cs cap room prog T) {B : Hop → Bytes} {h : Hop} {ms : List Bytes} (hx : h.isExit) (hn : ms = [] ∨ ExitNote (proj h.writer (coreOf T)) ms) : h.Tells B T ms := by
  obtain ⟨⟨ty, name, port⟩, _, _, _, _⟩ := h
  obtain ⟨h1, h2⟩ := hx
  dsimp only at h1 h2
  subst h1 h2
  rcases hn with rfl | ⟨k, s, m, rfl, hs, hm⟩
  · exact Or.inl rfl
  · have hmem : s ∈ statuses (proj (.part (.launch, name) .exit) (coreOf T)) := by
      have : statuses (proj (.part (.launch, name) .exit) (coreOf T)) = _ := hs
      rw [this]; simp
    obtain ⟨k', h1, rfl⟩ := hT.status (mem_statuses hmem)
    exact Or.inr ⟨k', h1, by rw [hm.unique (endBytes_text k')]⟩

/-- What comes from the beginning of a hop has all been taken. -/
theorem source_told (hc : c'.connection = hopSets R) (hw : getWaiter c' = .ok w) (hp : w.regulatorSettings order = .ok (cs, w')) (hC : Complete (R.map (·.2)))
    (hb : LoopsBuffered (R.map (·.2))) (hcap : ∀ k ch, cap k ch ≠ some 0) (hun : ∀ ch, (R.map (·.2)).length ≤ ch → cap .data ch = none) (hroom : 0 < room)
    (hT : w'.WorldRun cs cap room prog T) (hst : execAll cap Store.init ((coreOf T).map Prod.snd) = some st) (hf : ∀ i, ∀ f ∈ acts (proj i (coreOf T)), f.trouble = false)
    (hno : w'.AtRest cs cap room prog st T) {g : Hop} (hg : ∃ g' ∈ R.map (·.2), g'.src = g.src) (hty : g.src.ty = .faucet ∨ g.src.ty = .launch) (hx : ¬ g.isExit) {B : Hop → Bytes}
    (hB : g.src.ty = .faucet → w'.Supplies (coreOf T) g (B g)) : g.Tells B T (received (proj g.writer (coreOf T))) := by
  have A := assembled hc hw hp
  have W := A.wired hC
  obtain ⟨E, U⟩ := A.run hC hT.core
  have nf := C55_no_failures W E U (A.inside hC hT.core hf)
  have nf' : ∀ i n, w'.node i = some n → ∀ f ∈ acts (proj i (coreOf T)), f.fails = false := fun i n hn f hm => nf i n f hn hm
  have hl : ¬ w'.Lively cs cap room prog st T := fun h => hno.still h.stirs
  obtain ⟨s, hs⟩ := stream_some (h := g) (id := w'.idOf) (hty.imp_right fun h => ⟨h, fun e => hx ⟨h, e⟩⟩)
  obtain ⟨g', hg, e⟩ := hg
  obtain ⟨n, hn, hsrc⟩ := A.writerStream hg (s := s) (by rw [stream_src e]; exact hs)
  rw [writer_src e] at hn
  have Q := w'.net.conduct W E hn
  have hn : w'.node g.writer = some n := hn
  have only : receivedFrom (.handle s) (proj g.writer (coreOf T)) = received (proj g.writer (coreOf T)) := receivedFrom_only fun s' d hd => by
    have := Q.got s' d hd
    rw [hsrc] at this; simpa using this
  have reading : ¬ n.task.Done (proj g.writer (coreOf T)) → w'.Reading (coreOf T) g.writer := by
    intro hnd
    rcases A.unjammed hC (attended hc hw hp) hb hT.core hst hcap hun (fun i _ _ _ h f hf => not_ruins (nf' i _ h f hf)) hno.heard hno.open' (A.motionless hC hT hroom hst hl) hn hnd with
      ⟨inputs, pushs, spy, hn', _⟩ | h | ⟨n', ch, hn', h1, _⟩
    · have hn' : w'.node g.writer = some (.junction inputs pushs spy) := hn'
      rw [hn] at hn'; cases hn'
      have : End.handle s ∈ (Node.junction inputs pushs spy).sources := by rw [hsrc]; simp
      obtain ⟨y, hy, hys⟩ := List.mem_filterMap.mp this
      obtain ⟨jj, c', hp''⟩ := (W.ok g.writer _ hn).2.1 y hy
      rw [hp''] at hys; cases hys
    · exact h
    · rw [hn] at hn'; cases hn'
      rw [h1] at hsrc; cases hsrc
  have ends : n.task.Done (proj g.writer (coreOf T)) → Act.ended (.handle s) ∈ acts (proj g.writer (coreOf T)) := fun hd =>
    (node_finished (W.ok g.writer n hn) hd (nf' _ _ hn)).ended _ (by rw [hsrc]; simp)
  obtain ⟨⟨ty, x, port⟩, gs, gd, gk, ge⟩ := g
  rcases hty with h1 | h1
  · dsimp only at h1
    subst h1
    have hd : n.task.Done (proj (Hop.writer ⟨⟨.faucet, x, port⟩, gs, gd, gk, ge⟩) (coreOf T)) := by
      refine Classical.byContradiction fun hnd => ?_
      obtain ⟨n', h, hn', hq⟩ := reading hnd
      have hid : ¬ w'.net.Idle st (coreOf T) (Hop.writer ⟨⟨.faucet, x, port⟩, gs, gd, gk, ge⟩) := by
        rintro ⟨inputs, pushs, spy, hn', _⟩
        have hn' : w'.node (Hop.writer ⟨⟨.faucet, x, port⟩, gs, gd, gk, ge⟩) = some (.junction inputs pushs spy) := hn'
        rw [hn] at hn'; cases hn'
        have : End.handle s ∈ (Node.junction inputs pushs spy).sources := by rw [hsrc]; simp
        obtain ⟨y, hy, hys⟩ := List.mem_filterMap.mp this
        obtain ⟨jj, c', hp''⟩ := (W.ok (Hop.writer ⟨⟨.faucet, x, port⟩, gs, gd, gk, ge⟩) _ hn).2.1 y hy
        rw [hp''] at hys; cases hys
      have hpart : ∀ y p, Hop.writer ⟨⟨.faucet, x, port⟩, gs, gd, gk, ge⟩ ≠ .part (.launch, y) p := by
        intro y p e
        simp [Hop.writer, Hop.from] at e
      refine core_stops hl (node_unrested hn hid) (hT.core.step hst (sys_node hn') (hq.step (.line [])) (st' := st) (by simp [Verif.exec]) ?_) ⟨?_, ?_, ?_, ?_⟩
      · intro r e
        simp only [Hop.writer, Hop.from] at e
        have := congrArg (fun | Who.part _ p => some p | _ => none) e
        simp at this
      · intro y _ d r g; exact absurd g (hpart _ _)
      · intro y _ r g; exact absurd g (hpart _ _)
      · intro y p _ r g; exact absurd g (hpart _ _)
      · intro y r g; exact absurd g (hpart _ _)
    rcases hB rfl with ⟨s', chunks, k1, k2, k3, k4⟩ | ⟨k1, _⟩
    · rw [hs] at k1; cases k1
      have := (k4.lines k2).2 (ends hd)
      rw [only, k3] at this
      exact this
    · exact absurd k1 hx
  · dsimp only at h1
    subst h1
    have key : ∀ p : Port, Hop.writer ⟨⟨.launch, x, port⟩, gs, gd, gk, ge⟩ = .part (.launch, x) p.piece → s = w'.portOf x p →
        Shut p (historyOf x T) ∧ received (proj (Hop.writer ⟨⟨.launch, x, port⟩, gs, gd, gk, ge⟩) (coreOf T)) = specLines (putOut p (historyOf x T)) ∨
        ¬ Shut p (historyOf x T) ∧ received (proj (Hop.writer ⟨⟨.launch, x, port⟩, gs, gd, gk, ge⟩) (coreOf T)) = wholeLines (putOut p (historyOf x T)) := by
      intro p ew es
      subst es
      by_cases hd : n.task.Done (proj (Hop.writer ⟨⟨.launch, x, port⟩, gs, gd, gk, ge⟩) (coreOf T))
      · left
        have hend := ends hd
        have hf := nf' _ _ hn
        rw [ew] at hn hd hend only hf ⊢
        refine ⟨A.printed hC hT (by rw [sys_node hn]; simp) (fun t ht => ?_) hf, ?_⟩
        · rw [sys_node hn] at ht; cases ht; exact hd
        · obtain ⟨chunks, k1, k2, k3⟩ := hT.portReads x p
          rw [← only, (k3.lines k1).2 hend, k2]
      · right
        have hrd := hT.reading_steps hst (reading hd)
        rw [ew] at hrd hn only ⊢
        refine ⟨(A.port_waits hC hT hst hl hn hrd).1, ?_⟩
        rw [← only]
        exact A.port_told hC hT hst hl hn hrd
    cases port with
    | out =>
      have es : s = w'.portOf x .out := by simpa [Hop.stream, Waiter.portOf, Hop.from, childOf] using hs.symm
      exact key .out rfl es
    | err =>
      have es : s = w'.portOf x .err := by simpa [Hop.stream, Waiter.portOf, Hop.from, childOf] using hs.symm
      exact key .err rfl es
    | exit => exact absurd ⟨rfl, rfl⟩ hx

/-- What the hops of a list have brought when nothing is on its way any more. -/
theorem brought_told {over : Str → Nat → List Bytes} {B : Hop → Bytes}
    (src : ∀ b i h, c.HopOf b i h → h.src.ty = .faucet ∨ h.src.ty = .launch → h.Tells B T (over b i))
    (mid : ∀ b i h b' i' g, c.HopOf b i h → c.HopOf b' i' g → g.dst = ⟨h.src.ty, h.src.name⟩ → h.src.ty ≠ .faucet → h.src.ty ≠ .launch → over b i = received (proj g.reader (coreOf T)))
    (o2 : ∀ b i h L, c.HopOf b i h → c.Into h.dst L → Mix (L.map fun x => over x.1 x.2) (received (proj h.reader (coreOf T))))
    {L : List (Str × Nat)} {S : List Hop} (hB : c.Brings L S) :
    ∃ Ss : List (List (List Bytes)), Ss.length = L.length ∧ (∀ (j : Nat) Q x, Ss[j]? = some Q → (L.map fun x => over x.1 x.2)[j]? = some x → Mix Q x) ∧ EachTells B T S Ss.flatten := by
  induction hB with
  | none => exact ⟨[], rfl, by simp, .nil⟩
  | @stream b i h L S hh hsrc _ ih =>
    obtain ⟨Ss, q1, q2, q3⟩ := ih
    refine ⟨[over b i] :: Ss, by simp [q1], ?_, .cons (src b i h hh hsrc) q3⟩
    intro j Q x h1 h2
    cases j with
    | zero =>
      simp only [List.map_cons, List.getElem?_cons_zero, Option.some.injEq] at h1 h2
      subst h1 h2
      exact Mix.single_iff.mpr rfl
    | succ j =>
      simp only [List.map_cons, List.getElem?_cons_succ] at h1 h2
      exact q2 j Q x h1 h2
  | @through b i h L' L S' S hh n1 n2 hI hne _ _ ih' ih =>
    obtain ⟨Ss, q1, q2, q3⟩ := ih
    obtain ⟨Ss', q1', q2', q3'⟩ := ih'
    obtain ⟨⟨b', i'⟩, hx⟩ := List.exists_mem_of_ne_nil _ hne
    obtain ⟨g, hg, e⟩ := (hI.2 b' i').mp hx
    have k3 := (o2 b' i' g L' hg (by rw [e]; exact hI)).join (Ss := Ss') (by simp [q1']) q2'
    rw [← mid b i h b' i' g hh hg e n1 n2] at k3
    refine ⟨Ss'.flatten :: Ss, by simp [q1], ?_, by rw [List.flatten_cons]; exact q3'.append q3⟩
    intro j Q x h1 h2
    cases j with
    | zero =>
      simp only [List.map_cons, List.getElem?_cons_zero, Option.some.injEq] at h1 h2
      subst h1 h2
      exact k3
    | succ j =>
      simp only [List.map_cons, List.getElem?_cons_succ] at h1 h2
      exact q2 j Q x h1 h2

theorem connection_length {c' : Config} (hc : c'.connection = hopSets R) : c'.connection.length = (R.map (·.2)).length := by
  rw [hc, show hopSets R = conns R from rfl]
  simp [conns]

/-- **C91** When nothing is on its way any more, and no file, stream or notification has failed: what a component has taken in is a mixture of all that has come from the programs and files before it. -/
theorem C91_taken (hS : c.Sound hs) (hp : ∀ l, (perm l).Perm l) (hp' : ∀ l, (perm' l).Perm l) (ho : ∀ l, (spyOrder l).Perm l)
    (hm : manipulate perm perm' spyOrder c = some (c', printed)) (hw : getWaiter c' = .ok w) (hq : w.regulatorSettings order = .ok (cs, w')) (hb : LoopsBuffered hs)
    (hcap : ∀ k ch, cap k ch ≠ some 0) (hun : ∀ ch, c'.connection.length ≤ ch → cap .data ch = none) (hroom : 0 < room)
    (hT : w'.WorldRun cs cap room prog T) (hst : execAll cap Store.init ((coreOf T).map Prod.snd) = some st) (hf : ∀ i, ∀ f ∈ acts (proj i (coreOf T)), f.trouble = false)
    (hno : w'.AtRest cs cap room prog st T) {b : Str} {i : Nat} {h : Hop} {L : List (Str × Nat)} {S : List Hop} {B : Hop → Bytes} (hh : c.HopOf b i h) (hI : c.Into h.dst L) (hB : c.Brings L S)
    (hF : ∀ b i g, c.HopOf b i g → g.src.ty = .faucet → w'.Supplies (coreOf T) g (B g)) :
    ∃ lss, EachTells B T S lss ∧ Mix lss (received (proj h.reader (coreOf T))) := by
  obtain ⟨M, R, R', S', E, T', drain', printed', h1, P, h3⟩ := hS.laid hp hp' ho
  rw [hm] at h1
  cases h1
  have hC := P.complete hS.hops hS.complete
  have hb' := P.loopsBuffered hS.hops hb
  rw [connection_length (R := R') rfl] at hun
  obtain ⟨p1, p2, p3⟩ := C91_passed rfl hw hq hC hb' hcap hun hroom hT hst hf hno
  obtain ⟨over, q1, qx, q3⟩ := P.all (assembled rfl hw hq) hC hT.core (rel := (· = ·)) (X := fun ms i => ms = [] ∨ ExitNote (proj i (coreOf T)) ms) (fun _ => rfl) (fun h h' => h.trans h')
    p1 (by rintro a b i rfl h; exact h) (fun i h hi hx => by
      rcases C65_exit rfl hw hq hC hT.core hi hx with e | ⟨_, _, k, s, m, _, _, _, e1, e2, e3⟩
      · exact Or.inl e
      · exact Or.inr ⟨k, s, m, e1, e2, e3⟩)
  have o3 : ∀ b i h L, c.HopOf b i h → c.Into h.dst L → Mix (L.map fun x => over x.1 x.2) (received (proj h.reader (coreOf T))) := by
    intro b i h L hh hL
    obtain ⟨l, rfl, h4⟩ := q3 b i h L hh hL
    exact h4
  have src : ∀ b i h, c.HopOf b i h → h.src.ty = .faucet ∨ h.src.ty = .launch → h.Tells B T (over b i) := by
    intro b i h hh hty
    by_cases hx : h.isExit
    · exact hT.exit_told hx (qx b i h hh hx)
    · rw [q1 b i h hh hx]
      exact source_told rfl hw hq hC hb' hcap hun hroom hT hst hf hno (P.leaves hh) hty hx (hF b i h hh)
  have mid : ∀ b i h b' i' g, c.HopOf b i h → c.HopOf b' i' g → g.dst = ⟨h.src.ty, h.src.name⟩ → h.src.ty ≠ .faucet → h.src.ty ≠ .launch → over b i = received (proj g.reader (coreOf T)) := by
    intro b i h b' i' g hh hg e n1 n2
    rw [q1 b i h hh fun a => n2 a.1]
    by_cases hbu : h.src.ty = .buffer
    · obtain ⟨g', hg', e'⟩ := P.leaves hh
      have hM : Mentioned (R'.map (·.2)) (.buffer, h.src.name) := ⟨g', hg', Or.inl (by simp only [Hop.from, e', hbu])⟩
      have ew : h.writer = .part (.buffer, h.src.name) .output := by simp only [Hop.writer, Hop.from, hbu]
      have er : g.reader = .part (.buffer, h.src.name) .input := by simp only [Hop.reader, Hop.to, e, hbu]
      rw [ew, er]
      exact p2 _ hM
    · have : h.writer = g.reader := by simp only [Hop.writer, Hop.reader, Hop.from, Hop.to, e]
      rw [this]
  obtain ⟨Ss, k1, k2, k3⟩ := brought_told src mid o3 hB
  exact ⟨_, k3, (o3 b i h L hh hI).join (Ss := Ss) (by simp [k1]) k2⟩

/-- What is written to programs and drains when nothing is on its way any more. -/
theorem rest_written (hS : c.Sound hs) (hp : ∀ l, (perm l).Perm l) (hp' : ∀ l, (perm' l).Perm l) (ho : ∀ l, (spyOrder l).Perm l)
    (hm : manipulate perm perm' spyOrder c = some (c', printed)) (hw : getWaiter c' = .ok w) (hq : w.regulatorSettings order = .ok (cs, w')) (hb : LoopsBuffered hs)
    (hcap : ∀ k ch, cap k ch ≠ some 0) (hun : ∀ ch, c'.connection.length ≤ ch → cap .data ch = none) (hroom : 0 < room)
    (hT : w'.WorldRun cs cap room prog T) (hst : execAll cap Store.init ((coreOf T).map Prod.snd) = some st) (hf : ∀ i, ∀ f ∈ acts (proj i (coreOf T)), f.trouble = false)
    (hno : w'.AtRest cs cap room prog st T) {b : Str} {i : Nat} {h : Hop} (hh : c.HopOf b i h)
    (ht : h.dst.ty = .launch ∨ h.dst.ty = .drain ∧ c.drain.get h.dst.name ≠ some "/dev/null".toList) :
    acceptedBy (.handle (3 * w'.idOf h.to)) (proj h.reader (coreOf T)) = received (proj h.reader (coreOf T)) := by
  have hd := fun hk => manipulate_drain hS.names hS.good hp hp' ho hm (n := h.dst.name) (hS.drains b i h hh hk)
  obtain ⟨M, R, R', S', E, T', drain', printed', h1, P, h3⟩ := hS.laid hp hp' ho
  rw [hm] at h1
  cases h1
  have hC := P.complete hS.hops hS.complete
  have hb' := P.loopsBuffered hS.hops hb
  rw [connection_length (R := R') rfl] at hun
  obtain ⟨p1, p2, p3⟩ := C91_passed rfl hw hq hC hb' hcap hun hroom hT hst hf hno
  have A := assembled rfl hw hq
  obtain ⟨g', hg', e⟩ := P.enters hh
  obtain ⟨j, hj⟩ := List.mem_iff_getElem?.mp hg'
  have hto : g'.to = h.to := by simp only [Hop.to, e]
  obtain ⟨n, hn, _, ht'⟩ := A.readerStream hj (by rw [e]; exact ht.imp_right And.left)
  have htarget := A.readerTarget hg' (n := n) hn
  rw [hto] at ht' htarget
  rw [reader_dst e] at hn
  rw [e] at htarget
  exact p3 h.reader n hn _ (htarget (ht.imp_right fun h => ⟨h.1, fun hx => h.2 ((hd h.1).symm.trans hx)⟩))

/-- **C91** Then a program that has not ended waits for more input, having read a mixture of everything that has come from the programs and files before it, byte for byte. -/
theorem C91_read (hS : c.Sound hs) (hp : ∀ l, (perm l).Perm l) (hp' : ∀ l, (perm' l).Perm l) (ho : ∀ l, (spyOrder l).Perm l)
    (hm : manipulate perm perm' spyOrder c = some (c', printed)) (hw : getWaiter c' = .ok w) (hq : w.regulatorSettings order = .ok (cs, w')) (hb : LoopsBuffered hs)
    (hcap : ∀ k ch, cap k ch ≠ some 0) (hun : ∀ ch, c'.connection.length ≤ ch → cap .data ch = none) (hroom : 0 < room)
    (hT : w'.WorldRun cs cap room prog T) (hst : execAll cap Store.init ((coreOf T).map Prod.snd) = some st) (hf : ∀ i, ∀ f ∈ acts (proj i (coreOf T)), f.trouble = false)
    (hno : w'.AtRest cs cap room prog st T) {b : Str} {i : Nat} {h : Hop} {L : List (Str × Nat)} {S : List Hop} {B : Hop → Bytes} (hh : c.HopOf b i h) (ht : h.dst.ty = .launch)
    (hI : c.Into h.dst L) (hB : c.Brings L S) (hF : ∀ b i g, c.HopOf b i g → g.src.ty = .faucet → w'.Supplies (coreOf T) g (B g)) (hx : ¬ Exited (historyOf h.dst.name T)) :
    prog h.dst.name (historyOf h.dst.name T) = .read ∧ ∃ lss ms, EachTells B T S lss ∧ Mix lss ms ∧ takenIn (historyOf h.dst.name T) = ms.flatten := by
  obtain ⟨lss, q1, q2⟩ := C91_taken hS hp hp' ho hm hw hq hb hcap hun hroom hT hst hf hno hh hI hB hF
  have r3 := rest_written hS hp hp' ho hm hw hq hb hcap hun hroom hT hst hf hno hh (Or.inl ht)
  obtain ⟨M, R, R', S', E, T', drain', printed', h1, P, h3⟩ := hS.laid hp hp' ho
  rw [hm] at h1
  cases h1
  have hC := P.complete hS.hops hS.complete
  have hb' := P.loopsBuffered hS.hops hb
  rw [connection_length (R := R') rfl] at hun
  have A := assembled rfl hw hq
  obtain ⟨ex, u⟩ := A.run hC hT.core
  have nf := C55_no_failures (A.wired hC) ex u (A.inside hC hT.core hf)
  obtain ⟨g', hg', e⟩ := P.enters hh
  obtain ⟨j, hj⟩ := List.mem_iff_getElem?.mp hg'
  obtain ⟨n, hn, _, _⟩ := A.readerStream hj (by rw [e]; exact Or.inl ht)
  have er : h.reader = .part (.launch, h.dst.name) .input := by simp only [Hop.reader, Hop.to, ht]
  rw [reader_dst e, er] at hn
  have hn : w'.node (.part (.launch, h.dst.name) .input) = some n := hn
  have hk : w'.comps.get (.launch, h.dst.name) ≠ none := by
    intro h; simp [Waiter.node, h] at hn
  obtain ⟨k1, k2⟩ := (C88_rest rfl hw hq hC hb' hcap hun hroom hT hst (fun i _ _ _ h f hm => not_ruins (nf i _ f h hm)) hno.heard hno.open' fun h => hno.still h.stirs).2.2.1 _ hk hx
  refine ⟨k1, lss, _, q1, q2, ?_⟩
  rw [er] at r3 ⊢
  have h1 := A.fedReceived hC hT h.dst.name
  have h2 := (A.toRigged.fed hC hT (sys_node hn)).given
  have e1 : h.to = (.launch, h.dst.name) := by simp only [Hop.to, ht]
  have e2 : w'.given T h.dst.name = (received (proj (.part (.launch, h.dst.name) .input) (coreOf T))).flatten := by
    rw [← r3, e1]; rfl
  rw [e2] at h2
  rw [← List.IsPrefix.eq_of_length h1 (Nat.le_antisymm h1.length_le h2.length_le)]
  obtain ⟨v, hv⟩ := hT.taken h.dst.name
  rw [inPipe, ← hv, List.drop_left] at k2
  rw [← hv, k2, List.append_nil]

/-- **C91** And a drain other than `/dev/null` has written a mixture of everything that has come from the programs and files before it. -/
theorem C91_written (hS : c.Sound hs) (hp : ∀ l, (perm l).Perm l) (hp' : ∀ l, (perm' l).Perm l) (ho : ∀ l, (spyOrder l).Perm l)
    (hm : manipulate perm perm' spyOrder c = some (c', printed)) (hw : getWaiter c' = .ok w) (hq : w.regulatorSettings order = .ok (cs, w')) (hb : LoopsBuffered hs)
    (hcap : ∀ k ch, cap k ch ≠ some 0) (hun : ∀ ch, c'.connection.length ≤ ch → cap .data ch = none) (hroom : 0 < room)
    (hT : w'.WorldRun cs cap room prog T) (hst : execAll cap Store.init ((coreOf T).map Prod.snd) = some st) (hf : ∀ i, ∀ f ∈ acts (proj i (coreOf T)), f.trouble = false)
    (hno : w'.AtRest cs cap room prog st T) {b : Str} {i : Nat} {h : Hop} {L : List (Str × Nat)} {S : List Hop} {B : Hop → Bytes} (hh : c.HopOf b i h) (ht : h.dst.ty = .drain)
    (hn : c.drain.get h.dst.name ≠ some "/dev/null".toList)
    (hI : c.Into h.dst L) (hB : c.Brings L S) (hF : ∀ b i g, c.HopOf b i g → g.src.ty = .faucet → w'.Supplies (coreOf T) g (B g)) :
    ∃ lss ms, EachTells B T S lss ∧ Mix lss ms ∧ bytesIn (3 * w'.idOf h.to) (proj h.reader (coreOf T)) = ms.flatten := by
  obtain ⟨lss, q1, q2⟩ := C91_taken hS hp hp' ho hm hw hq hb hcap hun hroom hT hst hf hno hh hI hB hF
  exact ⟨lss, _, q1, q2, by rw [bytesIn, rest_written hS hp hp' ho hm hw hq hb hcap hun hroom hT hst hf hno hh (Or.inr ⟨ht, hn⟩)]⟩

end
end Verif
