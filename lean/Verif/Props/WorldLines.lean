import Verif.Lemmas.LineByLine
import Verif.Props.WorldDoze
/-!
# C92: What programs that go line by line make of their input does not depend on timing, loops and merges included
-/
namespace Verif

/-- The lines a hop brings from where it begins if the programs have read these lines: those made of the lines read, or those of a file. -/
def Hop.flow (f : Str → Port → Bytes → List Bytes) (B : Hop → Bytes) (M : Str → List Bytes) (g : Hop) : List Bytes :=
  match g.src.ty, g.src.port with
  | .launch, .out => (M g.src.name).flatMap (f g.src.name .out)
  | .launch, .err => (M g.src.name).flatMap (f g.src.name .err)
  | .launch, .exit => []
  | _, _ => specLines (B g)

/-- Every program has read, in some order, the lines that come from the programs and files before it. -/
def Config.Balances (c : Config) (f : Str → Port → Bytes → List Bytes) (B : Hop → Bytes) (M : Str → List Bytes) : Prop :=
  ∀ b i h L S, c.HopOf b i h → h.dst.ty = .launch → c.Into h.dst L → c.Brings L S → (M h.dst.name).Perm (S.flatMap (·.flow f B M))

/-- Every program is granted at least the lines that come from the programs and files before it. -/
def Config.Grants (c : Config) (f : Str → Port → Bytes → List Bytes) (B : Hop → Bytes) (M : Str → List Bytes) : Prop :=
  ∀ b i h, c.HopOf b i h → h.dst.ty = .launch → ∃ L S, c.Into h.dst L ∧ c.Brings L S ∧ Among (S.flatMap (·.flow f B M)) (M h.dst.name)

/-- The lines the programs have read. -/
def linesRead (T : List Happening) (x : Str) : List Bytes := wholeLines (takenIn (historyOf x T))

section
variable {c c' : Config} {hs : List Hop} {perm : List OutRef → List OutRef} {perm' : List InRef → List InRef} {spyOrder : List Str → List Str} {printed : List Str}
  {w w' : Waiter} {order : List (Str × Watch)} {cs : List Capture} {cap : Caps} {room : Nat} {prog : Str → Program} {T : List Happening} {st : Store}
  {f : Str → Port → Bytes → List Bytes} {B : Hop → Bytes}

theorem Hop.flow_among {M M' : Str → List Bytes} {g : Hop} (h : g.src.ty = .launch → Among (M g.src.name) (M' g.src.name)) : Among (g.flow f B M) (g.flow f B M') := by
  by_cases hg : g.src.ty = .launch
  · cases hp : g.src.port with
    | out => simpa [Hop.flow, hg, hp] using (h hg).flatMap _
    | err => simpa [Hop.flow, hg, hp] using (h hg).flatMap _
    | exit => simpa [Hop.flow, hg, hp] using Among.refl _
  · simpa [Hop.flow, hg] using Among.refl _

/-- What flows is made of complete lines. -/
theorem Hop.flow_whole {g : Hop} (hg : g.src.ty = .faucet ∨ g.src.ty = .launch) (hf : g.src.ty = .launch → ∀ p l, IsCompleteLine l → ∀ m ∈ f g.src.name p l, IsCompleteLine m)
    (hB : g.src.ty = .faucet → ∀ l ∈ specLines (B g), IsCompleteLine l) : ∀ l ∈ g.flow f B (linesRead T), IsCompleteLine l := by
  intro l hl
  rcases hg with hg | hg
  · exact hB hg l (by simpa [Hop.flow, hg] using hl)
  · cases hp : g.src.port with
    | out =>
      simp only [Hop.flow, hg, hp, List.mem_flatMap] at hl
      obtain ⟨a, h', h⟩ := hl
      exact hf hg _ _ (mem_wholeLines h') _ h
    | err =>
      simp only [Hop.flow, hg, hp, List.mem_flatMap] at hl
      obtain ⟨a, h', h⟩ := hl
      exact hf hg _ _ (mem_wholeLines h') _ h
    | exit => simp [Hop.flow, hg, hp] at hl

/-- What a stream delivers, it has delivered before. -/
theorem ReadsFrom.earlier {h : Nat} {chunks : List Bytes} {t u : List Ev} (hc : ∀ x ∈ chunks, x ≠ []) (hr : ReadsFrom h chunks (t ++ u)) : ReadsFrom h chunks t := by
  rw [readsFrom_at hc] at hr ⊢
  intro k hk
  have e : answers h (t ++ u) = answers h t ++ answers h u := by simp [answers]
  rw [e] at hr
  have := hr k (by rw [List.length_append]; omega)
  rwa [List.getElem?_append_left hk] at this

theorem Waiter.Supplies.earlier {σ τ : List (Who × Ev)} {g : Hop} {bs : Bytes} (hx : ¬ g.isExit) (h : w.Supplies (σ ++ τ) g bs) : w.Supplies σ g bs := by
  rcases h with ⟨s, chunks, h1, h2, h3, h4⟩ | ⟨h, _⟩
  · rw [proj_append] at h4
    exact Or.inl ⟨s, chunks, h1, h2, h3, h4.earlier h2⟩
  · exact absurd h hx

/-- A program that goes line by line prints the beginning of what is due. -/
theorem Waiter.WorldRun.due (hT : w'.WorldRun cs cap room prog T) {x : Str} {F : Port → Bytes → List Bytes} (hL : (prog x).LineByLine F) (hr : Regular (historyOf x T)) (p : Port) :
    ∃ chunks, (∀ d ∈ chunks, d ≠ []) ∧ chunks.flatten = (dueLines F p (historyOf x T)).flatten ∧ ReadsFrom (w'.portOf x p) chunks (proj (.part (.launch, x) p.piece) (coreOf T)) := by
  have D := hT.drawnPort x p
  obtain ⟨v, hv⟩ := hT.drawn x p
  obtain ⟨u, hu⟩ := hL.prints _ (hT.lives x) hr p
  rw [← hv, List.append_assoc] at hu
  by_cases he : v ++ u = []
  · rw [he, List.append_nil] at hu
    exact ⟨_, hT.fine x p, hu, D.reads⟩
  · refine ⟨drawnFrom x p T ++ [v ++ u], ?_, by simpa using hu, D.reads.more (hT.fine x p) (D.whole.resolve_right fun g => he ?_) he⟩
    · intro d hd
      rcases List.mem_append.mp hd with hd | hd
      · exact hT.fine x p d hd
      · simp only [List.mem_singleton] at hd; subst hd; exact he
    · obtain ⟨g1, g2⟩ := g
      have hex : Exited (historyOf x T) := g1.resolve_left (hL.opened _ (hT.lives x) hr p)
      have h1 := hL.prompt _ (hT.lives x) hr (Or.inl hex) p
      rw [outPipe, ← hv, List.drop_left] at g2
      subst g2
      rw [← hv, ← hu] at h1
      simpa using h1

theorem Waiter.WorldRun.flows (hT : w'.WorldRun cs cap room prog T) (hr : ∀ x, Regular (historyOf x T)) {g : Hop} (hg : g.src.ty = .faucet ∨ g.src.ty = .launch) (hx : ¬ g.isExit)
    (hL : g.src.ty = .launch → (prog g.src.name).LineByLine (f g.src.name)) (hB : g.src.ty = .faucet → w'.Supplies (coreOf T) g (B g)) :
    w'.Supplies (coreOf T) g (g.flow f B (linesRead T)).flatten := by
  rcases hg with hg | h1
  · have : (g.flow f B (linesRead T)).flatten = B g := by simp [Hop.flow, hg, lines_flatten]
    rw [this]
    exact hB hg
  · have hL := hL h1
    clear hB
    obtain ⟨⟨ty, name, port⟩, _, _, _, _⟩ := g
    dsimp only at h1
    subst h1
    cases port with
    | out =>
      obtain ⟨ch, k1, k2, k3⟩ := hT.due hL (hr _) .out
      exact Or.inl ⟨_, ch, rfl, k1, k2, k3⟩
    | err =>
      obtain ⟨ch, k1, k2, k3⟩ := hT.due hL (hr _) .err
      exact Or.inl ⟨_, ch, rfl, k1, k2, k3⟩
    | exit => exact absurd ⟨rfl, rfl⟩ hx

/-- **C92** At all times, loops and merges or not: no program has read more lines than any plan grants that grants each at least what comes from the programs and files before it. -/
theorem C92_bounded (hS : c.Sound hs) (hp : ∀ l, (perm l).Perm l) (hp' : ∀ l, (perm' l).Perm l) (ho : ∀ l, (spyOrder l).Perm l)
    (hm : manipulate perm perm' spyOrder c = some (c', printed)) (hw : getWaiter c' = .ok w) (hq : w.regulatorSettings order = .ok (cs, w')) (hT : w'.WorldRun cs cap room prog T)
    (hf : ∀ i, ∀ f ∈ acts (proj i (coreOf T)), f.trouble = false) (hx : ∀ b i g, c.HopOf b i g → ¬ g.isExit) (hL : ∀ x, c.Launches x → (prog x).LineByLine (f x))
    (hF : ∀ b i g, c.HopOf b i g → g.src.ty = .faucet → w'.Supplies (coreOf T) g (B g) ∧ ∀ l ∈ specLines (B g), IsCompleteLine l)
    {M : Str → List Bytes} (hM : c.Grants f B M) (x : Str) : Among (linesRead T x) (M x) := by
  have hl : ∀ b i g, c.HopOf b i g → g.src.ty = .launch → (prog g.src.name).LineByLine (f g.src.name) := fun b i g hg h => hL _ ⟨b, i, g, hg, Or.inl (by simp [Hop.from, h])⟩
  have hreg : ∀ T, w'.WorldRun cs cap room prog T → (∀ i, ∀ f ∈ acts (proj i (coreOf T)), f.trouble = false) → ∀ x, Regular (historyOf x T) ∧ fedTo x T <+: (received (proj (.part (.launch, x) .input) (coreOf T))).flatten := by
    intro T hT hf x
    obtain ⟨M, R, R', S', E, T', drain', printed', k1, P, k3⟩ := hS.laid hp hp' ho
    rw [hm] at k1
    cases k1
    have hC := P.complete hS.hops hS.complete
    have A := assembled rfl hw hq
    exact ⟨A.regular hC hT hf x, A.fedReceived hC hT x⟩
  · induction hT generalizing x with
    | start => exact ⟨M x, .refl _⟩
    | @next T a hT ha ih =>
      have hf' : ∀ i, ∀ f ∈ acts (proj i (coreOf T)), f.trouble = false := fun i f hm => hf i f (by
        rw [coreOf_append, proj_append, acts_append]; exact List.mem_append_left _ hm)
      have hF' : ∀ b i g, c.HopOf b i g → g.src.ty = .faucet → w'.Supplies (coreOf T) g (B g) ∧ ∀ l ∈ specLines (B g), IsCompleteLine l := fun b i g hg h => by
        have := hF b i g hg h
        rw [coreOf_append] at this
        exact ⟨this.1.earlier (hx b i g hg), this.2⟩
      have ih := fun x => ih hf' hF' x
      by_cases hin : ∀ b i h, c.HopOf b i h → h.dst ≠ ⟨.launch, x⟩
      · rw [linesRead, unread hS hp hp' ho hm hw hq (hT.next ha) hin]
        exact ⟨M x, .refl _⟩
      have ex : ∃ b i h, c.HopOf b i h ∧ h.dst = ⟨.launch, x⟩ := Classical.byContradiction fun hn => hin fun b i h h1 h2 => hn ⟨b, i, h, h1, h2⟩
      obtain ⟨b, i, h, hh, hd⟩ := ex
      have key : takenIn (historyOf x (T ++ [a])) <+: fedTo x T → Among (linesRead (T ++ [a]) x) (M x) := by
        intro hpre
        obtain ⟨L, S, hI, hB, hA⟩ := hM b i h hh (by rw [hd])
        have src := hB.sources
        have hr := hreg T hT hf'
        obtain ⟨ls, q1, q2⟩ := C78_taken hS hp hp' ho hm hw hq hT.core (B := fun g => (g.flow f B (linesRead T)).flatten) hh hI hB fun g hg => by
          obtain ⟨⟨b', i', hg'⟩, hty⟩ := src g hg
          exact hT.flows (fun x => (hr x).1) hty (hx _ _ _ hg') (hl _ _ _ hg') fun e => (hF' _ _ _ hg' e).1
        have wh : ∀ g ∈ S, ∀ l ∈ g.flow f B (linesRead T), IsCompleteLine l := fun g hg => by
          obtain ⟨⟨b', i', hg'⟩, hty⟩ := src g hg
          exact Hop.flow_whole hty (fun e => (hl _ _ _ hg' e).whole) fun e => (hF' _ _ _ hg' e).2
        have eS : (S.map fun g => specLines (g.flow f B (linesRead T)).flatten) = S.map fun g => g.flow f B (linesRead T) := List.map_congr_left fun g hg => specLines_whole (wh g hg)
        rw [eS] at q1
        have er : h.reader = .part (.launch, x) .input := by simp only [Hop.reader, Hop.to, hd]
        rw [er] at q2
        have wr : ∀ l ∈ received (proj (.part (.launch, x) .input) (coreOf T)), IsCompleteLine l := by
          intro l hl
          have := q1.mem (q2.perm.mem_iff.mp hl)
          rw [← List.flatMap_def, List.mem_flatMap] at this
          obtain ⟨g, hg, h⟩ := this
          exact wh g hg l h
        have a1 := Among.of_prefix (wholeLines_prefix wr (hpre.trans (hr x).2))
        have a2 := a1.trans ((Among.of_perm q2.perm).trans q1.among)
        rw [← List.flatMap_def] at a2
        rw [hd] at hA
        refine (a2.trans (Among.flatMap_each fun g hg => Hop.flow_among fun e => ?_)).trans hA
        exact ih _
      cases ha with
      | feed => simpa [linesRead] using ih x
      | core h1 => exact key (by simpa using hT.taken x)
      | draw h1 => exact key (by simpa using hT.taken x)
      | prog h1 h2 h3 h4 =>
        refine key ?_
        have := (hT.next (.prog h1 h2 h3 h4)).taken x
        simpa using this

/-- When nothing is on its way any more, programs have ended or wait for input. -/
theorem rest_waits (hS : c.Sound hs) (hp : ∀ l, (perm l).Perm l) (hp' : ∀ l, (perm' l).Perm l) (ho : ∀ l, (spyOrder l).Perm l)
    (hm : manipulate perm perm' spyOrder c = some (c', printed)) (hw : getWaiter c' = .ok w) (hq : w.regulatorSettings order = .ok (cs, w')) (hb : LoopsBuffered hs)
    (hcap : ∀ k ch, cap k ch ≠ some 0) (hun : ∀ ch, c'.connection.length ≤ ch → cap .data ch = none) (hroom : 0 < room)
    (hT : w'.WorldRun cs cap room prog T) (hst : execAll cap Store.init ((coreOf T).map Prod.snd) = some st) (hf : ∀ i, ∀ f ∈ acts (proj i (coreOf T)), f.trouble = false)
    (hno : w'.AtRest cs cap room prog st T) {x : Str} (hx : c.Launches x) :
    Regular (historyOf x T) ∧ (Exited (historyOf x T) ∨ prog x (historyOf x T) = .read ∧ inPipe x T = []) := by
  have hk := (running hS hp hp' ho hm hw hq x).mpr hx
  obtain ⟨M, R, R', S', E, T', drain', printed', h1, P, h3⟩ := hS.laid hp hp' ho
  rw [hm] at h1
  cases h1
  have hC := P.complete hS.hops hS.complete
  have hb' := P.loopsBuffered hS.hops hb
  rw [connection_length (R := R') rfl] at hun
  have A := assembled rfl hw hq
  obtain ⟨ex, u⟩ := A.run hC hT.core
  have nf := C55_no_failures (A.wired hC) ex u (A.inside hC hT.core hf)
  refine ⟨A.regular hC hT hf x, Classical.or_iff_not_imp_left.mpr fun hx => ?_⟩
  exact (C88_rest rfl hw hq hC hb' hcap hun hroom hT hst (fun i _ _ _ h f hm => not_ruins (nf i _ f h hm)) hno.heard hno.open' fun h => hno.still h.stirs).2.2.1 _ hk hx

/-- Then the pipe to a program has taken everything that its input has taken in. -/
theorem rest_fed (hS : c.Sound hs) (hp : ∀ l, (perm l).Perm l) (hp' : ∀ l, (perm' l).Perm l) (ho : ∀ l, (spyOrder l).Perm l)
    (hm : manipulate perm perm' spyOrder c = some (c', printed)) (hw : getWaiter c' = .ok w) (hq : w.regulatorSettings order = .ok (cs, w')) (hb : LoopsBuffered hs)
    (hcap : ∀ k ch, cap k ch ≠ some 0) (hun : ∀ ch, c'.connection.length ≤ ch → cap .data ch = none) (hroom : 0 < room)
    (hT : w'.WorldRun cs cap room prog T) (hst : execAll cap Store.init ((coreOf T).map Prod.snd) = some st) (hf : ∀ i, ∀ f ∈ acts (proj i (coreOf T)), f.trouble = false)
    (hno : w'.AtRest cs cap room prog st T) {b : Str} {i : Nat} {h : Hop} (hh : c.HopOf b i h) (ht : h.dst.ty = .launch) :
    fedTo h.dst.name T = (received (proj h.reader (coreOf T))).flatten := by
  have r3 := rest_written hS hp hp' ho hm hw hq hb hcap hun hroom hT hst hf hno hh (Or.inl ht)
  obtain ⟨M, R, R', S', E, T', drain', printed', h1, P, h3⟩ := hS.laid hp hp' ho
  rw [hm] at h1
  cases h1
  have hC := P.complete hS.hops hS.complete
  have A := assembled rfl hw hq
  obtain ⟨g', hg', e⟩ := P.enters hh
  obtain ⟨j, hj⟩ := List.mem_iff_getElem?.mp hg'
  obtain ⟨n, hn, _, _⟩ := A.readerStream hj (by rw [e]; exact Or.inl ht)
  have er : h.reader = .part (.launch, h.dst.name) .input := by simp only [Hop.reader, Hop.to, ht]
  rw [reader_dst e, er] at hn
  have hn : w'.node (.part (.launch, h.dst.name) .input) = some n := hn
  rw [er] at r3 ⊢
  have h1 := A.fedReceived hC hT h.dst.name
  have h2 := (A.toRigged.fed hC hT (sys_node hn)).given
  have e1 : h.to = (.launch, h.dst.name) := by simp only [Hop.to, ht]
  have e2 : w'.given T h.dst.name = (received (proj (.part (.launch, h.dst.name) .input) (coreOf T))).flatten := by
    rw [← r3, e1]; rfl
  rw [e2] at h2
  exact List.IsPrefix.eq_of_length h1 (Nat.le_antisymm h1.length_le h2.length_le)

/-- What has come from the programs and files is what flows. -/
theorem EachTells.flows {S : List Hop} {lss : List (List Bytes)} (h : EachTells B T S lss) (hs : ∀ g ∈ S, ∀ ls, g.Tells B T ls → ls = g.flow f B (linesRead T)) :
    lss = S.map (·.flow f B (linesRead T)) := by
  induction h with
  | nil => rfl
  | cons h1 _ ih => rw [List.map_cons, hs _ (by simp) _ h1, ih fun g hg => hs g (by simp [hg])]

/-- **C92** When nothing is on its way any more: what every program has read, and what every drain that keeps it has written, are the lines that come from the programs and files before it, in some order. -/
theorem C92_balanced (hS : c.Sound hs) (hp : ∀ l, (perm l).Perm l) (hp' : ∀ l, (perm' l).Perm l) (ho : ∀ l, (spyOrder l).Perm l)
    (hm : manipulate perm perm' spyOrder c = some (c', printed)) (hw : getWaiter c' = .ok w) (hq : w.regulatorSettings order = .ok (cs, w')) (hb : LoopsBuffered hs)
    (hcap : ∀ k ch, cap k ch ≠ some 0) (hun : ∀ ch, c'.connection.length ≤ ch → cap .data ch = none) (hroom : 0 < room)
    (hT : w'.WorldRun cs cap room prog T) (hst : execAll cap Store.init ((coreOf T).map Prod.snd) = some st) (hf : ∀ i, ∀ f ∈ acts (proj i (coreOf T)), f.trouble = false)
    (hno : w'.AtRest cs cap room prog st T) (hx : ∀ b i g, c.HopOf b i g → ¬ g.isExit) (hL : ∀ x, c.Launches x → (prog x).LineByLine (f x))
    (hF : ∀ b i g, c.HopOf b i g → g.src.ty = .faucet → w'.Supplies (coreOf T) g (B g) ∧ ∀ l ∈ specLines (B g), IsCompleteLine l) :
    c.Balances f B (linesRead T) ∧ (∀ x L S, c.Launches x → c.Into ⟨.launch, x⟩ L → c.Brings L S → takenIn (historyOf x T) = (linesRead T x).flatten) ∧
    ∀ b i h L S, c.HopOf b i h → h.dst.ty = .drain → c.drain.get h.dst.name ≠ some "/dev/null".toList → c.Into h.dst L → c.Brings L S →
      (specLines (bytesIn (3 * w'.idOf h.to) (proj h.reader (coreOf T)))).Perm (S.flatMap (·.flow f B (linesRead T))) := by
  have hl : ∀ b i g, c.HopOf b i g → g.src.ty = .launch → c.Launches g.src.name := fun b i g hg h => ⟨b, i, g, hg, Or.inl (by simp [Hop.from, h])⟩
  have wait := fun x hx => rest_waits hS hp hp' ho hm hw hq hb hcap hun hroom hT hst hf hno (x := x) hx
  have port : ∀ x p, c.Launches x → putOut p (historyOf x T) = (dueLines (f x) p (historyOf x T)).flatten ∧ (∀ l ∈ dueLines (f x) p (historyOf x T), IsCompleteLine l) := by
    intro x p h
    obtain ⟨r, e⟩ := wait x h
    refine ⟨(hL x h).prompt _ (hT.lives x) r (e.imp_right And.left) p, fun l hl => ?_⟩
    obtain ⟨a, h0, h1⟩ := List.mem_flatMap.mp hl
    exact (hL x h).whole _ _ (mem_wholeLines h0) _ h1
  have tells : ∀ b i g, c.HopOf b i g → g.src.ty = .faucet ∨ g.src.ty = .launch → (∀ ls, g.Tells B T ls → ls = g.flow f B (linesRead T)) ∧ ∀ l ∈ g.flow f B (linesRead T), IsCompleteLine l := by
    intro b i g hg hty
    refine ⟨fun ls h => ?_, Hop.flow_whole hty (fun e => (hL _ (hl b i g hg e)).whole) fun e => (hF b i g hg e).2⟩
    rcases hty with e | e
    · simpa [Hop.Tells, Hop.flow, e] using h
    · have key : ∀ p ls, (Shut p (historyOf g.src.name T) ∧ ls = specLines (putOut p (historyOf g.src.name T)) ∨ ¬ Shut p (historyOf g.src.name T) ∧ ls = wholeLines (putOut p (historyOf g.src.name T))) →
          ls = dueLines (f g.src.name) p (historyOf g.src.name T) := by
        intro p ls h
        obtain ⟨h1, h2⟩ := port g.src.name p (hl b i g hg e)
        rw [h1] at h
        rcases h with ⟨_, rfl⟩ | ⟨_, rfl⟩
        · exact specLines_whole h2
        · exact wholeLines_flatten h2
      cases hpo : g.src.port with
      | out =>
        simp only [Hop.Tells, e, hpo] at h
        simpa [Hop.flow, e, hpo, dueLines, linesRead] using key .out ls h
      | err =>
        simp only [Hop.Tells, e, hpo] at h
        simpa [Hop.flow, e, hpo, dueLines, linesRead] using key .err ls h
      | exit => exact absurd ⟨e, hpo⟩ (hx b i g hg)
  have took : ∀ b i h L S, c.HopOf b i h → c.Into h.dst L → c.Brings L S → (received (proj h.reader (coreOf T))).Perm (S.flatMap (·.flow f B (linesRead T))) ∧
      ∀ l ∈ received (proj h.reader (coreOf T)), IsCompleteLine l := by
    intro b i h L S hh hI hB
    obtain ⟨lss, q1, q2⟩ := C91_taken hS hp hp' ho hm hw hq hb hcap hun hroom hT hst hf hno hh hI hB fun b i g hg e => (hF b i g hg e).1
    have src := hB.sources
    have e := q1.flows (f := f) fun g hg => by
      obtain ⟨⟨b', i', hg'⟩, hty⟩ := src g hg
      exact (tells _ _ _ hg' hty).1
    subst e
    have := q2.perm
    rw [← List.flatMap_def] at this
    refine ⟨this, fun l hl => ?_⟩
    obtain ⟨g, hg, h1⟩ := List.mem_flatMap.mp (this.mem_iff.mp hl)
    obtain ⟨⟨b', i', hg'⟩, hty⟩ := src g hg
    exact (tells _ _ _ hg' hty).2 l h1
  have read : ∀ b i h L S, c.HopOf b i h → h.dst.ty = .launch → c.Into h.dst L → c.Brings L S → takenIn (historyOf h.dst.name T) = (received (proj h.reader (coreOf T))).flatten := by
    intro b i h L S hh ht hI hB
    rw [← rest_fed hS hp hp' ho hm hw hq hb hcap hun hroom hT hst hf hno hh ht]
    have hla : c.Launches h.dst.name := ⟨b, i, h, hh, Or.inr (by simp [Hop.to, ht])⟩
    obtain ⟨r, e | ⟨_, e⟩⟩ := wait _ hla
    · exact (hT.readsAll ((hL _ hla).reads _ (hT.lives _) r (Or.inr e))).1
    · obtain ⟨v, hv⟩ := hT.taken h.dst.name
      rw [inPipe, ← hv, List.drop_left] at e
      rw [← hv, e, List.append_nil]
  refine ⟨?_, ?_, ?_⟩
  · intro b i h L S hh ht hI hB
    obtain ⟨k1, k2⟩ := took b i h L S hh hI hB
    rw [linesRead, read b i h L S hh ht hI hB, wholeLines_flatten k2]
    exact k1
  · intro x L S hla hI hB
    by_cases hin : ∀ b i h, c.HopOf b i h → h.dst ≠ ⟨.launch, x⟩
    · rw [linesRead, unread hS hp hp' ho hm hw hq hT hin]; rfl
    · have ex : ∃ b i h, c.HopOf b i h ∧ h.dst = ⟨.launch, x⟩ := Classical.byContradiction fun hn => hin fun b i h h1 h2 => hn ⟨b, i, h, h1, h2⟩
      obtain ⟨b, i, h, hh, hd⟩ := ex
      have k3 := read b i h L S hh (by rw [hd]) (by rw [hd]; exact hI) hB
      obtain ⟨_, k2⟩ := took b i h L S hh (by rw [hd]; exact hI) hB
      rw [hd] at k3
      rw [linesRead, k3, wholeLines_flatten k2]
  · intro b i h L S hh ht hn hI hB
    obtain ⟨k1, k2⟩ := took b i h L S hh hI hB
    rw [bytesIn, rest_written hS hp hp' ho hm hw hq hb hcap hun hroom hT hst hf hno hh (Or.inr ⟨ht, hn⟩), specLines_whole k2]
    exact k1

/-- **C92** So then every program has read the fewest lines that go with what comes from the programs and files before it: those of the least solution. -/
theorem C92_least (hS : c.Sound hs) (hp : ∀ l, (perm l).Perm l) (hp' : ∀ l, (perm' l).Perm l) (ho : ∀ l, (spyOrder l).Perm l)
    (hm : manipulate perm perm' spyOrder c = some (c', printed)) (hw : getWaiter c' = .ok w) (hq : w.regulatorSettings order = .ok (cs, w')) (hb : LoopsBuffered hs)
    (hcap : ∀ k ch, cap k ch ≠ some 0) (hun : ∀ ch, c'.connection.length ≤ ch → cap .data ch = none) (hroom : 0 < room)
    (hT : w'.WorldRun cs cap room prog T) (hst : execAll cap Store.init ((coreOf T).map Prod.snd) = some st) (hf : ∀ i, ∀ f ∈ acts (proj i (coreOf T)), f.trouble = false)
    (hno : w'.AtRest cs cap room prog st T) (hx : ∀ b i g, c.HopOf b i g → ¬ g.isExit) (hL : ∀ x, c.Launches x → (prog x).LineByLine (f x))
    (hF : ∀ b i g, c.HopOf b i g → g.src.ty = .faucet → w'.Supplies (coreOf T) g (B g) ∧ ∀ l ∈ specLines (B g), IsCompleteLine l)
    (hI : ∀ b i h, c.HopOf b i h → h.dst.ty = .launch → ∃ L S, c.Into h.dst L ∧ c.Brings L S) :
    c.Balances f B (linesRead T) ∧ ∀ M, c.Balances f B M → ∀ x, Among (linesRead T x) (M x) := by
  refine ⟨(C92_balanced hS hp hp' ho hm hw hq hb hcap hun hroom hT hst hf hno hx hL hF).1, fun M hM x => ?_⟩
  refine C92_bounded hS hp hp' ho hm hw hq hT hf hx hL hF (fun b i h hh ht => ?_) x
  obtain ⟨L, S, h1, h2⟩ := hI b i h hh ht
  exact ⟨L, S, h1, h2, .of_perm (hM b i h L S hh ht h1 h2).symm⟩

end

/-- A run of a configuration without trouble, of programs that go line by line, with files that contain that, until nothing is on its way any more: programs have read these bytes, and drains that keep what they
get have got those. -/
structure Config.Settles (c : Config) (hs : List Hop) (f : Str → Port → Bytes → List Bytes) (B : Hop → Bytes) (read : Str → Bytes) (got : InRef → Bytes) : Prop where
  settles : ∃ perm perm' spyOrder c' printed w order cs w' cap room prog T st,
    (∀ l, (perm l).Perm l) ∧ (∀ l, (perm' l).Perm l) ∧ (∀ l, (spyOrder l).Perm l) ∧ manipulate perm perm' spyOrder c = some (c', printed) ∧ getWaiter c' = .ok w ∧
    w.regulatorSettings order = .ok (cs, w') ∧ (∀ k ch, cap k ch ≠ some 0) ∧ (∀ ch, c'.connection.length ≤ ch → cap .data ch = none) ∧ 0 < room ∧
    w'.WorldRun cs cap room prog T ∧ execAll cap Store.init ((coreOf T).map Prod.snd) = some st ∧ (∀ i, ∀ f ∈ acts (proj i (coreOf T)), f.trouble = false) ∧
    w'.AtRest cs cap room prog st T ∧ (∀ b i g, c.HopOf b i g → g.src.ty = .faucet → w'.Supplies (coreOf T) g (B g)) ∧ (∀ x, c.Launches x → (prog x).LineByLine (f x)) ∧
    (∀ x, read x = takenIn (historyOf x T)) ∧ ∀ h ∈ hs, h.dst.ty = .drain → got h.dst = bytesIn (3 * w'.idOf h.to) (proj h.reader (coreOf T))

/-- **C92** Determinacy, loops and merges included: if every loop has a buffer and programs go through their input line by line, then two runs without trouble, whatever the order in which things happened, the
order in which the junctions were inserted, the sizes of the channels and of the pipes, and the programs, provided they make the same of each line, have in the end given every program the same lines to read, and
every drain the same lines to write, in some order. -/
theorem C92_determined {c : Config} {hs : List Hop} (hS : c.Sound hs) (hb : LoopsBuffered hs) (hx : ∀ b i g, c.HopOf b i g → ¬ g.isExit)
    (hI : ∀ b i h, c.HopOf b i h → ∃ L S, c.Into h.dst L ∧ c.Brings L S) {f : Str → Port → Bytes → List Bytes} {B : Hop → Bytes}
    (hB : ∀ b i g, c.HopOf b i g → g.src.ty = .faucet → ∀ l ∈ specLines (B g), IsCompleteLine l) {read read' : Str → Bytes} {got got' : InRef → Bytes}
    (h1 : c.Settles hs f B read got) (h2 : c.Settles hs f B read' got') :
    (∀ x, c.Launches x → (specLines (read x)).Perm (specLines (read' x))) ∧
    ∀ h ∈ hs, h.dst.ty = .drain → c.drain.get h.dst.name ≠ some "/dev/null".toList → (specLines (got h.dst)).Perm (specLines (got' h.dst)) := by
  obtain ⟨perm, perm', spyOrder, c', printed, w, order, cs, w', cap, room, prog, T, st, hp, hp', ho, hm, hw, hq, hcap, hun, hroom, hT, hst, hf, hno, hF, hL, hr, hg⟩ := h1
  have hF' := fun b i g hg e => And.intro (hF b i g hg e) (hB b i g hg e)
  obtain ⟨_, r1, d1⟩ := C92_balanced hS hp hp' ho hm hw hq hb hcap hun hroom hT hst hf hno hx hL hF'
  obtain ⟨s1, m1⟩ := C92_least hS hp hp' ho hm hw hq hb hcap hun hroom hT hst hf hno hx hL hF' fun b i h hh _ => hI b i h hh
  have n1 := fun x (hx : ∀ b i h, c.HopOf b i h → h.dst ≠ ⟨.launch, x⟩) => unread hS hp hp' ho hm hw hq hT hx
  obtain ⟨perm2, perm2', spyOrder2, c2', printed2, w2, order2, cs2, w2', cap2, room2, prog2, T2, st2, hp, hp', ho, hm, hw, hq, hcap, hun, hroom, hT, hst, hf, hno, hF, hL, hr2, hg2⟩ := h2
  have hF' := fun b i g hg e => And.intro (hF b i g hg e) (hB b i g hg e)
  obtain ⟨_, r2, d2⟩ := C92_balanced hS hp hp' ho hm hw hq hb hcap hun hroom hT hst hf hno hx hL hF'
  obtain ⟨s2, m2⟩ := C92_least hS hp hp' ho hm hw hq hb hcap hun hroom hT hst hf hno hx hL hF' fun b i h hh _ => hI b i h hh
  have n2 := fun x (hx : ∀ b i h, c.HopOf b i h → h.dst ≠ ⟨.launch, x⟩) => unread hS hp hp' ho hm hw hq hT hx
  have same : ∀ x, Among (linesRead T x) (linesRead T2 x) ∧ Among (linesRead T2 x) (linesRead T x) := fun x => ⟨m1 _ s2 x, m2 _ s1 x⟩
  constructor
  · intro x hla
    have : specLines (read x) = linesRead T x ∧ specLines (read' x) = linesRead T2 x := by
      rw [hr, hr2]
      by_cases hin : ∀ b i h, c.HopOf b i h → h.dst ≠ ⟨.launch, x⟩
      · rw [linesRead, linesRead, n1 x hin, n2 x hin]
        exact ⟨rfl, rfl⟩
      · have ex : ∃ b i h, c.HopOf b i h ∧ h.dst = ⟨.launch, x⟩ := Classical.byContradiction fun hn => hin fun b i h h1 h2 => hn ⟨b, i, h, h1, h2⟩
        obtain ⟨b, i, h, hh, hd⟩ := ex
        obtain ⟨L, S, k1, k2⟩ := hI b i h hh
        rw [hd] at k1
        rw [r1 x L S hla k1 k2, r2 x L S hla k1 k2]
        exact ⟨specLines_whole fun l => mem_wholeLines, specLines_whole fun l => mem_wholeLines⟩
    rw [this.1, this.2]
    exact (same x).1.antisymm (same x).2
  · intro h hh ht hn
    obtain ⟨b, i, hh'⟩ := (hS.hops h).mp hh
    obtain ⟨L, S, k1, k2⟩ := hI b i h hh'
    have p1 := d1 b i h L S hh' ht hn k1 k2
    have p2 := d2 b i h L S hh' ht hn k1 k2
    rw [hg h hh ht, hg2 h hh ht]
    refine p1.trans (.trans ?_ p2.symm)
    exact Among.antisymm (Among.flatMap_each fun g _ => Hop.flow_among fun _ => (same _).1) (Among.flatMap_each fun g _ => Hop.flow_among fun _ => (same _).2)

end Verif
