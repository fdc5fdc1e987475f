import Verif.Props.Spawn
import Verif.Props.WorldSolve
/-!
# C97: which streams are piped, by the configuration as it is written
-/
namespace Verif

section
variable {c c' : Config} {w w' : Waiter} {order : List (Str × Watch)} {cs : List Capture}

/-- The source of a hop of what runs that leaves a program by its output or its errors is that of a hop that is written. -/
theorem Laid.outPort {M R R' : Map Hop} {S : List SIns} {E : List EIns} {T : List Spy} (P : Laid c M R R' S E T) {g : Hop} (hg : g ∈ R'.map (·.2)) (h1 : g.src.ty = .launch)
    (h2 : g.src.port ≠ .exit) : ∃ b i h, c.HopOf b i h ∧ h.src = g.src := by
  obtain ⟨k, hk⟩ := (lists_map P.sorted' g).mp hg
  rcases P.split k g hk with ⟨t, _, _, rfl⟩ | hR
  · exact absurd rfl h2
  · obtain ⟨k', g', h3, h4⟩ := (P.ins.srcs (p := g.src) (by simp [h1])).mp ⟨k, g, hR, rfl⟩
    obtain ⟨b, i, h5, _⟩ := (P.hops k' g').mp h3
    exact ⟨b, i, g', h5, h4⟩

/-- **C97** Exactly the streams that the configuration uses as it is written are piped: neither the junctions that processing inserts nor the drains it adds for exits make a
program lose its terminal or gain a pipe. -/
theorem C97_piped {perm : List OutRef → List OutRef} {perm' : List InRef → List InRef} {spyOrder : List Str → List Str} {printed : List Str} {hs : List Hop} (hP : c.Proper)
    (hg : ∀ b d, (b, d) ∈ c.connection → d.Good) (hp : ∀ l, (perm l).Perm l) (hp' : ∀ l, (perm' l).Perm l) (ho : ∀ l, (spyOrder l).Perm l)
    (hd : ∀ b i h, c.HopOf b i h → h.dst.ty = .drain → h.dst.name ∈ c.drain.keys) (hhs : ∀ h, h ∈ hs ↔ ∃ b i, c.HopOf b i h)
    (hm : manipulate perm perm' spyOrder c = some (c', printed)) (hw : getWaiter c' = .ok w) (hq : w.regulatorSettings order = .ok (cs, w'))
    {h : Host} (hv : h.vars.keys.Nodup) {x : Str} {k : Comp} (hk : w'.comps.get (.launch, x) = some k) :
    ∃ cfg cmd, c.launch.get x = some cfg ∧ k.command h = some cmd ∧ AsConfigured cfg h cmd ∧ PipedAs hs x cmd := by
  obtain ⟨M, R, R', S, E, T, drain', printed', q1, q2, q3, q4, _, q6, q7, q8, q9, q10, q11⟩ := processed c hP.connection.nodup hg hp hp' ho hd
  have P : Laid c M R R' S E T := ⟨q2, q3, q4, q6, q7, q8, q9, q10, fun k h hk => by
    obtain ⟨b, i, hh, _⟩ := (q3 k h).mp hk
    exact hd b i h hh, q11⟩
  rw [hm] at q1
  cases q1
  have A := assembled (R := R') rfl hw hq
  have hm : Mentioned (R'.map (·.2)) (.launch, x) := Classical.byContradiction fun hn => by rw [A.only _ hn] at hk; cases hk
  obtain ⟨k', cfg, cmd, h1, h2, h3, h4, h5⟩ := A.toRigged.command hP.env hv hm
  rw [hk] at h1
  cases h1
  have port : ∀ q : OutputPort, q ≠ .exit → ((∃ g ∈ R'.map (·.2), g.src = ⟨.launch, x, q⟩) ↔ ∃ g ∈ hs, g.src = ⟨.launch, x, q⟩) := fun q hq => by
    constructor
    · rintro ⟨g, hg, e⟩
      obtain ⟨b, i, g', h6, h7⟩ := P.outPort hg (by rw [e]) (by rw [e]; exact hq)
      exact ⟨g', (hhs g').mpr ⟨b, i, h6⟩, h7.trans e⟩
    · rintro ⟨g, hg, e⟩
      obtain ⟨b, i, h6⟩ := (hhs g).mp hg
      obtain ⟨g', h7, h8⟩ := P.leaves h6
      exact ⟨g', h7, h8.trans e⟩
  refine ⟨cfg, cmd, h2, h3, h4, h5.stdin.trans ⟨?_, ?_⟩, h5.stdout.trans (port _ (by simp)), h5.stderr.trans (port _ (by simp))⟩
  · rintro ⟨g, hg, e⟩
    have e' : g.dst.ty = .launch := congrArg Prod.fst e
    obtain ⟨b, i, g', h6, h7⟩ := P.into hg (by simp [e']) (by simp [e'])
    exact ⟨g', (hhs g').mpr ⟨b, i, h6⟩, by rw [← e]; simp [Hop.to, h7]⟩
  · rintro ⟨g, hg, e⟩
    obtain ⟨b, i, h6⟩ := (hhs g).mp hg
    obtain ⟨g', h7, h8⟩ := P.enters h6
    exact ⟨g', h7, by rw [← e]; simp [Hop.to, h8]⟩

end

/-- The program of the example has its input and output piped, and not its errors. -/
example : ∃ c' printed w k cmd, manipulate id id id errand = some (c', printed) ∧ getWaiter c' = .ok w ∧ w.regulatorSettings [] = .ok ([], w) ∧ w.comps.get (.launch, "x".toList) = some k ∧
    k.command errandHost = some cmd ∧ cmd.stdin = true ∧ cmd.stdout = true ∧ cmd.stderr = false := by
  have h0 : ((manipulate id id id errand).bind fun x => (getWaiter x.1).ok?.bind fun w => w.comps.get (.launch, "x".toList)).isSome = true := by decide +kernel
  obtain ⟨k, h0⟩ := Option.isSome_iff_exists.mp h0
  simp only [Option.bind_eq_some_iff] at h0
  obtain ⟨⟨c', printed⟩, h1, w, h2, h3⟩ := h0
  have h2' : getWaiter c' = .ok w := by
    cases e : getWaiter c' with
    | ok w' => simp only [e, Built.ok?, Option.some.injEq] at h2; rw [h2]
    | err _ => simp [e, Built.ok?] at h2
    | panic => simp [e, Built.ok?] at h2
  have hv : errandHost.vars.keys.Nodup := by decide +kernel
  obtain ⟨cfg, cmd, _, g2, _, g3⟩ := C97_piped (c := errand) (hs := twoHops) errand_proper (twoPipes_good 0 5) (fun _ => .refl _) (fun _ => .refl _) (fun _ => .refl _) (twoPipes_drain 0 5)
    twoPipes_sound.hops h1 h2' (order := []) rfl hv h3
  refine ⟨c', printed, w, k, cmd, h1, h2', rfl, h3, g2, g3.stdin.mpr (by decide +kernel), g3.stdout.mpr (by decide +kernel), ?_⟩
  rw [← Bool.not_eq_true, g3.stderr]
  decide +kernel

end Verif
