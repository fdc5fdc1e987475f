import Verif.Spec.Spawn
import Verif.Props.Processed
import Verif.Props.Serde
/-!
# C97: programs are started as configured
-/
namespace Verif

theorem get_foldl_put {α} (l m : Map α) (hl : l.keys.Nodup) (k : Str) :
    (l.foldl (fun m x => m.put x.1 x.2) m).get k = match l.get k with | some v => some v | none => m.get k := by
  induction l generalizing m with
  | nil => rfl
  | cons x l ih =>
    obtain ⟨a, b⟩ := x
    simp only [Map.keys, List.map_cons, List.nodup_cons] at hl
    simp only [List.foldl_cons, Map.get]
    rw [ih _ hl.2, Map.put, get_entry]
    by_cases e : a = k
    · subst e
      have : Map.get l a = none := by
        cases hg : Map.get l a with
        | none => rfl
        | some v => exact absurd (List.mem_map.mpr ⟨_, mem_of_get hg, rfl⟩) hl.1
      rw [this]
      simp only [if_true]
      cases Map.get m a <;> rfl
    · have e' : k ≠ a := fun h => e h.symm
      simp only [e, e', if_false]

theorem get_none_iff {α} {m : Map α} {k : Str} : m.get k = none ↔ k ∉ m.keys := by
  constructor
  · intro h hk
    induction m with
    | nil => cases hk
    | cons x m ih =>
      obtain ⟨b, u⟩ := x
      simp only [Map.get] at h
      split at h
      · cases h
      · rename_i hne
        rcases List.mem_cons.mp hk with e | hk'
        · exact hne e.symm
        · exact ih h hk'
  · intro h
    cases hg : m.get k with
    | none => rfl
    | some v => exact absurd (mem_keys_of_get hg) h

theorem Cmd.configure_fields (prog : Str) (h : Host) (path : Option Str) (env : Option (Map Str)) (args : Option (List Str)) :
    ((Cmd.new prog).configure h path env args).program = prog ∧ ((Cmd.new prog).configure h path env args).args = args.getD [] ∧
    ((Cmd.new prog).configure h path env args).dir = (match path with | some p => some p | none => h.dir) ∧
    ((Cmd.new prog).configure h path env args).vars = (env.getD h.vars).foldl (fun (m : Map Str) x => m.put x.1 x.2) [] := by
  unfold Cmd.configure Cmd.withArgs Cmd.withEnv Cmd.withPath Cmd.withDir
  cases path <;> cases hd : h.dir <;> cases env <;> cases args <;> simp [Cmd.new, Cmd.envs, Cmd.addArgs, Cmd.currentDir]

theorem configured {cfg : LaunchConfig} {h : Host} (he : cfg.env.keys.Nodup) (hv : h.vars.keys.Nodup) {cmd : Cmd} (f1 : cfg.command = some cmd.program)
    (f2 : cmd.args = cfg.orNone.2.getD []) (f3 : cmd.dir = match cfg.path with | some p => some p | none => h.dir)
    (f4 : cmd.vars = (cfg.orNone.1.getD h.vars).foldl (fun (m : Map Str) x => m.put x.1 x.2) []) : AsConfigured cfg h cmd := by
  have var : ∀ k, cmd.var h k = match cfg.env.get k with | some v => some v | none => h.vars.get k := by
    intro k
    by_cases h0 : cfg.env = []
    · simp only [LaunchConfig.orNone, h0, if_true, Option.getD_none] at f4
      simp only [Cmd.var, f4]
      rw [get_foldl_put _ _ hv, h0]
      simp only [Map.get]
      cases h.vars.get k <;> rfl
    · simp only [LaunchConfig.orNone, h0, if_false, Option.getD_some] at f4
      simp only [Cmd.var, f4]
      rw [get_foldl_put _ _ he]
      simp only [Map.get]
      cases cfg.env.get k <;> rfl
  refine ⟨f1, ?_, ?_, ?_, ?_, ?_⟩
  · rw [f2]
    simp only [LaunchConfig.orNone]
    split
    · rename_i h0; rw [h0]; rfl
    · rfl
  · intro h0
    simp only [Cmd.directory, f3, h0]
    cases h.dir <;> rfl
  · intro p h0
    simp only [Cmd.directory, f3, h0]
  · intro k v hkv
    rw [var, get_of_mem he hkv]
  · intro k hk
    rw [var, get_none_iff.mpr hk]

theorem ne_nil_iff_mem {α} {l : List α} : l ≠ [] ↔ ∃ x, x ∈ l := by cases l <;> simp [exists_or]

theorem isSome_head {α} {l : List α} : l.head?.isSome = true ↔ l ≠ [] := by cases l <;> simp

theorem pushEnds_ne {id : CompRef → Nat} {hs : List Hop} {q : Hop → Bool} : pushEnds id hs.zipIdx q ≠ [] ↔ ∃ h ∈ hs, q h = true := by
  rw [ne_nil_iff_mem]
  simp only [mem_pushEnds]
  constructor
  · rintro ⟨_, i, h, h1, h2, _⟩; exact ⟨h, List.mem_of_getElem? h1, h2⟩
  · rintro ⟨h, h1, h2⟩
    obtain ⟨i, hi⟩ := List.getElem?_of_mem h1
    exact ⟨_, i, h, hi, h2, rfl⟩

theorem pullEnds_ne {id : CompRef → Nat} {hs : List Hop} {q : Hop → Bool} : pullEnds id hs.zipIdx q ≠ [] ↔ ∃ h ∈ hs, q h = true := by
  rw [ne_nil_iff_mem]
  constructor
  · rintro ⟨x, hx⟩
    obtain ⟨⟨h, i⟩, hm, _⟩ := List.mem_map.mp hx
    obtain ⟨h1, h2⟩ := List.mem_filter.mp hm
    exact ⟨h, List.mem_of_getElem? (List.mem_zipIdx_iff_getElem?.mp h1), h2⟩
  · rintro ⟨h, h1, h2⟩
    obtain ⟨i, hi⟩ := List.getElem?_of_mem h1
    exact ⟨_, List.mem_map.mpr ⟨(h, i), List.mem_filter.mpr ⟨List.mem_zipIdx_iff_getElem?.mpr hi, h2⟩, rfl⟩⟩

section
variable {c c' : Config} {w w' : Waiter} {order : List (Str × Watch)} {cs : List Capture}

/-- The commands of what is wired up. -/
theorem Rigged.command {c : Config} {hs : List Hop} {w : Waiter} (A : Rigged c hs w) (he : ∀ n l, (n, l) ∈ c.launch → l.env.keys.Nodup) {h : Host} (hv : h.vars.keys.Nodup)
    {x : Str} (hx : Mentioned hs (.launch, x)) : ∃ k cfg cmd, w.comps.get (.launch, x) = some k ∧ c.launch.get x = some cfg ∧ k.command h = some cmd ∧
      AsConfigured cfg h cmd ∧ PipedAs hs x cmd := by
  obtain ⟨k, hk, hp⟩ := A.made' (.launch, x) hx (by simp)
  rw [expected_launch _ _ _ _ rfl] at hp
  have hk' := plain_launch hp
  obtain ⟨cfg, hc, hcmd⟩ : ∃ cfg, c.launch.get x = some cfg ∧ cfg.command ≠ none := by
    obtain ⟨h, hh, e⟩ := hx
    obtain ⟨pre, post, rfl⟩ := List.append_of_mem hh
    obtain ⟨r1, r2, _, _⟩ := A.all pre h post rfl
    rcases e with e | e
    · have := r1; rw [e] at this; exact this rfl
    · have := r2; rw [e] at this; exact this rfl
  obtain ⟨prog, hprog⟩ := Option.ne_none_iff_exists'.mp hcmd
  simp only [hc, Option.getD_some, hprog] at hk'
  obtain ⟨f1, f2, f3, f4⟩ := Cmd.configure_fields prog h cfg.path cfg.orNone.1 cfg.orNone.2
  obtain ⟨cmd, e⟩ : ∃ cmd, k.command h = some cmd := by rw [hk']; exact ⟨_, rfl⟩
  refine ⟨k, cfg, cmd, hk, hc, e, ?_⟩
  rw [hk'] at e
  simp only [Comp.command, Option.some.injEq] at e
  subst e
  refine ⟨configured (he _ _ (mem_of_get hc)) hv (by rw [hprog]; exact congrArg some f1.symm) f2 f3 f4, ?_, ?_, ?_⟩
  · simp only [Option.isSome_map, isSome_head, pullEnds_ne, decide_eq_true_eq]
  · simp only [isSome_head, pushEnds_ne, decide_eq_true_eq]
  · simp only [isSome_head, pushEnds_ne, decide_eq_true_eq]

/-- **C97** Whatever the hops, once they are wired up and whether managers are prepared or not: each program is started with the command, arguments, directory and environment
of its configuration, and exactly the streams that are used are piped. -/
theorem C97_wired {R : Map Hop} (hc : c.connection = hopSets R) (hw : getWaiter c = .ok w) (hq : w.regulatorSettings order = .ok (cs, w')) (hP : c.Proper)
    {h : Host} (hv : h.vars.keys.Nodup) {x : Str} {k : Comp} (hk : w'.comps.get (.launch, x) = some k) :
    ∃ cfg cmd, c.launch.get x = some cfg ∧ k.command h = some cmd ∧ AsConfigured cfg h cmd ∧ PipedAs (R.map (·.2)) x cmd := by
  have A := assembled hc hw hq
  have hm : Mentioned (R.map (·.2)) (.launch, x) := Classical.byContradiction fun hn => by rw [A.only _ hn] at hk; cases hk
  obtain ⟨k', cfg, cmd, h1, h2⟩ := A.toRigged.command hP.env hv hm
  rw [hk] at h1
  cases h1
  exact ⟨cfg, cmd, h2⟩

/-- **C97** Processing changes nothing of this: what the programs are started with is what the configuration says as it is written. -/
theorem C97_written {perm : List OutRef → List OutRef} {perm' : List InRef → List InRef} {spyOrder : List Str → List Str} {printed : List Str} (hP : c.Proper)
    (hg : ∀ b d, (b, d) ∈ c.connection → d.Good) (hp : ∀ l, (perm l).Perm l) (hp' : ∀ l, (perm' l).Perm l) (ho : ∀ l, (spyOrder l).Perm l)
    (hd : ∀ b i h, c.HopOf b i h → h.dst.ty = .drain → h.dst.name ∈ c.drain.keys)
    (hm : manipulate perm perm' spyOrder c = some (c', printed)) (hw : getWaiter c' = .ok w) (hq : w.regulatorSettings order = .ok (cs, w'))
    {h : Host} (hv : h.vars.keys.Nodup) {x : Str} {k : Comp} (hk : w'.comps.get (.launch, x) = some k) :
    ∃ cfg cmd, c.launch.get x = some cfg ∧ k.command h = some cmd ∧ AsConfigured cfg h cmd := by
  obtain ⟨M, R, R', S, E, T, drain', printed', h1, _⟩ := processed c hP.connection.nodup hg hp hp' ho hd
  rw [hm] at h1
  cases h1
  have A := assembled (R := R') rfl hw hq
  have hm : Mentioned (R'.map (·.2)) (.launch, x) := Classical.byContradiction fun hn => by rw [A.only _ hn] at hk; cases hk
  obtain ⟨k', cfg, cmd, h1, h2, h3, h4, _⟩ := A.toRigged.command hP.env hv hm
  rw [hk] at h1
  cases h1
  exact ⟨cfg, cmd, h2, h3, h4⟩

end

/-! ## An example -/

/-- A program with settings of all kinds. -/
def errand : Config := { twoPipes 0 5 with launch := [("x".toList, ⟨some "sort".toList, some "/data".toList, [("LANG".toList, "C".toList)], ["-u".toList]⟩)] }

def errandHost : Host := ⟨some "/home".toList, [("PATH".toList, "/bin".toList), ("LANG".toList, "de".toList)]⟩

theorem errand_proper : errand.Proper :=
  ⟨by decide +kernel, by decide +kernel, by decide +kernel, by decide +kernel, by
      intro n l h
      simp only [errand, List.mem_singleton, Prod.mk.injEq] at h
      rw [h.2]; decide +kernel, by simp only [errand, twoPipes, Map.Sorted, Map.keys]; decide +kernel, by simp [errand, twoPipes], by
      intro k l x h hx
      simp only [errand, twoPipes, List.mem_cons, List.not_mem_nil, or_false, Prod.mk.injEq, DConn.conns.injEq] at h
      rcases h with ⟨_, rfl⟩ | ⟨_, rfl⟩ <;> simp only [List.mem_cons, List.not_mem_nil, or_false] at hx
      · rcases hx with rfl | rfl | rfl <;> simp [Connection.Fits, FitsI]
      · rcases hx with rfl | rfl <;> simp [Connection.Fits, FitsI]⟩

/-- It can be processed and wired up, and the program is started in its directory, with its language and the rest of the environment. -/
example : ∃ c' printed w k cmd, manipulate id id id errand = some (c', printed) ∧ getWaiter c' = .ok w ∧ w.regulatorSettings [] = .ok ([], w) ∧ w.comps.get (.launch, "x".toList) = some k ∧
    k.command errandHost = some cmd ∧ cmd.var errandHost "LANG".toList = some "C".toList ∧ cmd.var errandHost "PATH".toList = some "/bin".toList ∧
    cmd.directory errandHost = some "/data".toList ∧ cmd.stdin = true ∧ cmd.stderr = false := by
  have h0 : ((manipulate id id id errand).bind fun x => (getWaiter x.1).ok?.bind fun w => (w.comps.get (.launch, "x".toList)).bind fun k => (k.command errandHost).map fun cmd =>
    (cmd.stdin, cmd.stderr)) = some (true, false) := by decide +kernel
  simp only [Option.bind_eq_some_iff, Option.map_eq_some_iff, Prod.mk.injEq] at h0
  obtain ⟨⟨c', printed⟩, h1, w, h2, k, h3, cmd, h4, h5, h6⟩ := h0
  have h2' : getWaiter c' = .ok w := by
    cases e : getWaiter c' with
    | ok w' => simp only [e, Built.ok?, Option.some.injEq] at h2; rw [h2]
    | err _ => simp [e, Built.ok?] at h2
    | panic => simp [e, Built.ok?] at h2
  have hv : errandHost.vars.keys.Nodup := by decide +kernel
  obtain ⟨cfg, cmd', g1, g2, g3⟩ := C97_written (c := errand) errand_proper (twoPipes_good 0 5) (fun _ => .refl _) (fun _ => .refl _) (fun _ => .refl _) (twoPipes_drain 0 5) h1 h2'
    (order := []) rfl hv h3
  rw [h4] at g2
  cases g2
  have e : cfg = ⟨some "sort".toList, some "/data".toList, [("LANG".toList, "C".toList)], ["-u".toList]⟩ := by
    have : errand.launch.get "x".toList = some ⟨some "sort".toList, some "/data".toList, [("LANG".toList, "C".toList)], ["-u".toList]⟩ := by decide +kernel
    rw [this] at g1
    exact (Option.some.inj g1).symm
  subst e
  exact ⟨c', printed, w, k, cmd, h1, h2', rfl, h3, h4, g3.given _ _ List.mem_cons_self, (g3.inherited _ (by decide +kernel)).trans (by decide +kernel), g3.elsewhere _ rfl, h5, h6⟩

end Verif
