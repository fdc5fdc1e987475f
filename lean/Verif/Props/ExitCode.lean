import Verif.Lemmas.Collected
import Verif.Props.Endings
import Verif.Props.Processed
/-!
# C75: the exit code tells whether something went wrong
-/
namespace Verif

section
variable {c : Config} {hs : List Hop} {w : Waiter} {cs : List Capture} {cap : Caps} {bad : CompRef → Bool} {τ : List (Who × Ev)} {R : Map Hop} {w' : Waiter}
  {order : List (Str × Watch)} {out : Option (Except (List WaiterErr) Nat)}

theorem Table.mem_keys {κ α : Type} [DecidableEq κ] {m : Table κ α} {k : κ} : k ∈ m.map (·.1) ↔ ∃ v, m.get k = some v := by
  induction m with
  | nil => simp [Table.get]
  | cons a m ih =>
    obtain ⟨k', v'⟩ := a
    simp only [List.map_cons, List.mem_cons, Table.get, ih]
    by_cases h : k' = k
    · simp [h]
    · simp [h, Ne.symm h]

theorem Waiter.mem_refs {ty : ComponentType} {r : CompRef} : r ∈ w.refs ty ↔ r.1 = ty ∧ ∃ k, w.comps.get r = some k := by
  simp only [Waiter.refs, List.mem_filter, Table.mem_keys, decide_eq_true_eq]
  exact And.comm

theorem Waiter.Collects.mem {time res managed R} (h : w.Collects cs bad τ time res managed R) (x : Except WaiterErr Nat) :
    x ∈ R.all ↔ (∃ r k, w.comps.get r = some k ∧ x = reportOf r (time r) (res r)) ∨ ∃ c ∈ cs, x = .ok (managed c) := by
  simp only [Results.all, List.mem_append, h.launches.mem_iff, h.faucets.mem_iff, h.regulators.mem_iff, h.managers.mem_iff, h.drains.mem_iff, h.buffers.mem_iff, h.junctions.mem_iff,
    List.mem_map, Waiter.mem_refs]
  constructor
  · rintro ((((((⟨r, ⟨_, k, hk⟩, rfl⟩ | ⟨r, ⟨_, k, hk⟩, rfl⟩) | ⟨r, ⟨_, k, hk⟩, rfl⟩) | ⟨a, ha, rfl⟩) | ⟨r, ⟨_, k, hk⟩, rfl⟩) | ⟨r, ⟨_, k, hk⟩, rfl⟩) | ⟨r, ⟨_, k, hk⟩, rfl⟩)
    all_goals first | exact Or.inl ⟨_, _, hk, rfl⟩ | exact Or.inr ⟨_, ha, rfl⟩
  · rintro (⟨r, k, hk, rfl⟩ | ⟨a, ha, rfl⟩)
    · cases hr : r.1 with
      | launch => exact Or.inl (Or.inl (Or.inl (Or.inl (Or.inl (Or.inl ⟨r, ⟨hr, k, hk⟩, rfl⟩)))))
      | faucet => exact Or.inl (Or.inl (Or.inl (Or.inl (Or.inl (Or.inr ⟨r, ⟨hr, k, hk⟩, rfl⟩)))))
      | regulator => exact Or.inl (Or.inl (Or.inl (Or.inl (Or.inr ⟨r, ⟨hr, k, hk⟩, rfl⟩))))
      | drain => exact Or.inl (Or.inl (Or.inr ⟨r, ⟨hr, k, hk⟩, rfl⟩))
      | buffer => exact Or.inl (Or.inr ⟨r, ⟨hr, k, hk⟩, rfl⟩)
      | junction => exact Or.inr ⟨r, ⟨hr, k, hk⟩, rfl⟩
    · exact Or.inl (Or.inl (Or.inl (Or.inr ⟨a, ha, rfl⟩)))

/-- **C75** The result of a component is an error exactly if its file cannot be opened or one of its activities met something it cannot get over. -/
theorem C75_component (hc : c.connection = hopSets R) (hw : getWaiter c = .ok w) (hp : w.regulatorSettings order = .ok (cs, w')) (hC : Complete (R.map (·.2)))
    (hr : w'.RunWith cs bad cap τ) {r : CompRef} {x : Except MErr Nat} (hg : w'.Gives bad τ r x) : (∃ e, x = .error e) ↔ c.Breaks (R.map (·.2)) bad τ r :=
  (assembled hc hw hp).result hC hr hg

/-- **C75** The run is a success exactly if nothing broke; and if it is not, the errors name exactly the components that broke. -/
theorem C75_outcome (hc : c.connection = hopSets R) (hw : getWaiter c = .ok w) (hp : w.regulatorSettings order = .ok (cs, w')) (hC : Complete (R.map (·.2)))
    (hr : w'.RunWith cs bad cap τ) (ho : w'.Returns cs bad τ out) :
    ((∃ n, out = some (.ok n)) ↔ ∀ r, Mentioned (R.map (·.2)) r → ¬ c.Breaks (R.map (·.2)) bad τ r) ∧
    ∀ es, out = some (.error es) → (∀ e ∈ es, ∃ r m t, e = .causedBy r m t) ∧
      ∀ r, (∃ m t, .causedBy r m t ∈ es) ↔ Mentioned (R.map (·.2)) r ∧ c.Breaks (R.map (·.2)) bad τ r := by
  have A := assembled hc hw hp
  obtain ⟨_, time, res, managed, Rs, t0, hcol, hout⟩ := ho
  have err : ∀ e, .error e ∈ Rs.all ↔ ∃ r m, Mentioned (R.map (·.2)) r ∧ res r = .error m ∧ e = .causedBy r m (time r) := by
    intro e
    rw [hcol.mem]
    constructor
    · rintro (⟨r, k, hk, h⟩ | ⟨_, _, h⟩)
      · refine ⟨r, ?_⟩
        cases hx : res r with
        | ok n => rw [hx] at h; cases h
        | error m => rw [hx] at h; cases h; exact ⟨m, A.mentioned hk, rfl, rfl⟩
      · cases h
    · rintro ⟨r, m, hm, hx, rfl⟩
      obtain ⟨k, hk, _⟩ := A.comps r hm
      exact Or.inl ⟨r, k, hk, by rw [hx]; rfl⟩
  have brk : ∀ r, Mentioned (R.map (·.2)) r → ((∃ m, res r = .error m) ↔ c.Breaks (R.map (·.2)) bad τ r) := by
    intro r hm
    obtain ⟨k, hk, _⟩ := A.comps r hm
    exact A.result hC hr (hcol.gives r k hk)
  refine ⟨?_, ?_⟩
  · rw [(C45_success hout).1]
    constructor
    · intro h r hm hb
      obtain ⟨m, hx⟩ := (brk r hm).mpr hb
      obtain ⟨n, hn⟩ := h _ ((err _).mpr ⟨r, m, hm, hx, rfl⟩)
      cases hn
    · intro h x hx
      cases x with
      | ok n => exact ⟨n, rfl⟩
      | error e =>
        obtain ⟨r, m, hm, h1, _⟩ := (err e).mp hx
        exact absurd ((brk r hm).mp ⟨m, h1⟩) (h r hm)
  · rintro es rfl
    have hperm := (C45_reported hout).2
    have hmem : ∀ e, e ∈ es ↔ ∃ r m, Mentioned (R.map (·.2)) r ∧ res r = .error m ∧ e = .causedBy r m (time r) := by
      intro e
      rw [hperm.mem_iff, mem_errorsOf, err]
    refine ⟨?_, ?_⟩
    · intro e he
      obtain ⟨r, m, _, _, rfl⟩ := (hmem e).mp he
      exact ⟨r, m, _, rfl⟩
    · intro r
      constructor
      · rintro ⟨m, t, he⟩
        obtain ⟨r', m', hm, h1, h2⟩ := (hmem _).mp he
        cases h2
        exact ⟨hm, (brk r hm).mp ⟨_, h1⟩⟩
      · rintro ⟨hm, hb⟩
        obtain ⟨m, hx⟩ := (brk r hm).mpr hb
        exact ⟨m, _, (hmem _).mpr ⟨r, m, hm, hx, rfl⟩⟩

/-! ## What follows from success -/

/-- If nothing is unopenable, it is an ordinary run. -/
theorem Assembled.ordinary (A : Assembled c hs w) (hC : Complete hs) (h : ∀ r, Mentioned hs r → ¬ (c.Opens r ∧ bad r = true)) : w.sysWith cs bad = w.sys cs := by
  funext i
  have : w.unopened bad i = none := by
    cases hu : w.unopened bad i with
    | none => rfl
    | some t =>
      exfalso
      obtain ⟨r, rfl, _, _, _⟩ := A.unopened hu
      cases hk : w.comps.get r with
      | none => simp [Waiter.unopened, hk] at hu
      | some k => exact h r (A.mentioned hk) ((A.opens hC hk).mp (by rw [hu]; rfl))
  rw [Waiter.sysWith, this]; rfl

theorem Assembled.run_of (A : Assembled c hs w) (hC : Complete hs) (h : ∀ r, Mentioned hs r → ¬ (c.Opens r ∧ bad r = true)) (hr : w.RunWith cs bad cap τ) : w.Run cs cap τ := by
  have e := A.ordinary (cs := cs) hC h
  exact ⟨by rw [← e]; exact hr.exec, by rw [← e]; exact hr.known, by rw [← e]; exact hr.exits⟩

theorem Assembled.over_of (A : Assembled c hs w) (hC : Complete hs) (h : ∀ r, Mentioned hs r → ¬ (c.Opens r ∧ bad r = true)) (ho : w.OverWith cs bad τ) : w.Over cs τ := by
  have e := A.ordinary (cs := cs) hC h
  unfold Waiter.Over
  rw [← e]; exact ho

theorem fails_of_fatal {S : End → Prop} {f : Act} (h : f.fatal S) : f.fails = true := by
  cases f with
  | offer t d o => cases o <;> simp_all [Act.fatal, Act.fails]
  | _ => simp_all [Act.fatal, Act.fails]

/-- **C75** When no file, stream or notification fails, and all files can be opened, the run is a success. -/
theorem C75_clean (hc : c.connection = hopSets R) (hw : getWaiter c = .ok w) (hp : w.regulatorSettings order = .ok (cs, w')) (hC : Complete (R.map (·.2)))
    (hr : w'.RunWith cs bad cap τ) (ho : w'.Returns cs bad τ out) (hb : ∀ r, Mentioned (R.map (·.2)) r → ¬ (c.Opens r ∧ bad r = true))
    (hf : ∀ i, ∀ f ∈ acts (proj i τ), f.trouble = false) : ∃ n, out = some (.ok n) := by
  have A := assembled hc hw hp
  have hr' := A.run_of hC hb hr
  have ho' := A.over_of hC hb ho.1
  obtain ⟨E, U⟩ := A.run hC hr'
  have W := A.wired hC
  have nf := C55_no_failures W E U (A.inside hC hr' hf)
  rw [(C75_outcome hc hw hp hC hr ho).1]
  rintro r hm (h | ⟨p, f, hfm, hff⟩)
  · exact hb r hm h
  · have hfail := fails_of_fatal hff
    cases hn : w'.node (.part r p) with
    | some n =>
      rw [nf (.part r p) n f hn hfm] at hfail
      cases hfail
    | none =>
      obtain ⟨e, he, rfl⟩ := List.mem_map.mp hfm
      have hk := hr'.known _ (mem_proj.mp he)
      cases hs : w'.sys cs (.part r p) with
      | none => exact hk hs
      | some t =>
        rcases A.others hC hs hn with ⟨r', pe, ch, g, e1, _, rfl, rfl, hg, hx, hfr⟩ | ⟨r', m, e1, _, _, rfl, _⟩ | ⟨r', a, e1, _⟩
        · simp only [Who.part.injEq] at e1
          obtain ⟨rfl, rfl⟩ := e1
          obtain ⟨k, s, m, b, _, htr⟩ := exit_done (ho' _ _ hs)
          obtain ⟨F, n, hn', hsn⟩ := A.exitFacts hC hr' hg hx
          obtain ⟨st, hst⟩ := Option.isSome_iff_exists.mp hr'.exec.chans
          have fin := node_finished (W.ok g.reader n hn') (ho' _ _ (sys_node hn')) (fun f h => nf g.reader n f hn' h)
          have hacc := (edge_complete hst F.on F.writer F.reader F.sent F.got (fin.ended _ hsn)).1
          have hwr : g.writer = .part r .exit := by rw [(A.exitSys (cs := cs) hg hx).1, hfr]
          rw [hwr, htr, script_offered] at hacc
          rw [htr] at hfm
          cases b with
          | false =>
            have : acceptedBy (.chan pe.chan) (exitScript pe k s m false) = [] := by
              unfold acceptedBy
              simp [exitScript, offers_append, inVain_offers]
              simp [offers, acts, act]
            rw [this] at hacc
            cases hacc
          | true =>
            simp only [exitScript, acts_append, List.mem_append] at hfm
            rcases hfm with h | h
            · rcases inVain_acts k _ h with h | h <;> rw [h] at hff <;> exact hff
            · simp only [acts, List.map_cons, List.map_nil, List.mem_cons, List.not_mem_nil, or_false] at h
              rcases h with h | h | h <;> rw [h] at hff <;> simp [act, Act.fatal] at hff
        · simp only [Who.part.injEq] at e1
          obtain ⟨rfl, rfl⟩ := e1
          exact count_harmless (hr'.exec.tasks _ _ hs) ⟨_, hfm, hff⟩
        · cases e1

/-! Managers do nothing that can fail in this sense. -/

theorem manager_calm {S : End → Prop} (low high : Nat) (s : Manager) : (managerBody low high s).Only fun q => ∀ r, ¬ (act ⟨q, r⟩).fatal S := by
  have look : ∀ (i : Nat) (ms : List Monitor), (look i ms).Only fun q => ∀ r, ¬ (act ⟨q, r⟩).fatal S := by
    intro i ms
    induction ms generalizing i with
    | nil => exact trivial
    | cons m ms ih =>
      refine Prog.Only.bind (p := req _) (Prog.only_req fun r => by simp [act, Act.fatal]) fun x => ?_
      cases x with
      | closed => exact Prog.Only.bind (ih _) fun _ => trivial
      | empty => exact Prog.Only.bind (ih _) fun _ => trivial
      | got n => exact Prog.Only.bind (ih _) fun _ => trivial
  unfold managerBody
  refine Prog.Only.bind (look _ _) fun l => ?_
  refine Prog.Only.bind ?_ fun s1 => ?_
  · unfold pauseAbove
    split
    · refine Prog.Only.bind ?_ fun _ => trivial
      unfold Control.pause
      show Prog.Only _ (if _ then _ else _)
      split
      · exact trivial
      · exact Prog.Only.bind (p := req _) (Prog.only_req fun r => by simp [act, Act.fatal]) fun _ => trivial
    · exact trivial
  refine Prog.Only.bind ?_ fun s2 => ?_
  · unfold resumeBelow
    split
    · refine Prog.Only.bind ?_ fun _ => trivial
      unfold Control.resume
      show Prog.Only _ (if _ then _ else _)
      split
      · exact trivial
      · exact Prog.Only.bind (p := req _) (Prog.only_req fun r => by simp [act, Act.fatal]) fun _ => trivial
    · exact trivial
  show Prog.Only _ (if _ then _ else _)
  split
  · exact trivial
  · split
    · refine Prog.Only.bind ?_ fun _ => trivial
      unfold BackOff.wait
      exact Prog.Only.bind (p := req _) (Prog.only_req fun r => by simp [act, Act.fatal]) fun _ => trivial
    · exact trivial

theorem manager_harmless {S : End → Prop} {low high ctl : Nat} {chans : List Nat} {tr : List Ev} (h : (managerTask low high ctl chans).Partial tr) : ¬ Failed S tr := by
  rintro ⟨a, ha, hf⟩
  obtain ⟨e, he, rfl⟩ := List.mem_map.mp ha
  have : ∀ e ∈ tr, ∀ r, ¬ (act ⟨e.q, r⟩).fatal S := by
    refine Task.only (P := fun q => ∀ r, ¬ (act ⟨q, r⟩).fatal S) (fun s => manager_calm low high s) ?_ h
    intro kc _ r
    simp [act, Act.fatal]
  exact this e he e.r hf

theorem fatal_of_trouble {f : Act} (h : f.trouble = true) : f.fatal fun _ => True := by
  cases f with
  | offer t d o => cases t <;> cases o <;> simp_all [Act.fatal, Act.trouble]
  | _ => simp_all [Act.fatal, Act.trouble]

/-- Only drains and the inputs of programs write to files and streams. -/
theorem Assembled.handles (A : Assembled c hs w) {r : CompRef} {p : Piece} {n : Node} (h : w.node (.part r p) = some n) {x : Nat} (hx : .handle x ∈ n.targets) :
    r.1 = .drain ∨ (r.1 = .launch ∧ p = .input) := by
  obtain ⟨r', p', k, e, hm, _, he, hn⟩ := A.node_inv h
  simp only [Who.part.injEq] at e
  obtain ⟨rfl, rfl⟩ := e
  cases hr : r.1 with
  | drain => exact Or.inl rfl
  | faucet =>
    rw [expected_faucet _ _ _ _ hr] at he
    rw [plain_faucet he] at hn
    cases ho : (pushEnds w.idOf hs.zipIdx fun h => h.from = r).head? with
    | none => rw [ho] at hn; cases p <;> simp [Comp.node] at hn
    | some o =>
      rw [ho] at hn
      cases p <;> simp [Comp.node] at hn
      subst hn
      simp [Node.targets, PushEnd.push, Push.target] at hx
  | regulator =>
    rw [expected_regulator _ _ _ _ hr] at he
    obtain ⟨m, rfl⟩ := plain_regulator he
    cases hi : (pullEnds w.idOf hs.zipIdx fun h => h.to = r).head?.map Prod.fst with
    | none => rw [hi] at hn; cases p <;> simp [Comp.node] at hn
    | some i =>
      cases ho : (pushEnds w.idOf hs.zipIdx fun h => h.from = r).head? with
      | none => rw [ho, hi] at hn; cases p <;> simp [Comp.node] at hn
      | some o =>
        rw [ho, hi] at hn
        cases p <;> simp [Comp.node] at hn
        subst hn
        simp [Node.targets, PushEnd.push, Push.target] at hx
  | buffer =>
    rw [expected_buffer _ _ _ _ hr] at he
    obtain ⟨m, rfl⟩ := plain_buffer he
    cases hi : (pullEnds w.idOf hs.zipIdx fun h => h.to = r).head?.map Prod.fst with
    | none => rw [hi] at hn; cases p <;> simp [Comp.node] at hn
    | some i =>
      cases ho : (pushEnds w.idOf hs.zipIdx fun h => h.from = r).head? with
      | none => rw [ho, hi] at hn; cases p <;> simp [Comp.node] at hn
      | some o =>
        rw [ho, hi] at hn
        cases p <;> simp [Comp.node] at hn <;> subst hn <;> simp [Node.targets, PushEnd.push, Push.target] at hx
  | junction =>
    rw [expected_junction _ _ _ _ hr] at he
    rw [plain_junction he] at hn
    cases p <;> simp [Comp.node] at hn
    subst hn
    simp [Node.targets, PushEnd.push, Push.target] at hx
  | launch =>
    rw [expected_launch _ _ _ _ hr] at he
    rw [plain_launch he] at hn
    cases p with
    | input => exact Or.inr ⟨rfl, rfl⟩
    | output =>
      obtain ⟨h1, rfl⟩ := relayNode_some (by simpa only [Comp.node] using hn)
      cases ho : (pushEnds w.idOf hs.zipIdx fun h => h.src = ⟨.launch, r.2, .out⟩).head? with
      | none => simp [LaunchEnds.pipe, fromStream, ho] at h1
      | some o => simp [Node.targets, LaunchEnds.pipe, fromStream, ho, PushEnd.push, Push.target] at hx
    | error =>
      obtain ⟨h1, rfl⟩ := relayNode_some (by simpa only [Comp.node] using hn)
      cases ho : (pushEnds w.idOf hs.zipIdx fun h => h.src = ⟨.launch, r.2, .err⟩).head? with
      | none => simp [LaunchEnds.pipe, fromStream, ho] at h1
      | some o => simp [Node.targets, LaunchEnds.pipe, fromStream, ho, PushEnd.push, Push.target] at hx
    | main => simp [Comp.node] at hn
    | exit => simp [Comp.node] at hn
    | count => simp [Comp.node] at hn

/-- No program has closed its input while there was something for it. -/
def Heeded (τ : List (Who × Ev)) : Prop := ∀ x h d why, Act.offer (.handle h) d (.closed why) ∉ acts (proj (.part (.launch, x) .input) τ)

/-- **C75** If the run is a success and no program has closed its input early, no file, stream or notification has failed, and all files could be opened. -/
theorem C75_calm (hc : c.connection = hopSets R) (hw : getWaiter c = .ok w) (hp : w.regulatorSettings order = .ok (cs, w')) (hC : Complete (R.map (·.2)))
    (hr : w'.RunWith cs bad cap τ) (ho : w'.Returns cs bad τ out) {n : Nat} (hout : out = some (.ok n)) (hh : Heeded τ) :
    w'.Run cs cap τ ∧ w'.Over cs τ ∧ ∀ i, ∀ f ∈ acts (proj i τ), f.trouble = false := by
  have A := assembled hc hw hp
  have hb := (C75_outcome hc hw hp hC hr ho).1.mp ⟨n, hout⟩
  have ho1 : ∀ r, Mentioned (R.map (·.2)) r → ¬ (c.Opens r ∧ bad r = true) := fun r hm h => hb r hm (Or.inl h)
  have hr' := A.run_of hC ho1 hr
  obtain ⟨E, U⟩ := A.run hC hr'
  have W := A.wired hC
  refine ⟨hr', A.over_of hC ho1 ho.1, ?_⟩
  intro i f hm
  cases htr : f.trouble with
  | false => rfl
  | true =>
    exfalso
    have hall := fatal_of_trouble htr
    obtain ⟨e, he, hfe⟩ := List.mem_map.mp hm
    cases hs : w'.sys cs i with
    | none => exact hr'.known _ (mem_proj.mp he) hs
    | some t =>
      cases hn : w'.node i with
      | some nd =>
        obtain ⟨r, p, k, rfl, hme, _⟩ := A.node_inv hn
        have nf : ¬ Failed (StopsAt (R.map (·.2)) (.part r p)) (proj (.part r p) τ) := fun h => hb r hme (Or.inr ⟨p, h⟩)
        apply nf
        refine ⟨f, hm, ?_⟩
        cases f with
        | offer t d o =>
          cases t with
          | chan ch => simp [Act.trouble] at htr
          | handle x =>
            cases o with
            | ok => simp [Act.trouble] at htr
            | other z => trivial
            | closed why =>
              have hto : .handle x ∈ nd.targets := (Network.conduct W E (i := .part r p) hn).to ⟨.handle x, d, .closed why⟩ (mem_offers.mpr hm)
              rcases A.handles hn hto with h | ⟨h1, rfl⟩
              · exact h
              · obtain ⟨ty, x'⟩ := r
                cases h1
                exact absurd hm (hh x' x d why)
        | _ => simpa [Act.fatal] using hall
      | none =>
        rcases A.others hC hs hn with ⟨r', pe, ch, g, rfl, _, rfl, rfl, hg, hx, hfr⟩ | ⟨r', m, rfl, _, _, rfl, _⟩ | ⟨r', a, rfl, _, _, rfl⟩
        · have := Task.only (t := exitTask pe) (fun _ => exitBody_only pe) (by simp [exitTask]) (hr'.exec.tasks _ _ hs) e he
          rw [← hfe] at htr
          obtain ⟨q, a⟩ := e
          rcases this with h | h | ⟨_, h⟩ | h <;> cases h <;> simp [act, Act.trouble] at htr
        · exact count_harmless (hr'.exec.tasks _ _ hs) ⟨_, hm, hall⟩
        · exact manager_harmless (hr'.exec.tasks _ _ hs) ⟨_, hm, hall⟩

/-- **C75** If the run of what was made of a configuration is a success and no program has closed its input early, each hop of the configuration has delivered everything. -/
theorem C75_delivered {c c' : Config} {perm : List OutRef → List OutRef} {perm' : List InRef → List InRef} {spyOrder : List Str → List Str} {printed : List Str} (hS : c.Sound hs)
    (hp : ∀ l, (perm l).Perm l) (hp' : ∀ l, (perm' l).Perm l) (ho : ∀ l, (spyOrder l).Perm l) (hm : manipulate perm perm' spyOrder c = some (c', printed))
    (hw : getWaiter c' = .ok w) (hq : w.regulatorSettings order = .ok (cs, w')) (hr : w'.RunWith cs bad cap τ) (hret : w'.Returns cs bad τ out) {n : Nat} (hout : out = some (.ok n))
    (hh : Heeded τ) : c.Delivers τ := by
  obtain ⟨M, R, R', S, E, T, drain', printed', h1, P, h3⟩ := hS.laid hp hp' ho
  have h1' := h1
  rw [hm] at h1'
  cases h1'
  obtain ⟨q1, q2, q3⟩ := C75_calm rfl hw hq (P.complete hS.hops hS.complete) hr hret hout hh
  exact C71_delivers hS hp hp' ho hm hw hq q1 q2 q3

/-! ## A run that is over has an outcome -/

theorem node_result {n : Node} {tr : List Ev} (h : n.task.Done tr) : ∃ r, n.Gives tr r := by
  cases n with
  | relay => obtain ⟨r, t1, h1, h2⟩ := h; exact ⟨r, t1, h1, h2⟩
  | regulator => obtain ⟨r, t1, h1, h2⟩ := h; exact ⟨r, t1, h1, h2⟩
  | junction => obtain ⟨r, t1, h1, h2⟩ := h; exact ⟨r, t1, h1, h2⟩

/-- **C75** When everything has ended, and no count has met something impossible (C70), `start` returns something. -/
theorem C75_returns (ho : w.OverWith cs bad τ) (hn : (cs.map (·.regulator)).Nodup)
    (hcount : ∀ r m x, (∃ a b, w.comps.get r = some (.buffer (some a) (some b) m)) → (totalTask (if m = true then some (w.idOf r) else none) (2 * w.idOf r) (2 * w.idOf r + 1)).Gives (proj (.part r .count) τ) x → x ≠ .wrongMessage ∧ x ≠ .underflow) :
    ∃ out, w.Returns cs bad τ (some out) := by
  have part : ∀ r k p, w.comps.get r = some k → w.unopened bad (.part r .main) = none → ∃ x, partGives (k.node (w.idOf r) w.chans p) (proj (.part r p) τ) x := by
    intro r k p hk hu
    cases hnd : k.node (w.idOf r) w.chans p with
    | none => exact ⟨.ok 1, rfl⟩
    | some n => exact node_result (ho (.part r p) n.task (by simp [Waiter.sysWith, unopened_piece hu, Waiter.sys, hk, hnd]))
  have all : ∀ r k, w.comps.get r = some k → ∃ x, w.Gives bad τ r x := by
    intro r k hk
    cases hu : w.unopened bad (.part r .main) with
    | some t =>
      have : ∃ e, k.unopenedError = some e := by
        simp only [Waiter.unopened, hk] at hu
        split at hu
        · cases k with
          | faucet f o => cases o with
            | none => cases hu
            | some o => exact ⟨_, rfl⟩
          | drain d i => cases i with
            | none => cases hu
            | some i => exact ⟨_, rfl⟩
          | _ => cases hu
        · cases hu
      obtain ⟨e, he⟩ := this
      exact ⟨.error e, k, hk, by simp only [hu, Option.isSome_some, if_true]; exact ⟨e, he, rfl⟩⟩
    | none =>
      suffices ∃ x, k.Gives (w.idOf r) w.chans (fun p => proj (.part r p) τ) x by
        obtain ⟨x, hx⟩ := this
        exact ⟨x, k, hk, by rw [hu, if_neg (by simp)]; exact hx⟩
      have part := fun p => part r k p hk hu
      cases k with
      | faucet f o => cases o with
        | none => exact ⟨_, rfl⟩
        | some o => exact part .main
      | drain d o => cases o with
        | none => exact ⟨_, rfl⟩
        | some o => exact part .main
      | junction a b => exact part .main
      | regulator i o m => cases i with
        | none => exact ⟨_, rfl⟩
        | some i => cases o with
          | none => exact ⟨_, rfl⟩
          | some o => exact part .main
      | buffer i o m => cases i with
        | none => exact ⟨_, rfl⟩
        | some i => cases o with
          | none => exact ⟨_, rfl⟩
          | some o =>
            obtain ⟨a, ha⟩ := part .input
            obtain ⟨b, hb⟩ := part .output
            obtain ⟨x, t1, h1, h2⟩ := ho (.part r .count) (totalTask (if m = true then some (w.idOf r) else none) (2 * w.idOf r) (2 * w.idOf r + 1))
              (by simp [Waiter.sysWith, unopened_piece hu, Waiter.sys, hk, Comp.node, Comp.other])
            obtain ⟨h3, h4⟩ := hcount r m x ⟨i, o, hk⟩ ⟨t1, h1, h2⟩
            exact ⟨bufferResult a b, a, b, x, ha, hb, ⟨t1, h1, h2⟩, h3, h4, rfl⟩
      | launch a b d e f g h i j =>
        obtain ⟨x, hx⟩ := part .input
        obtain ⟨y, hy⟩ := part .output
        obtain ⟨z, hz⟩ := part .error
        cases j with
        | none => exact ⟨_, x, y, z, hx, hy, hz, rfl⟩
        | some p =>
          obtain ⟨u, t1, h1, h2⟩ := ho (.part r .exit) (exitTask p) (by simp [Waiter.sysWith, unopened_piece hu, Waiter.sys, hk, Comp.node, Comp.other])
          exact ⟨_, x, y, z, hx, hy, hz, u, ⟨t1, h1, h2⟩, rfl⟩
  have man : ∀ c ∈ cs, ∃ n, (managerTask c.low c.high (w.idOf (.regulator, c.regulator)) (c.buffers.map fun b => w.idOf (.buffer, b))).Gives (proj (.manager c.regulator) τ) n := by
    intro a ha
    have hf : cs.find? (fun c => c.regulator = a.regulator) = some a := by
      clear part all hcount ho
      induction cs with
      | nil => cases ha
      | cons b cs ih =>
        rw [List.map_cons, List.nodup_cons] at hn
        rw [List.find?_cons]
        rcases List.mem_cons.mp ha with rfl | ha'
        · simp
        · have : b.regulator ≠ a.regulator := fun h => hn.1 (h ▸ List.mem_map.mpr ⟨a, ha', rfl⟩)
          simp only [this, decide_false]
          exact ih hn.2 ha'
    obtain ⟨n, t1, h1, h2⟩ := ho (.manager a.regulator) _ (by simp only [Waiter.sysWith, Waiter.unopened, Waiter.sys, hf]; rfl)
    exact ⟨n, t1, h1, h2⟩
  let res : CompRef → Except MErr Nat := fun r => open Classical in if h : ∃ x, w.Gives bad τ r x then h.choose else .ok 0
  let managed : Capture → Nat := fun c => open Classical in if h : c ∈ cs then (man c h).choose else 0
  let rep : ComponentType → List (Except WaiterErr Nat) := fun ty => (w.refs ty).map fun r => reportOf r 0 (res r)
  let Rs : Results := ⟨rep .launch, rep .faucet, rep .regulator, cs.map fun c => .ok (managed c), rep .drain, rep .buffer, rep .junction⟩
  obtain ⟨out, hout⟩ := C45_exists 0 Rs
  refine ⟨out, ho, fun _ => 0, res, managed, Rs, 0, ⟨?_, ?_, .refl _, .refl _, .refl _, .refl _, .refl _, .refl _, .refl _⟩, hout⟩
  · intro r k hk
    have h := all r k hk
    simp only [res, dif_pos h]
    exact h.choose_spec
  · intro a ha
    have e : managed a = (man a ha).choose := dif_pos ha
    rw [e]
    exact (man a ha).choose_spec

end

/-! ## What the exit code says -/

section
variable {lib : Library} {o : Orders} {start : Waiter → Started} {m : Matches} {c : Config} {hs : List Hop} {f : Str} {fmt : Format}

/-- **C75** If the program ends with code 0 after running a configuration, nothing broke; and if no program has closed its input early, everything was delivered. -/
theorem C75_zero {wd : World} (ho : o.Complete) (ha : Asks m (.process f fmt)) (hf : Finds lib wd fmt f c) (hS : c.Sound hs) (hst : ∀ v : Waiter, v.Starts (start v)) {printed}
    (h : (pa2 lib o start wd m).Succeeds printed) :
    ∃ (c' : Config) (R : Map Hop) (v : Waiter) (order : List (Str × Watch)) (cs : List Capture) (v' : Waiter) (bad : CompRef → Bool) (cap : Caps) (τ : List (Who × Ev)), Verif.manipulate o.outs o.ins o.launches c = some (c', c.drain.keys) ∧ c'.connection = hopSets R ∧ getWaiter c' = .ok v ∧
      v.regulatorSettings order = .ok (cs, v') ∧ v'.RunWith cs bad cap τ ∧ v'.OverWith cs bad τ ∧
      (∀ r, Mentioned (R.map (·.2)) r → ¬ c'.Breaks (R.map (·.2)) bad τ r) ∧ (Heeded τ → c.Delivers τ) := by
  rcases C74_process (start := start) ho ha hf with ⟨_, h1⟩ | ⟨_, c', h1, ⟨_, msg, h2, _⟩ | ⟨_, ⟨e, _, h2⟩ | ⟨v, hv, ⟨⟨n, h2⟩, _⟩ | ⟨es, _, h2⟩ | ⟨_, h2⟩ | ⟨_, h2⟩⟩⟩⟩
  · rw [Ending.Succeeds, h1] at h; cases h
  · rw [Ending.Succeeds, h2] at h; simp at h
  · rw [Ending.Succeeds, h2] at h; simp at h
  · obtain ⟨M, R, R', S, E, T, drain', printed', q1, P, _⟩ := hS.laid ho.outs ho.ins ho.launches
    have q1' := q1
    rw [h1] at q1'
    cases q1'
    have hC := P.complete hS.hops hS.complete
    have hs' := hst v
    rw [h2] at hs'
    obtain ⟨order, _, hs'⟩ := hs'
    cases hq : v.regulatorSettings order with
    | missingRegulator x => rw [hq] at hs'; cases hs'
    | missingBuffer x y => rw [hq] at hs'; cases hs'
    | panic => rw [hq] at hs'; cases hs'
    | ok x =>
      obtain ⟨cs, v'⟩ := x
      rw [hq] at hs'
      obtain ⟨bad, cap, τ, hr, hret⟩ := hs'
      exact ⟨_, R', v, order, cs, v', bad, cap, τ, h1, rfl, hv, hq, hr, hret.1, (C75_outcome rfl hv hq hC hr hret).1.mp ⟨n, rfl⟩,
        C75_delivered hS ho.outs ho.ins ho.launches h1 hv hq hr hret rfl⟩
  · rw [Ending.Succeeds, h2] at h; simp at h
  · rw [Ending.Succeeds, h2] at h; cases h
  · rw [Ending.Succeeds, h2] at h; cases h

end
end Verif
