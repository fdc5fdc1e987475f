import Verif.Spec.Causes
import Verif.Lemmas.Causes
import Verif.Lemmas.KeptOnce
import Verif.Props.LaunchApart
import Verif.Props.Report
import Verif.Props.ExitCode
/-!
# Property C94: an error that is reported has happened
-/
namespace Verif

section
variable {Q : Nat → Nat → Nat → Prop}

theorem cause_says {pulls : List Pull} {pushs : List Push} {e : MErr} {a : Act} (hr : ∀ j h, .stream j h ∈ pulls → ∃ i, Q i j.src j.dst)
    (hw : ∀ j h, .io j h ∈ pushs → ∃ i, Q i j.src j.dst) (hs : ∀ j c, .sender j c ∈ pushs → Q c j.src j.dst) (h : MErr.Cause pulls pushs e a) :
    ∃ i s d, Q i s d ∧ e.carried = (some s, some d) ∧ e.Says i a := by
  cases e with
  | readIO j x => obtain ⟨s, h1, rfl⟩ := h; obtain ⟨i, hi⟩ := hr _ _ h1; exact ⟨i, _, _, hi, rfl, _, rfl⟩
  | closeIO j => obtain ⟨s, h1, rfl⟩ := h; obtain ⟨i, hi⟩ := hw _ _ h1; exact ⟨i, _, _, hi, rfl, _, rfl⟩
  | writeIO j x d => obtain ⟨s, h1, rfl⟩ := h; obtain ⟨i, hi⟩ := hw _ _ h1; exact ⟨i, _, _, hi, rfl, _, rfl⟩
  | outputClosed j y d =>
    cases y with
    | brokenPipe => obtain ⟨s, h1, rfl⟩ := h; obtain ⟨i, hi⟩ := hw _ _ h1; exact ⟨i, _, _, hi, rfl, _, rfl⟩
    | channelClosed => obtain ⟨c, h1, rfl⟩ := h; exact ⟨c, _, _, hs _ _ h1, rfl, rfl⟩
  | _ => cases h

theorem dropEvs_closes {l : List (Kind × Nat)} : ∀ x ∈ dropEvs l, ∃ κ c, act x = .close κ c := by
  intro x hx
  obtain ⟨y, _, rfl⟩ := List.mem_map.mp hx
  exact ⟨_, _, rfl⟩

/-- This happened, then came only closing. -/
def EndsWith (Q : Nat → Nat → Nat → Prop) (tr : List Ev) (e : MErr) : Prop :=
  ∃ t ev rest i s d, tr = t ++ ev :: rest ∧ (∀ x ∈ rest, ∃ κ c, act x = .close κ c) ∧ Q i s d ∧ e.carried = (some s, some d) ∧ e.Says i (act ev)

theorem relay_ends_with {pull : Pull} {push : Push} {tr e} (hr : ∀ j h, .stream j h = pull → ∃ i, Q i j.src j.dst)
    (hw : ∀ j h, .io j h = push → ∃ i, Q i j.src j.dst) (hs : ∀ j c, .sender j c = push → Q c j.src j.dst)
    (h : (relayTask pull {} none push).Gives tr (.error e)) : EndsWith Q tr e := by
  obtain ⟨t1, h1, rfl⟩ := h
  obtain ⟨t, ev, rfl, h⟩ := relay_tells h1
  obtain ⟨i, s, d, hQ, h2, h3⟩ := cause_says (Q := Q) (by simpa using hr) (by simpa using hw) (by simpa using hs) h
  exact ⟨t, ev, dropEvs (relayTask pull {} none push).drops, i, s, d, by simp, dropEvs_closes, hQ, h2, h3⟩

theorem regulator_ends_with {pull : Pull} {push : Push} {ctl : Option Nat} {tr e} (hr : ∀ j h, .stream j h = pull → ∃ i, Q i j.src j.dst)
    (hw : ∀ j h, .io j h = push → ∃ i, Q i j.src j.dst) (hs : ∀ j c, .sender j c = push → Q c j.src j.dst)
    (h : (regulatorTask pull push none ctl).Gives tr (.error e)) : EndsWith Q tr e := by
  obtain ⟨t1, h1, rfl⟩ := h
  obtain ⟨t, ev, rfl, h⟩ := regulator_tells h1
  obtain ⟨i, s, d, hQ, h2, h3⟩ := cause_says (Q := Q) (by simpa using hr) (by simpa using hw) (by simpa using hs) h
  exact ⟨t, ev, dropEvs (regulatorTask pull push none ctl).drops, i, s, d, by simp, dropEvs_closes, hQ, h2, h3⟩

theorem relayNode_ends_with {pp : Pull × Push} {tr e} (hr : ∀ j h, .stream j h = pp.1 → ∃ i, Q i j.src j.dst)
    (hw : ∀ j h, .io j h = pp.2 → ∃ i, Q i j.src j.dst) (hs : ∀ j c, .sender j c = pp.2 → Q c j.src j.dst)
    (h : partGives (relayNode pp) tr (.error e)) : EndsWith Q tr e := by
  obtain ⟨pull, push⟩ := pp
  cases pull with
  | none => cases h
  | receiver j c => exact relay_ends_with hr hw hs h
  | stream j c => exact relay_ends_with hr hw hs h

theorem comp_ends_with {id n : Nat} {k : Comp} {tr : Piece → List Ev} {e : MErr} (hk : k.Own) (hb : k.isBuffer = false) (hu : k.isUnfed = false)
    (hout : ∀ p ∈ k.outputs, Q p.chan p.src p.dst) (hin : ∀ p ∈ k.inputs, Q p.1.chan p.1.src p.1.dst) (h : k.Gives id n tr (.error e)) : ∃ p, EndsWith Q (tr p) e := by
  cases k with
  | faucet f out =>
    cases out with
    | none => cases h
    | some o =>
      have ho := hout o (by simp [Comp.outputs])
      refine ⟨.main, regulator_ends_with ?_ ?_ ?_ h⟩
      · intro j s hj; cases hj; exact ⟨_, ho⟩
      · intro j s hj; cases hj
      · intro j c hj; cases hj; exact ho
  | drain dest inp =>
    cases inp with
    | none => cases hu
    | some i =>
      have hi := hin (i, 0) (by simp [Comp.inputs])
      refine ⟨.main, relay_ends_with ?_ ?_ ?_ h⟩
      · intro j s hj; cases hj
      · intro j s hj
        unfold drainPush at hj
        split at hj <;> cases hj
        exact ⟨_, hi⟩
      · intro j s hj
        unfold drainPush at hj
        split at hj <;> cases hj
  | regulator inp out ctl =>
    cases inp with
    | none => cases h
    | some i =>
      cases out with
      | none => cases h
      | some o =>
        have ho := hout o (by simp [Comp.outputs])
        refine ⟨.main, regulator_ends_with ?_ ?_ ?_ h⟩
        · intro j s hj; cases hj
        · intro j s hj; cases hj
        · intro j c hj; cases hj; exact ho
  | buffer => cases hb
  | junction ins outs =>
    obtain ⟨t1, h1, h2⟩ := h
    have h1 : LoopRuns (junctionBody (outs.map PushEnd.push) none) (junctionInit (ins.map fun x => (x.1.pull, x.2))) t1 (.error e) := h1
    have hpull : ∀ p ∈ (initializeStdin (ins.map fun x => (x.1.pull, x.2))).flatten, p ∈ ins.map (fun x => x.1.pull) ∧ ∃ j c, p = .receiver j c := by
      intro p hp
      have hp := mem_init.mp hp
      rw [List.map_map] at hp
      refine ⟨hp, ?_⟩
      obtain ⟨x, _, rfl⟩ := List.mem_map.mp hp
      exact ⟨_, _, rfl⟩
    obtain ⟨t, ev, rest, rfl, hc, h⟩ := junction_tells (pulls := ins.map fun x => x.1.pull) (pushs := outs.map PushEnd.push) hpull (fun _ h => h) h1
    have h5 : ∃ i s d, Q i s d ∧ e.carried = (some s, some d) ∧ e.Says i (act ev) := by
      refine cause_says (Q := Q) ?_ ?_ ?_ h
      · intro j s hj
        obtain ⟨x, _, hx⟩ := List.mem_map.mp hj
        cases hx
      · intro j s hj
        obtain ⟨x, _, hx⟩ := List.mem_map.mp hj
        cases hx
      · intro j c hj
        obtain ⟨x, hm, hx⟩ := List.mem_map.mp hj
        cases hx
        exact hout x hm
    obtain ⟨i, s, d, hQ, h3, h4⟩ := h5
    refine ⟨.main, t, ev, rest ++ dropEvs (junctionTask (ins.map fun x => (x.1.pull, x.2)) (outs.map PushEnd.push) none).drops, i, s, d, by rw [h2]; simp,
      fun x hx => ?_, hQ, h3, h4⟩
    rcases List.mem_append.mp hx with hx | hx
    · obtain ⟨c, hx⟩ := hc x hx; exact ⟨_, c, hx⟩
    · exact dropEvs_closes x hx
  | launch self env path cmd arg inp out err exit =>
    obtain ⟨ho1, ho2, ho3⟩ := hk
    obtain ⟨a, b, x, ha, hb', hx, h⟩ := h
    have hI : ∀ e, a = .error e → EndsWith Q (tr .input) e := by
      rintro e rfl
      refine relayNode_ends_with (pp := LaunchEnds.pipe ⟨self, inp, out, err, exit⟩ (childOf id) .input) ?_ ?_ ?_ ha
      all_goals cases inp with
        | none => intro j s hj; cases hj
        | some p =>
          have hp := hin (p, 0) (by simp [Comp.inputs])
          intro j s hj
          cases hj
          try exact ⟨_, by rw [← ho1 p rfl]; exact hp⟩
    have hO : ∀ e, b = .error e → EndsWith Q (tr .output) e := by
      rintro e rfl
      refine relayNode_ends_with (pp := LaunchEnds.pipe ⟨self, inp, out, err, exit⟩ (childOf id) .output) ?_ ?_ ?_ hb'
      all_goals cases out with
        | none => intro j s hj; cases hj
        | some p =>
          have hp := hout p (by simp [Comp.outputs])
          intro j s hj
          cases hj
          first | exact hp | exact ⟨_, by rw [← ho2 p rfl]; exact hp⟩ | skip
    have hE : ∀ e, x = .error e → EndsWith Q (tr .error) e := by
      rintro e rfl
      refine relayNode_ends_with (pp := LaunchEnds.pipe ⟨self, inp, out, err, exit⟩ (childOf id) .error) ?_ ?_ ?_ hx
      all_goals cases err with
        | none => intro j s hj; cases hj
        | some p =>
          have hp := hout p (by simp [Comp.outputs])
          intro j s hj
          cases hj
          first | exact hp | exact ⟨_, by rw [← ho3 p rfl]; exact hp⟩ | skip
    have hS : ∀ e, structureResult a b x = .error e → ∃ p, EndsWith Q (tr p) e := by
      intro e h
      unfold structureResult at h
      split at h <;> cases h
      · exact ⟨_, hI _ rfl⟩
      · exact ⟨_, hO _ rfl⟩
      · exact ⟨_, hE _ rfl⟩
    cases exit with
    | none => exact hS _ h.symm
    | some p =>
      obtain ⟨y, hy, h⟩ := h
      cases y with
      | ok u => exact hS _ h.symm
      | error e' =>
        cases h
        obtain ⟨t1, h1, h2⟩ := hy
        obtain ⟨k, s, m, rest, rfl, _, hs⟩ := exit_runs h1
        cases hs with
        | refused => exact ⟨.exit, inVain k ++ [⟨.status, s⟩], ⟨.send .data p.chan m, false⟩, [], p.chan, p.src, p.dst, by rw [h2]; simp [dropEvs, exitTask], by simp, hout p (by simp [Comp.outputs]), rfl, rfl⟩
        | unspied h => cases h

end

theorem plain_own {k k' : Comp} (h : k'.plain = k.plain) : (k'.Own ↔ k.Own) ∧ k'.isUnfed = k.isUnfed ∧ k'.isBuffer = k.isBuffer ∧ k'.outputs = k.outputs ∧ k'.inputs = k.inputs := by
  cases k <;> cases k' <;> simp [Comp.plain] at h <;> grind [Comp.Own, Comp.isUnfed, Comp.isBuffer, Comp.outputs, Comp.inputs]

section
variable {c : Config} {w w' : Waiter} {cs : List Capture} {cap : Caps} {bad : CompRef → Bool} {τ : List (Who × Ev)} {R : Map Hop} {order : List (Str × Watch)} {es : List WaiterErr}

/-- What is said of a hop in an error. -/
theorem report_hop (hc : c.connection = hopSets R) (hw : getWaiter c = .ok w) {h : Hop} (hh : h ∈ R.map (·.2)) {e : MErr}
    (hcar : e.carried = (some (w.idOf h.from), some (w.idOf h.to))) (r : CompRef) (t : Nat) :
    reportEnds w.names (.causedBy r e t) = (componentText h.from, if e.isReading then "Unknown Destination".toList else componentText h.to) := by
  have hwd := C42_components c R hc hw
  have hname : ∀ x, Mentioned (R.map (·.2)) x → w.names.get (w.idOf x) = some x := by
    intro x hx
    obtain ⟨i, hi⟩ := (hwd.ids x).mpr hx
    have : w.idOf x = i := by simp [Waiter.idOf, hi]
    rw [this]
    exact (hwd.names x i).mp hi
  have hn1 := hname h.from ⟨h, hh, Or.inl rfl⟩
  have hn2 := hname h.to ⟨h, hh, Or.inr rfl⟩
  have hsrc := C57_source w.names r e t
  rw [NamesSrc, hcar] at hsrc
  simp only [Option.bind_some, hn1, Option.getD_some] at hsrc
  refine Prod.ext hsrc ?_
  cases hrd : e.isReading with
  | true => simpa using reading_destination w.names r e t hrd
  | false =>
    have hdst := C57_destination_partial w.names r e t hrd (by rw [hcar]; simp [hn1])
    rw [NamesDst, hcar] at hdst
    simpa [hn2] using hdst

/-- The result of a component tells of something that happened to it. -/
theorem result_cause (hc : c.connection = hopSets R) (hw : getWaiter c = .ok w) (hp : w.regulatorSettings order = .ok (cs, w')) (hC : Complete (R.map (·.2)))
    {r : CompRef} {m : MErr} (hg : w'.Gives bad τ r (.error m)) (hb : r.1 ≠ .buffer) :
    ∃ i h, (R.map (·.2))[i]? = some h ∧ (h.from = r ∨ h.to = r) ∧ m.carried = (some (w.idOf h.from), some (w.idOf h.to)) ∧
      ((c.Opens r ∧ bad r = true ∧ ∃ j, m = .openIO j) ∨
       ∃ p t ev rest, proj (.part r p) τ = t ++ ev :: rest ∧ (∀ x ∈ rest, ∃ κ c, act x = .close κ c) ∧ m.Says i (act ev)) := by
  have A := assembled hc hw hp
  have S := regulatorSettings_same hp
  obtain ⟨k', hk', hg⟩ := hg
  have hs := S.comps r
  rw [hk'] at hs
  cases hk : w.comps.get r with
  | none => rw [hk] at hs; cases hs
  | some k =>
    rw [hk] at hs
    have hs : k'.plain = k.plain := by simpa using hs
    obtain ⟨e1, e2, e3, e4, e5⟩ := plain_own hs
    obtain ⟨h1, h2, h3, h4⟩ := comp_own c R hc hw hk
    obtain ⟨ho, hi⟩ := C42_channels c R hc hw hk
    let Q : Nat → Nat → Nat → Prop := fun i s d => ∃ h, (R.map (·.2))[i]? = some h ∧ (h.from = r ∨ h.to = r) ∧ w.idOf h.from = s ∧ w.idOf h.to = d
    have hout : ∀ p ∈ k'.outputs, Q p.chan p.src p.dst := by
      intro p hp
      rw [e4, ho.mem_iff] at hp
      obtain ⟨i, h, q1, q2, rfl⟩ := mem_pushEnds.mp hp
      exact ⟨h, q1, Or.inl (by simpa using q2), rfl, rfl⟩
    have hin : ∀ p ∈ k'.inputs, Q p.1.chan p.1.src p.1.dst := by
      intro p hp
      rw [e5, hi] at hp
      obtain ⟨i, h, q1, q2, rfl⟩ := mem_pullEnds.mp hp
      exact ⟨h, q1, Or.inr (by simpa using q2), rfl, rfl⟩
    split at hg
    · next hu =>
      obtain ⟨q1, q2⟩ := (A.opens hC hk').mp hu
      obtain ⟨e, q3, q4⟩ := hg
      cases q4
      have : ∃ i s d, Q i s d ∧ m = .openIO ⟨s, d⟩ := by
        cases k' with
        | faucet f out =>
          cases out with
          | none => cases q3
          | some o => cases q3; exact ⟨_, _, _, hout o (by simp [Comp.outputs]), rfl⟩
        | drain f inp =>
          cases inp with
          | none => cases q3
          | some o => cases q3; exact ⟨_, _, _, hin (o, 0) (by simp [Comp.inputs]), rfl⟩
        | _ => cases q3
      obtain ⟨i, s, d, ⟨h, g1, g2, rfl, rfl⟩, rfl⟩ := this
      exact ⟨i, h, g1, g2, rfl, Or.inl ⟨q1, q2, _, rfl⟩⟩
    · obtain ⟨p, t, ev, rest, i, s, d, g1, g2, ⟨h, g3, g4, rfl, rfl⟩, g5, g6⟩ := comp_ends_with (Q := Q) (e1.mpr h1)
        (by rw [e3]; cases hx : k.isBuffer with
          | false => rfl
          | true => exact absurd (h3.mp hx) hb) (by rw [e2]; exact h2) hout hin hg
      exact ⟨i, h, g3, g4, g5, Or.inr ⟨p, t, ev, rest, g1, g2, g6⟩⟩

/-- **C94** Whatever error a run reports, it is what happened: the buffers only tell that something went wrong, but any other component that is named
either could not open its file, or the last that happened to one of its activities, apart from closing its ends, is what the error says. Source and destination shown
are those of the hop concerned; with errors of reading the destination is not known. -/
theorem C94_cause (hc : c.connection = hopSets R) (hw : getWaiter c = .ok w) (hp : w.regulatorSettings order = .ok (cs, w')) (hC : Complete (R.map (·.2)))
    (ho : w'.Returns cs bad τ (some (.error es))) {r : CompRef} {m : MErr} {t : Nat} (he : .causedBy r m t ∈ es) :
    if r.1 = .buffer then m = .noneError else
    ∃ i h, (R.map (·.2))[i]? = some h ∧ (h.from = r ∨ h.to = r) ∧
      reportEnds w'.names (.causedBy r m t) = (componentText h.from, if m.isReading then "Unknown Destination".toList else componentText h.to) ∧
      ((c.Opens r ∧ bad r = true ∧ ∃ j, m = .openIO j) ∨
       ∃ p l e rest, proj (.part r p) τ = l ++ e :: rest ∧ (∀ x ∈ rest, ∃ κ c, act x = .close κ c) ∧ m.Says i (act e)) := by
  obtain ⟨_, time, res, managed, Rs, t0, hcol, hout⟩ := ho
  have hx := (mem_errorsOf _ _).mp ((C45_reported hout).2.mem_iff.mp he)
  have hg : w'.Gives bad τ r (.error m) := by
    rcases (hcol.mem _).mp hx with ⟨r', k, hk, h⟩ | ⟨_, _, h⟩
    · have := hcol.gives r' k hk
      cases hy : res r' with
      | ok n => rw [hy] at h; cases h
      | error m' => rw [hy] at h this; cases h; exact this
    · cases h
  split
  · next hb =>
    obtain ⟨k, hk, hg⟩ := hg
    have A := assembled hc hw hp
    have hm := A.mentioned hk
    obtain ⟨i, o, mk, hk'⟩ := A.bufferNodes hC hb hm
    rw [hk] at hk'; cases hk'
    have : w'.unopened bad (.part r .main) = none := by
      simp only [Waiter.unopened, hk]
      split <;> rfl
    rw [this] at hg
    obtain ⟨a, b, y, _, _, _, _, _, h⟩ := hg
    unfold bufferResult at h
    grind
  · next hb =>
    obtain ⟨i, h, g1, g2, g3, g4⟩ := result_cause hc hw hp hC hg hb
    refine ⟨i, h, g1, g2, ?_, g4⟩
    rw [(regulatorSettings_same hp).names]
    exact report_hop hc hw (List.mem_of_getElem? g1) g3 r t

/-! ## Once -/

/-- The components named by the errors among some results. -/
def namedIn (l : List (Except WaiterErr Nat)) : List CompRef := (errorsOf l).filterMap WaiterErr.component

theorem namedIn_append (a b : List (Except WaiterErr Nat)) : namedIn (a ++ b) = namedIn a ++ namedIn b := by
  unfold namedIn
  rw [← List.filterMap_append]
  congr 1
  induction a with
  | nil => rfl
  | cons x a ih => cases x <;> simp [errorsOf, ih]

theorem namedIn_perm {a b : List (Except WaiterErr Nat)} (h : a.Perm b) : (namedIn a).Perm (namedIn b) := by
  refine List.Perm.filterMap _ ?_
  induction h with
  | nil => exact .refl _
  | cons x _ ih => cases x <;> simp [errorsOf, ih]
  | swap x y l => cases x <;> cases y <;> simp [errorsOf, List.Perm.swap]
  | trans _ _ h1 h2 => exact h1.trans h2

theorem namedIn_report (time : CompRef → Nat) (res : CompRef → Except MErr Nat) : ∀ L : List CompRef, (namedIn (L.map fun r => reportOf r (time r) (res r))).Sublist L
  | [] => .slnil
  | r :: L => by
    have ih := namedIn_report time res L
    simp only [List.map_cons, namedIn, reportOf]
    cases res r with
    | ok n => exact ih.cons _
    | error e => exact ih.cons_cons _

theorem namedIn_fine {α : Type} (f : α → Nat) : ∀ L : List α, namedIn (L.map fun x => .ok (f x)) = []
  | [] => rfl
  | _ :: L => namedIn_fine f L

theorem class_once (hk : w'.Keyed) {time : CompRef → Nat} {res : CompRef → Except MErr Nat} {ty : ComponentType} {L : List (Except WaiterErr Nat)}
    (h : L.Perm ((w'.refs ty).map fun r => reportOf r (time r) (res r))) : (namedIn L).Nodup ∧ ∀ x ∈ namedIn L, x.1 = ty := by
  have h1 := namedIn_perm h
  have h2 := namedIn_report time res (w'.refs ty)
  refine ⟨h1.nodup_iff.mpr (h2.nodup (List.Nodup.sublist List.filter_sublist hk)), fun x hx => ?_⟩
  have := h2.subset (h1.mem_iff.mp hx)
  simpa using (List.mem_filter.mp this).2

/-- **C94** No component is named twice. -/
theorem C94_once (hw : getWaiter c = .ok w) (hp : w.regulatorSettings order = .ok (cs, w')) (ho : w'.Returns cs bad τ (some (.error es))) :
    (es.filterMap WaiterErr.component).Nodup := by
  have hk := regulatorSettings_keyed (getWaiter_keyed hw) hp
  obtain ⟨_, time, res, managed, Rs, t0, hcol, hout⟩ := ho
  refine ((C45_reported hout).2.filterMap _).nodup_iff.mpr ?_
  change (namedIn Rs.all).Nodup
  obtain ⟨a1, a2⟩ := class_once hk hcol.launches
  obtain ⟨b1, b2⟩ := class_once hk hcol.faucets
  obtain ⟨c1, c2⟩ := class_once hk hcol.regulators
  obtain ⟨d1, d2⟩ := class_once hk hcol.drains
  obtain ⟨e1, e2⟩ := class_once hk hcol.buffers
  obtain ⟨f1, f2⟩ := class_once hk hcol.junctions
  have g : namedIn Rs.managers = [] := by
    have := namedIn_perm hcol.managers
    rw [namedIn_fine] at this
    exact this.eq_nil
  simp only [Results.all, namedIn_append, g, List.append_nil, List.nodup_append, List.mem_append]
  grind

end
end Verif
