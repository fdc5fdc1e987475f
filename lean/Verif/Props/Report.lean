import Verif.Lemmas.Errors
import Verif.Props.Launch
import Verif.Props.Wiring
import Verif.Props.Outcome
/-!
# C57: what the texts of errors name; C61: what becomes of the errors of a buffer
-/
namespace Verif

/-! ## Specification -/

/-- The identities an error carries: of the source, and of the destination, of the pipe it is about. -/
def MErr.carried : MErr → Option Nat × Option Nat
  | .readIO j _ => (some j.src, some j.dst)
  | .closeIO j => (some j.src, some j.dst)
  | .openIO j => (some j.src, some j.dst)
  | .writeIO j _ _ => (some j.src, some j.dst)
  | .recv j => (some j.src, some j.dst)
  | .send j _ => (some j.src, some j.dst)
  | .outputClosed j _ _ => (some j.src, some j.dst)
  | .monitorRead s => (some s, none)
  | .monitorWrite j => (some j.src, some j.dst)
  | .spyWrite m => (some m.src, some m.dst)
  | .launchSpawn => (none, none)
  | .noneError => (none, none)
  | .panic => (none, none)

/-- The destination as it should be reported. -/
def NamesDst (names : Table Nat CompRef) (e : MErr) (s : Str) : Prop :=
  s = match e.carried.2.bind names.get with
    | some r => componentText r
    | none => "Unknown Destination".toList

/-- The source as it should be reported: the component that failed stands in for an unknown one. -/
def NamesSrc (names : Table Nat CompRef) (r : CompRef) (e : MErr) (s : Str) : Prop :=
  s = componentText ((e.carried.1.bind names.get).getD r)

/-- Reading and opening errors. -/
def MErr.isReading : MErr → Bool
  | .readIO _ _ => true
  | .openIO _ => true
  | _ => false

/-! ## Every error and table -/

/-- **C57** The source is the right one, whatever the error. -/
theorem C57_source (names : Table Nat CompRef) (r : CompRef) (e : MErr) (t : Nat) : NamesSrc names r e (reportEnds names (.causedBy r e t)).1 := by
  unfold NamesSrc reportEnds motionSrc motionDst
  cases e <;> simp [WaiterErr.cause, WaiterErr.component, MErr.journeySource, MErr.journey, MErr.carried] <;>
    (first
      | (split <;> simp_all)
      | skip)

/-- **C57, the part that holds** The destination is the right one where the source is known, except for errors of reading and opening. -/
theorem C57_destination_partial (names : Table Nat CompRef) (r : CompRef) (e : MErr) (t : Nat) (hr : e.isReading = false)
    (hs : e.carried.1.bind names.get ≠ none) : NamesDst names e (reportEnds names (.causedBy r e t)).2 := by
  unfold NamesDst reportEnds motionSrc motionDst
  cases e <;> simp [WaiterErr.cause, WaiterErr.component, MErr.journeySource, MErr.journey, MErr.carried] at hs ⊢ <;>
    first
    | (simp [MErr.isReading] at hr; done)
    | (split <;> simp_all)

/-- For those it is never named. -/
theorem reading_destination (names : Table Nat CompRef) (r : CompRef) (e : MErr) (t : Nat) (hr : e.isReading = true) :
    (reportEnds names (.causedBy r e t)).2 = "Unknown Destination".toList := by
  unfold reportEnds motionSrc motionDst
  cases e <;> simp [WaiterErr.cause, WaiterErr.component, MErr.journeySource, MErr.journey, MErr.isReading] at hr ⊢ <;>
    (split <;> simp_all)

/-- **C57 is false of the code**: an error of reading carries the destination, which is in the table, and is reported without. -/
theorem C57_refuted : ¬ ∀ (names : Table Nat CompRef) (r : CompRef) (e : MErr) (t : Nat), e.carried.1.bind names.get ≠ none →
    NamesDst names e (reportEnds names (.causedBy r e t)).2 := by
  intro h
  have := h [(0, (.faucet, ['f'])), (1, (.drain, ['d']))] (.faucet, ['f']) (.readIO ⟨0, 1⟩ 5) 0 (by decide)
  revert this
  unfold NamesDst
  decide

/-- The whole text. -/
theorem C57_text (disp : MErr → Str) (quote : Str → Str) (names : Table Nat CompRef) (r : CompRef) (e : MErr) (t : Nat) :
    errorText disp quote names (.causedBy r e t) =
      (reportEnds names (.causedBy r e t)).1 ++ [' ', '|', ' '] ++ (reportEnds names (.causedBy r e t)).2 ++ [' ', '-', ' '] ++ quote (disp e) := rfl

/-! ## Every runtime that can be built -/

/-- What the errors of a component are about: the pipes it has ends of. -/
theorem MErr.Of.carried {pulls : List PullJourney} {pushs : List Journey} {e : MErr} (h : MErr.Of pulls pushs e) :
    ∃ s d, (⟨s, d⟩ ∈ pulls ∨ ∃ j ∈ pushs, j.src = s ∧ j.dst = d) ∧ e.carried = (some s, some d) := by
  cases e with
  | readIO j _ => exact ⟨j.src, j.dst, Or.inl h, rfl⟩
  | openIO j => exact ⟨j.src, j.dst, Or.inl h, rfl⟩
  | monitorWrite _ => exact absurd h (by simp [MErr.Of])
  | monitorRead _ => exact absurd h (by simp [MErr.Of])
  | spyWrite m =>
    obtain ⟨j, hj, h1, h2⟩ := h
    exact ⟨m.src, m.dst, Or.inr ⟨j, hj, h1, h2⟩, rfl⟩
  | closeIO j => exact ⟨j.src, j.dst, Or.inr ⟨j, h, rfl, rfl⟩, rfl⟩
  | writeIO j _ _ => exact ⟨j.src, j.dst, Or.inr ⟨j, h, rfl, rfl⟩, rfl⟩
  | send j _ => exact ⟨j.src, j.dst, Or.inr ⟨j, h, rfl, rfl⟩, rfl⟩
  | outputClosed j _ _ => exact ⟨j.src, j.dst, Or.inr ⟨j, h, rfl, rfl⟩, rfl⟩
  | recv _ => exact absurd h (by simp [MErr.Of])
  | launchSpawn => exact absurd h (by simp [MErr.Of])
  | noneError => exact absurd h (by simp [MErr.Of])
  | panic => exact absurd h (by simp [MErr.Of])

/-- A component and a pipe it has an end of, by the identities at the ends. -/
def Comp.Touches (k : Comp) (s d : Nat) : Prop :=
  (∃ p ∈ k.outputs, p.src = s ∧ p.dst = d) ∨ ∃ p ∈ k.inputs, p.1.src = s ∧ p.1.dst = d

/-- The ends a launch has are its own. -/
def Comp.Own : Comp → Prop
  | .launch id _ _ _ _ inp out err _ => (∀ p ∈ inp, p.dst = id) ∧ (∀ p ∈ out, p.src = id) ∧ ∀ p ∈ err, p.src = id
  | _ => True

def Comp.isBuffer : Comp → Bool
  | .buffer .. => true
  | _ => false

def Comp.isUnfed : Comp → Bool
  | .drain _ none => true
  | _ => false

theorem PushEnd.push_journey (p : PushEnd) : p.push.journey = some ⟨p.src, some p.port, p.dst, p.breakable⟩ := rfl
theorem PullEnd.pull_journey (p : PullEnd) : p.pull.journey = some ⟨p.src, p.dst⟩ := rfl

theorem launch_errs {l : LaunchEnds} {ch spy tr e} (h : LaunchRuns l ch spy tr (.error e)) :
    MErr.Of (l.stdin.toList.map (fun p => ⟨p.src, p.dst⟩) ++ (l.stdout.toList ++ l.stderr.toList).map fun p => ⟨l.id, p.dst⟩)
      (l.stdin.toList.map (fun p => ⟨p.src, none, l.id, .finish⟩) ++ (l.stdout.toList ++ l.stderr.toList ++ l.exit.toList).map fun p => ⟨p.src, some p.port, p.dst, p.breakable⟩) e := by
  obtain ⟨τ, te, res, rfl, hr, hx⟩ := h
  generalize hP : (l.stdin.toList.map (fun p => (⟨p.src, p.dst⟩ : PullJourney)) ++ (l.stdout.toList ++ l.stderr.toList).map fun p => ⟨l.id, p.dst⟩) = P
  generalize hQ : (l.stdin.toList.map (fun p => (⟨p.src, none, l.id, .finish⟩ : Journey)) ++
    (l.stdout.toList ++ l.stderr.toList ++ l.exit.toList).map fun p => ⟨p.src, some p.port, p.dst, p.breakable⟩) = Q
  have key : ∀ i e, res i = .error e → MErr.Of P Q e := by
    intro i e he
    have := hr i
    rw [he] at this
    obtain ⟨t, h1, _⟩ := this
    refine relay_errs ?_ ?_ (by simp) h1
    · intro j hj
      subst hP
      cases i <;> simp only [LaunchEnds.pipe, LaunchEnds.toInput] at hj
      · cases hs : l.stdin with
        | none => rw [hs] at hj; cases hj
        | some p => rw [hs] at hj; cases hj; simp
      · cases hs : l.stdout with
        | none => rw [hs] at hj; cases hj
        | some p => rw [hs] at hj; cases hj; simp
      · cases hs : l.stderr with
        | none => rw [hs] at hj; cases hj
        | some p => rw [hs] at hj; cases hj; simp
    · intro j hj
      subst hQ
      cases i <;> simp only [LaunchEnds.pipe, LaunchEnds.toInput] at hj
      · cases hs : l.stdin with
        | none => rw [hs] at hj; cases hj
        | some p => rw [hs] at hj; cases hj; simp
      · cases hs : l.stdout with
        | none => rw [hs] at hj; cases hj
        | some p => rw [hs] at hj; cases hj; simp
      · cases hs : l.stderr with
        | none => rw [hs] at hj; cases hj
        | some p => rw [hs] at hj; cases hj; simp
  have key' : ∀ e, structureResult (res .input) (res .output) (res .error) = .error e → MErr.Of P Q e := by
    intro e he
    cases h1 : res .input with
    | error e1 =>
      rw [h1] at he
      cases h2 : res .output <;> cases h3 : res .error <;> rw [h2, h3] at he <;> simp [structureResult] at he <;> exact he ▸ key _ _ h1
    | ok n =>
      rw [h1] at he
      cases h2 : res .output with
      | error e2 => rw [h2] at he; cases h3 : res .error <;> rw [h3] at he <;> simp [structureResult] at he <;> exact he ▸ key _ _ h2
      | ok n2 =>
        rw [h2] at he
        cases h3 : res .error <;> rw [h3] at he <;> simp [structureResult] at he
        exact he ▸ key _ _ h3
  revert hx
  cases hs : l.exit with
  | none => rintro ⟨_, he⟩; exact key' e he.symm
  | some p =>
    rintro ⟨x, hl, he⟩
    cases x with
    | ok u => exact key' e he.symm
    | error e' =>
      simp only [withExit] at he
      injection he with he
      subst he
      have hm : (⟨p.src, some p.port, p.dst, p.breakable⟩ : Journey) ∈ Q := by rw [← hQ, hs]; simp
      obtain ⟨k, s, m, _, _, h | ⟨h, _⟩ | ⟨c, _, h, _, _⟩⟩ := exit_events hl
      · cases h.1
      · injection h with h; subst h; exact hm
      · injection h with h; subst h; exact ⟨_, hm, rfl, rfl⟩

/-- Every error a component can end with is about a pipe it has an end of; except that a buffer has only one error, and a drain without input ends with it too. -/
theorem comp_errs {k : Comp} {spy e} (hk : k.Own) (hf : k.isUnfed = false) (h : k.Ends spy (.error e)) :
    if k.isBuffer then e = .noneError else
      ∃ s d, k.Touches s d ∧ e.carried = (some s, some d) := by
  cases k with
  | buffer inp out mon =>
    simp only [Comp.isBuffer, if_true]
    cases inp with
    | none => simpa [Comp.Ends] using h
    | some i => cases out with
      | none => simpa [Comp.Ends] using h
      | some o =>
        obtain ⟨_, a, b, _, _, _, _, _, _, h⟩ := h
        cases a <;> cases b <;> simp [bufferResult] at h <;> exact h
  | faucet f out =>
    simp only [Comp.isBuffer, Bool.false_eq_true, if_false]
    cases out with
    | none => cases h
    | some p =>
      rcases h with ⟨_, h⟩ | ⟨hh, ctl, tr, h⟩
      · injection h with h; subst h
        exact ⟨p.src, p.dst, Or.inl ⟨p, by simp [Comp.outputs], rfl, rfl⟩, rfl⟩
      · have := regulator_errs (pulls := [⟨p.src, p.dst⟩]) (pushs := [⟨p.src, some p.port, p.dst, p.breakable⟩])
          (by intro j hj; cases hj; simp) (by intro j hj; cases hj; simp) h
        obtain ⟨s, d, h1, h2⟩ := this.carried
        refine ⟨s, d, Or.inl ⟨p, by simp [Comp.outputs], ?_⟩, h2⟩
        rcases h1 with h1 | ⟨j, hj, rfl, rfl⟩
        · simp at h1; exact ⟨h1.1.symm, h1.2.symm⟩
        · simp at hj; subst hj; exact ⟨rfl, rfl⟩
  | regulator inp out ctl =>
    simp only [Comp.isBuffer, Bool.false_eq_true, if_false]
    cases inp with
    | none => cases h
    | some i => cases out with
      | none => cases h
      | some o =>
        obtain ⟨ctl, tr, h⟩ := h
        have := regulator_errs (pulls := [⟨i.src, i.dst⟩]) (pushs := [⟨o.src, some o.port, o.dst, o.breakable⟩])
          (by intro j hj; cases hj; simp) (by intro j hj; cases hj; simp) h
        obtain ⟨s, d, h1, h2⟩ := this.carried
        refine ⟨s, d, ?_, h2⟩
        rcases h1 with h1 | ⟨j, hj, rfl, rfl⟩
        · simp at h1; exact Or.inr ⟨(i, 0), by simp [Comp.inputs], h1.1.symm, h1.2.symm⟩
        · simp at hj; subst hj; exact Or.inl ⟨o, by simp [Comp.outputs], rfl, rfl⟩
  | drain dest inp =>
    simp only [Comp.isBuffer, Bool.false_eq_true, if_false]
    cases inp with
    | none => cases hf
    | some i =>
      rcases h with ⟨_, _, _, h⟩ | ⟨hh, tr, h⟩
      · injection h with h; subst h
        exact ⟨i.src, i.dst, Or.inr ⟨(i, 0), by simp [Comp.inputs], rfl, rfl⟩, rfl⟩
      · have := relay_errs (pulls := [⟨i.src, i.dst⟩]) (pushs := [⟨i.src, none, i.dst, .terminate⟩])
          (by intro j hj; cases hj; simp) (by intro j hj; unfold drainPush at hj; split at hj <;> cases hj; simp) (by simp) h
        obtain ⟨s, d, h1, h2⟩ := this.carried
        refine ⟨s, d, Or.inr ⟨(i, 0), by simp [Comp.inputs], ?_⟩, h2⟩
        rcases h1 with h1 | ⟨j, hj, rfl, rfl⟩
        · simp at h1; exact ⟨h1.1.symm, h1.2.symm⟩
        · simp at hj; subst hj; exact ⟨rfl, rfl⟩
  | junction ins outs =>
    simp only [Comp.isBuffer, Bool.false_eq_true, if_false]
    obtain ⟨tr, h⟩ := h
    have := junction_errs (pulls := ins.map fun x => ⟨x.1.src, x.1.dst⟩) (pushs := outs.map fun p => ⟨p.src, some p.port, p.dst, p.breakable⟩)
      (by
        intro p hp
        have hp := mem_init.mp hp
        simp only [List.map_map, List.mem_map, Function.comp] at hp
        obtain ⟨x, hx, rfl⟩ := hp
        exact ⟨⟨x.1.src, x.1.dst⟩, x.1.chan, rfl, List.mem_map.mpr ⟨x, hx, rfl⟩⟩)
      (by
        intro p hp j hj
        obtain ⟨q, hq, rfl⟩ := List.mem_map.mp hp
        cases hj
        exact List.mem_map.mpr ⟨q, hq, rfl⟩) h
    obtain ⟨s, d, h1, h2⟩ := this.carried
    refine ⟨s, d, ?_, h2⟩
    rcases h1 with h1 | ⟨j, hj, rfl, rfl⟩
    · obtain ⟨x, hx, e⟩ := List.mem_map.mp h1
      injection e with e1 e2
      exact Or.inr ⟨x, hx, e1, e2⟩
    · obtain ⟨q, hq, rfl⟩ := List.mem_map.mp hj
      exact Or.inl ⟨q, hq, rfl, rfl⟩
  | launch id env path cmd arg inp out err exit =>
    simp only [Comp.isBuffer, Bool.false_eq_true, if_false]
    obtain ⟨ch, tr, h⟩ := h
    obtain ⟨s, d, h1, h2⟩ := (launch_errs h).carried
    refine ⟨s, d, ?_, h2⟩
    obtain ⟨ho1, ho2, ho3⟩ := hk
    simp only [List.mem_append, List.mem_map, Option.mem_toList, Option.mem_def] at h1 ho1 ho2 ho3
    have hin : ∀ p, inp = some p → (p, (0 : Int)) ∈ (Comp.launch id env path cmd arg inp out err exit).inputs := by
      rintro p rfl; simp [Comp.inputs]
    have hout : ∀ p, (out = some p ∨ err = some p) ∨ exit = some p → p ∈ (Comp.launch id env path cmd arg inp out err exit).outputs := by
      rintro p ((rfl | rfl) | rfl) <;> simp [Comp.outputs]
    rcases h1 with (⟨p, hp, e⟩ | ⟨p, hp, e⟩) | ⟨j, hj, rfl, rfl⟩
    · injection e with e1 e2
      exact Or.inr ⟨_, hin p hp, e1, e2⟩
    · injection e with e1 e2
      refine Or.inl ⟨p, hout p (Or.inl hp), ?_, e2⟩
      rcases hp with hp | hp
      · rw [ho2 p hp, e1]
      · rw [ho3 p hp, e1]
    · rcases hj with ⟨p, hp, rfl⟩ | ⟨p, hp, rfl⟩
      · exact Or.inr ⟨_, hin p hp, rfl, ho1 p hp⟩
      · exact Or.inl ⟨p, hout p hp, rfl, rfl⟩

theorem comp_own (c : Config) (R : Map Hop) (hc : c.connection = hopSets R) {w : Waiter} (hw : getWaiter c = .ok w) {r : CompRef} {k : Comp}
    (hk : w.comps.get r = some k) : k.Own ∧ k.isUnfed = false ∧ (k.isBuffer = true ↔ r.1 = .buffer) ∧ Mentioned (R.map (·.2)) r := by
  have hall := (C42_wired c R hc).mp ⟨w, hw⟩
  have hwd := C42_components c R hc hw
  have hm : Mentioned (R.map (·.2)) r := by
    apply Classical.byContradiction
    intro hn
    rw [hwd.only r hn] at hk; cases hk
  rw [hwd.comps r hm] at hk
  injection hk with hk
  subst hk
  have hin : ∀ p, (pullEnds w.idOf (R.map (·.2)).zipIdx fun h => h.to = r).head?.map Prod.fst = some p → p.dst = w.idOf r := by
    intro p hp
    obtain ⟨q, hq, rfl⟩ := Option.map_eq_some_iff.mp hp
    obtain ⟨x, hx, rfl⟩ := List.mem_map.mp (List.mem_of_mem_head? hq)
    have := (List.mem_filter.mp hx).2
    simp only [decide_eq_true_eq] at this
    simp [Hop.pullEnd, this]
  have hout : ∀ pt p, (pushEnds w.idOf (R.map (·.2)).zipIdx fun h => h.src = ⟨.launch, r.2, pt⟩).head? = some p → p.src = w.idOf (.launch, r.2) := by
    intro pt p hp
    obtain ⟨x, hx, rfl⟩ := List.mem_map.mp (List.mem_of_mem_head? hp)
    have := (List.mem_filter.mp hx).2
    simp only [decide_eq_true_eq] at this
    simp [Hop.pushEnd, Hop.from, this]
  refine ⟨?_, ?_, ?_, hm⟩
  · obtain ⟨ty, n⟩ := r
    cases ty <;> simp only [expected, Comp.Own]
    exact ⟨hin, fun p hp => hout _ p hp, fun p hp => hout _ p hp⟩
  · obtain ⟨ty, n⟩ := r
    cases ty <;> simp only [expected, Comp.isUnfed]
    obtain ⟨h, hh, hr⟩ := hm
    have hto : h.to = (.drain, n) := by
      rcases hr with hr | hr
      · obtain ⟨pre, post, e⟩ := List.append_of_mem hh
        have := (hall _ _ _ e).2.2.1
        have ht : h.src.ty = .drain := by simp only [Hop.from, Prod.mk.injEq] at hr; exact hr.1
        rw [CanSend, ht] at this
        exact this.elim
      · exact hr
    obtain ⟨i, hi, e⟩ := List.mem_iff_getElem.mp hh
    cases hp : (pullEnds w.idOf (R.map (·.2)).zipIdx fun h => h.to = (.drain, n)).head? with
    | some x => simp [hp]
    | none =>
      rw [List.head?_eq_none_iff] at hp
      have : (h.pullEnd w.idOf i, h.input.priority) ∈ pullEnds w.idOf (R.map (·.2)).zipIdx fun h => h.to = (.drain, n) := by
        refine List.mem_map.mpr ⟨(h, i), List.mem_filter.mpr ⟨?_, by simp [hto]⟩, rfl⟩
        rw [List.mem_iff_getElem?]
        exact ⟨i, by rw [List.getElem?_zipIdx, List.getElem?_eq_getElem hi, e]; simp⟩
      rw [hp] at this
      cases this
  · obtain ⟨ty, n⟩ := r
    cases ty <;> simp [expected, Comp.isBuffer]

/-- In every runtime that was built, whatever a component failed of is reported like this:
the errors of buffers name the buffer and no destination; any other names a pipe the component is at an end of. -/
theorem C57_runtime (c : Config) (R : Map Hop) (hc : c.connection = hopSets R) {w : Waiter} (hw : getWaiter c = .ok w) {r : CompRef} {k : Comp}
    (hk : w.comps.get r = some k) {spy : Option Nat} {e : MErr} (he : k.Ends spy (.error e)) (t : Nat) :
    if r.1 = .buffer then e = .noneError ∧ reportEnds w.names (.causedBy r e t) = (componentText r, "Unknown Destination".toList)
    else ∃ h ∈ R.map (·.2), (h.from = r ∨ h.to = r) ∧
      reportEnds w.names (.causedBy r e t) = (componentText h.from, if e.isReading then "Unknown Destination".toList else componentText h.to) := by
  have hwd := C42_components c R hc hw
  obtain ⟨h1, h2, h3, h4⟩ := comp_own c R hc hw hk
  have := comp_errs h1 h2 he
  split
  · next hb =>
    rw [if_pos (h3.mpr hb)] at this
    subst this
    exact ⟨rfl, rfl⟩
  · next hb =>
    rw [if_neg (fun hh => hb (h3.mp hh))] at this
    obtain ⟨s, d, hto, hcar⟩ := this
    obtain ⟨ho, hi⟩ := C42_channels c R hc hw hk
    have hop : ∃ h ∈ R.map (·.2), (h.from = r ∨ h.to = r) ∧ w.idOf h.from = s ∧ w.idOf h.to = d := by
      rcases hto with ⟨p, hp, rfl, rfl⟩ | ⟨p, hp, rfl, rfl⟩
      · obtain ⟨⟨h, i⟩, hx, rfl⟩ := List.mem_map.mp (ho.mem_iff.mp hp)
        obtain ⟨hx, hr⟩ := List.mem_filter.mp hx
        simp only [decide_eq_true_eq] at hr
        exact ⟨h, (List.mem_zipIdx' hx).2 ▸ List.getElem_mem _, Or.inl hr, rfl, rfl⟩
      · rw [hi] at hp
        obtain ⟨⟨h, i⟩, hx, rfl⟩ := List.mem_map.mp hp
        obtain ⟨hx, hr⟩ := List.mem_filter.mp hx
        simp only [decide_eq_true_eq] at hr
        exact ⟨h, (List.mem_zipIdx' hx).2 ▸ List.getElem_mem _, Or.inr hr, rfl, rfl⟩
    obtain ⟨h, hh, hr, rfl, rfl⟩ := hop
    have hname : ∀ x, Mentioned (R.map (·.2)) x → w.names.get (w.idOf x) = some x := by
      intro x hx
      obtain ⟨i, hi⟩ := (hwd.ids x).mpr hx
      have : w.idOf x = i := by simp [Waiter.idOf, hi]
      rw [this]
      exact (hwd.names x i).mp hi
    have hn1 := hname h.from ⟨h, hh, Or.inl rfl⟩
    have hn2 := hname h.to ⟨h, hh, Or.inr rfl⟩
    refine ⟨h, hh, hr, ?_⟩
    have hsrc := C57_source w.names r e t
    rw [NamesSrc, hcar] at hsrc
    simp only [Option.bind_some, hn1, Option.getD_some] at hsrc
    refine Prod.ext hsrc ?_
    cases hrd : e.isReading with
    | true => simpa using reading_destination w.names r e t hrd
    | false =>
      have hdst := C57_destination_partial w.names r e t hrd (by rw [hcar]; simp [hn1])
      rw [NamesDst, hcar] at hdst
      simpa [hn2] using hdst

/-! ## C61 -/

/-- **C61, the part that holds** In every runtime that was built, an error comes with a time, and with the two ends of the pipe, exactly if it is not a buffer's. -/
theorem C61_timed_partial (c : Config) (R : Map Hop) (hc : c.connection = hopSets R) {w : Waiter} (hw : getWaiter c = .ok w) {r : CompRef} {k : Comp}
    (hk : w.comps.get r = some k) {spy : Option Nat} {e : MErr} (he : k.Ends spy (.error e)) (t : Nat) :
    ((WaiterErr.causedBy r e t).instant = some t ↔ r.1 ≠ .buffer) ∧ ((∃ s d, e.carried = (some s, some d)) ↔ r.1 ≠ .buffer) ∧
    ((WaiterErr.causedBy r e t).instant = none ↔ r.1 = .buffer) := by
  obtain ⟨h1, h2, h3, h4⟩ := comp_own c R hc hw hk
  have := comp_errs h1 h2 he
  by_cases hb : r.1 = .buffer
  · rw [if_pos (h3.mpr hb)] at this
    subst this
    simp [hb, WaiterErr.instant, MErr.instant, MErr.carried]
  · rw [if_neg (fun hh => hb (h3.mp hh))] at this
    obtain ⟨s, d, _, hcar⟩ := this
    simp only [hb, hcar, ne_eq, not_false_eq_true, iff_true, iff_false]
    cases e <;> simp [MErr.carried] at hcar <;> simp [WaiterErr.instant, MErr.instant]

/-- A buffer's error does not tell what happened: all the failures of its relays come to the same. -/
theorem C61_lost (a b a' b' : Except MErr Nat) (h : (∃ e, a = .error e) ∨ ∃ e, b = .error e) (h' : (∃ e, a' = .error e) ∨ ∃ e, b' = .error e) :
    bufferResult a b = bufferResult a' b' := by
  rcases h with ⟨e, rfl⟩ | ⟨e, rfl⟩ <;> rcases h' with ⟨e', rfl⟩ | ⟨e', rfl⟩ <;> (try cases a) <;> (try cases b) <;> (try cases a') <;> (try cases b') <;> rfl

/-- With the times at which they came, the errors of a run of a built runtime are compared consistently if no buffer failed. -/
theorem C46_runtime_partial (c : Config) (R : Map Hop) (hc : c.connection = hopSets R) {w : Waiter} (hw : getWaiter c = .ok w) (start : Nat) (es : List WaiterErr)
    (hes : ∀ x ∈ es, ∃ r k spy e t, x = .causedBy r e t ∧ w.comps.get r = some k ∧ k.Ends spy (.error e)) (hb : ∀ r e t, .causedBy r e t ∈ es → r.1 ≠ .buffer) :
    Consistent (compareErrs start) es := by
  refine C46_timed_partial _ _ (Or.inl fun x hx => ?_)
  obtain ⟨r, k, spy, e, t, rfl, hk, he⟩ := hes x hx
  rw [((C61_timed_partial c R hc hw hk he t).1).mpr (hb r e t hx)]
  simp

/-! ### An instance: a file through a buffer to a place where no file can be made -/

/-- Every loop's result after a trace, for examples. -/
def loopResult (body : Nat → Prog (Nat ⊕ Except MErr Nat)) (tr : List Ev) : Option (Except MErr Nat) :=
  match (Task.mk Nat (Except MErr Nat) body 0 []).replay tr with
  | some (.inl (r, [])) => some r
  | _ => none

theorem loopResult_runs {body : Nat → Prog (Nat ⊕ Except MErr Nat)} {tr r} (h : loopResult body tr = some r) : LoopRuns body 0 tr r := by
  unfold loopResult at h
  split at h
  · rename_i r' hq
    injection h with h
    subst h
    obtain ⟨t1, h1, h2⟩ := Task.replayFrom_runs hq
    rw [List.append_nil] at h2
    exact h2 ▸ h1
  · cases h

def buffered : Map Hop :=
  [("a_1".toList, ⟨⟨.faucet, "tap".toList, .out⟩, none, ⟨.buffer, "b".toList⟩, ⟨.terminate, 0⟩, none⟩),
   ("a_2".toList, ⟨⟨.buffer, "b".toList, .out⟩, none, ⟨.drain, "tub".toList⟩, ⟨.terminate, 0⟩, none⟩)]

def bufferedConfig : Config where
  faucet := [("tap".toList, "in".toList)]
  drain := [("tub".toList, "no/such/place".toList)]
  regulator := []
  launch := []
  connection := hopSets buffered

def tapEnd : PushEnd := ⟨0, .out, 1, .terminate, 0, 8⟩
def bufferEnds : PullEnd × PushEnd := (⟨0, 1, 0⟩, ⟨1, .out, 2, .terminate, 1, 8⟩)
def tubEnd : PullEnd := ⟨1, 2, 1⟩

theorem buffered_comps : ∃ w, getWaiter bufferedConfig = .ok w ∧ w.comps.get (.faucet, "tap".toList) = some (.faucet "in".toList (some tapEnd)) ∧
    w.comps.get (.buffer, "b".toList) = some (.buffer (some bufferEnds.1) (some bufferEnds.2) false) ∧
    w.comps.get (.drain, "tub".toList) = some (.drain "no/such/place".toList (some tubEnd)) := by
  have h : ∃ w, (getWaiter bufferedConfig).ok? = some w ∧ w.comps.get (.faucet, "tap".toList) = some (.faucet "in".toList (some tapEnd)) ∧
    w.comps.get (.buffer, "b".toList) = some (.buffer (some bufferEnds.1) (some bufferEnds.2) false) ∧
    w.comps.get (.drain, "tub".toList) = some (.drain "no/such/place".toList (some tubEnd)) :=
    ⟨((getWaiter bufferedConfig).ok?).get (by decide +kernel), by decide +kernel, by decide +kernel, by decide +kernel, by decide +kernel⟩
  obtain ⟨w, h, hr⟩ := h
  refine ⟨w, ?_, hr⟩
  revert h
  cases getWaiter bufferedConfig <;> simp [Built.ok?]

/-- The drain cannot make its file. The buffer's second relay finds its output closed, then its first relay finds that one gone; then the faucet finds the buffer gone. -/
theorem buffered_ends : Comp.Ends none (.drain "no/such/place".toList (some tubEnd)) (.error (.openIO ⟨1, 2⟩)) ∧
    Comp.Ends none (.buffer (some bufferEnds.1) (some bufferEnds.2) false) (.error .noneError) ∧
    ∃ why, Comp.Ends none (.faucet "in".toList (some tapEnd)) (.error (.outputClosed ⟨0, some .out, 1, .terminate⟩ why [10])) := by
  refine ⟨Or.inl ⟨by decide, by decide, by decide, rfl⟩, ?_, ?_⟩
  · refine ⟨⟨0, 2, 3, 4, none, none⟩, .error (.outputClosed ⟨0, none, 0, .terminate⟩ .channelClosed [10]), .error (.outputClosed ⟨1, some .out, 2, .terminate⟩ .channelClosed [10]),
      [⟨.recv .data 0, some [10]⟩, ⟨.send .data 2 [10], true⟩, ⟨.send .mon 3 (.wrote 0), true⟩, ⟨.recv .data 0, some [10]⟩, ⟨.send .data 2 [10], false⟩],
      [⟨.recv .data 2, some [10]⟩, ⟨.send .mon 4 (.read 0), true⟩, ⟨.send .data 1 [10], false⟩], rfl, rfl, loopResult_runs ?_, loopResult_runs ?_, rfl⟩
    · decide +kernel
    · decide +kernel
  · refine ⟨.channelClosed, Or.inr ⟨7, none, [⟨.streamRead 7, .line [10]⟩, ⟨.send .data 0 [10], false⟩], loopResult_runs ?_⟩⟩
    decide +kernel

/-- **C61 is false of the code.** -/
theorem C61_refuted : ¬ ∀ (c : Config) (R : Map Hop), c.connection = hopSets R → ∀ w, getWaiter c = .ok w → ∀ r k, w.comps.get r = some k →
    ∀ spy e, k.Ends spy (.error e) → ∀ t, (WaiterErr.causedBy r e t).instant = some t := by
  intro h
  obtain ⟨w, hw, _, hb, _⟩ := buffered_comps
  have := h bufferedConfig buffered rfl w hw _ _ hb none _ buffered_ends.2.1 5
  cases this

/-- C46 is false also of the errors of runs. -/
theorem C46_reached_refuted : ∃ w, getWaiter bufferedConfig = .ok w ∧ ∃ es : List WaiterErr,
    (∀ x ∈ es, ∃ r k e t, x = .causedBy r e t ∧ w.comps.get r = some k ∧ k.Ends none (.error e)) ∧ ¬ Consistent (compareErrs 0) es := by
  obtain ⟨w, hw, h1, h2, h3⟩ := buffered_comps
  obtain ⟨e1, e2, why, e3⟩ := buffered_ends
  refine ⟨w, hw, [.causedBy (.buffer, "b".toList) .noneError 5, .causedBy (.drain, "tub".toList) (.openIO ⟨1, 2⟩) 6,
    .causedBy (.faucet, "tap".toList) (.outputClosed ⟨0, some .out, 1, .terminate⟩ why [10]) 7], ?_, (C46_refuted rfl rfl rfl (by decide)).2.2.2⟩
  · intro x hx
    simp only [List.mem_cons, List.not_mem_nil, or_false] at hx
    rcases hx with rfl | rfl | rfl
    · exact ⟨_, _, _, _, rfl, h2, e2⟩
    · exact ⟨_, _, _, _, rfl, h3, e1⟩
    · exact ⟨_, _, _, _, rfl, h1, e3⟩

example : ∃ w, getWaiter bufferedConfig = .ok w ∧
    reportEnds w.names (.causedBy (.drain, "tub".toList) (.openIO ⟨1, 2⟩) 6) = ("Buffer:b".toList, "Unknown Destination".toList) := by
  obtain ⟨w, hw, _⟩ := buffered_comps
  refine ⟨w, hw, ?_⟩
  have : (getWaiter bufferedConfig).ok? = some w := by rw [hw]; rfl
  have h : (getWaiter bufferedConfig).ok?.map (fun w => reportEnds w.names (.causedBy (.drain, "tub".toList) (.openIO ⟨1, 2⟩) 6)) = some ("Buffer:b".toList, "Unknown Destination".toList) := by
    decide +kernel
  rw [this] at h
  simpa using h

end Verif
