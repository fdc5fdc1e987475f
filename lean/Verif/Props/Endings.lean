import Verif.Props.Edits
import Verif.Props.Legal
/-!
# C74: what each command prints, and with which code it ends
-/
namespace Verif

/-- Hash maps and sets are iterated over all of their members, in some order. -/
structure Orders.Complete (o : Orders) : Prop where
  outs : ∀ l, (o.outs l).Perm l
  ins : ∀ l, (o.ins l).Perm l
  launches : ∀ l, (o.launches l).Perm l
  listing : ∀ l, (o.listing l).Perm l

/-- A connection set cannot be read, or is no chain of components. -/
def Config.Malformed (c : Config) : Prop := ∃ b d, (b, d) ∈ c.connection ∧ (d.Invalid ∨ ∃ cs, d.Means cs ∧ ¬ WellFormed cs)

/-- All connection strings can be read, and everything that is used or watched is there. Something may be configured and not used. -/
structure Config.Ready (c : Config) : Prop where
  readable : ∀ k d, (k, d) ∈ c.connection → ¬ d.Invalid
  watched : ∀ r rc b, (r, rc) ∈ c.regulator → b ∈ rc.monitored → c.Uses .buffer b
  configured : ∀ ty n, c.Uses ty n → Configurable ty → c.Has (.component ty n)

/-- What can be said against a configuration: strings that cannot be read or, if there are none, discrepancies. -/
def Config.Faulty (c : Config) (w : LintWarning) : Prop :=
  (∃ k s, (k, .join s) ∈ c.connection ∧ (DConn.join s).Invalid ∧ w = .invalidConnection k s) ∨
  ((∀ k d, (k, d) ∈ c.connection → ¬ d.Invalid) ∧ Discrepancy c w)

/-- The connection strings replaced by what they mean. -/
def Config.spelled (c : Config) : Config := { c with connection := c.connection.map fun x => (x.1, converted x.2) }

theorem lint_always (c : Config) : ∃ ws, lint c = some (c.spelled, ws) ∧ ∀ w, w ∈ ws ↔ c.Faulty w := by
  by_cases h : ∃ k d, (k, d) ∈ c.connection ∧ d.Invalid
  · obtain ⟨c', ws, h1, hne, h2⟩ := C31_invalid c h
    obtain ⟨es, h3, h4, h5, h6, h7⟩ := C31_config h1
    obtain ⟨ws', h8, _⟩ := convert_eq c.connection
    rw [h8] at h3
    simp at h3
    refine ⟨ws, ?_, fun w => ?_⟩
    · rw [h1]
      cases c'
      simp at h3 h4 h5 h6 h7
      simp [Config.spelled, h3, h4, h5, h6, h7]
    · rw [h2]
      constructor
      · rintro ⟨k, s, q1, q2, q3⟩; exact Or.inl ⟨k, s, q1, q2, q3⟩
      · rintro (h' | ⟨hv, _⟩)
        · exact h'
        · obtain ⟨k, d, q1, q2⟩ := h; exact absurd q2 (hv k d q1)
  · have hv : ∀ k d, (k, d) ∈ c.connection → ¬ d.Invalid := fun k d hm hi => h ⟨k, d, hm, hi⟩
    obtain ⟨c', ws, h1, h2, h3⟩ := lint_valid hv
    refine ⟨ws, by rw [h1, h2]; rfl, fun w => ?_⟩
    rw [h3]
    constructor
    · exact fun q => Or.inr ⟨hv, q⟩
    · rintro (⟨k, s, q1, q2, _⟩ | ⟨_, q⟩)
      · exact absurd q2 (hv k _ q1)
      · exact q

/-- Faults that keep a configuration from being used. -/
def Config.Hindered (c : Config) (w : LintWarning) : Prop := c.Faulty w ∧ ∀ s ty n, w ≠ .inConfigButMissingFlowConnection s ty n

theorem not_unused {w : LintWarning} : (!w.isUnused) = true ↔ ∀ s ty n, w ≠ .inConfigButMissingFlowConnection s ty n := by
  cases w <;> simp [LintWarning.isUnused]

theorem ready_iff (c : Config) : c.Ready ↔ ∀ w, ¬ c.Hindered w := by
  constructor
  · rintro ⟨h1, h2, h3⟩ w ⟨h, hu⟩
    rcases h with ⟨k, s, q1, q2, _⟩ | ⟨_, q⟩
    · exact h1 k _ q1 q2
    · cases q with
      | watching hr hb hn => exact hn (h2 _ _ _ hr hb)
      | unused hh hn => exact hu _ _ _ rfl
      | unconfigured hh hc hn => exact hn (h3 _ _ hh hc)
  · intro h
    have hv : ∀ k d, (k, d) ∈ c.connection → ¬ d.Invalid := by
      intro k d hm hi
      cases d with
      | conns l => exact hi
      | join s => exact h _ ⟨Or.inl ⟨k, s, hm, hi, rfl⟩, by simp⟩
    refine ⟨hv, fun r rc b hr hb => ?_, fun ty n hu hc => ?_⟩
    · exact Classical.byContradiction fun hn => h _ ⟨Or.inr ⟨hv, .watching hr hb hn⟩, by simp⟩
    · exact Classical.byContradiction fun hn => h _ ⟨Or.inr ⟨hv, .unconfigured hu hc hn⟩, by simp⟩

/-- What processing makes of a configuration: hops between components. -/
theorem processed_hops {c c' : Config} {o : Orders} (ho : o.Complete) (hn : c.connection.keys.Nodup) {printed}
    (h : Verif.manipulate o.outs o.ins o.launches c = some (c', printed)) : ∃ R : Map Hop, R.Sorted ∧ c'.connection = hopSets R := by
  have hg : ∀ b d, (b, d) ∈ c.connection → d.Good := by
    intro b d hmem
    have hm : ¬ c.Malformed := fun hm => by
      rw [(C35_aborts c hn (spyOrder := o.launches) ho.outs ho.ins).2.mpr hm] at h
      simp at h
    rcases C30_either d with ⟨cs, h⟩ | h
    · exact ⟨cs, h, Decidable.byContradiction fun hw => hm ⟨b, d, hmem, Or.inr ⟨cs, h, hw⟩⟩⟩
    · exact absurd ⟨b, d, hmem, Or.inl h⟩ hm
  obtain ⟨ws, M, h1, h2, h3, _⟩ := paired c.connection hn hg
  obtain ⟨S, E, R, h5, hI, _⟩ := addJunctions_inserted h3 ho.outs ho.ins
  obtain ⟨T, R', drain', q1, q2, _⟩ := spies_added { c with connection := conns R } R rfl hI.sorted ho.launches
  simp only [Verif.manipulate, h1, h2, h5, Option.some.injEq] at h
  refine ⟨R', q2, ?_⟩
  have : c' = (addSpies { c with connection := conns R } (o.launches (requiredSpies (conns R)))).1 := by rw [h]
  rw [this, q1]
  rfl

theorem spelled_hops {c : Config} {R : Map Hop} (h : c.connection = hopSets R) : c.spelled = c := by
  have : (hopSets R).map (fun x => (x.1, converted x.2)) = hopSets R := by
    simp only [List.map_map]
    rfl
  cases c
  simp only [Config.spelled] at h ⊢
  rw [h, this]

/-- How a failure looks from outside: these lines on standard output, the messages as a list on standard error, code 1. -/
def Ending.Fails (e : Ending) (out msgs : List Str) : Prop :=
  e = .exits out ("Error(s) have occurred:".toList :: [] :: msgs.map (fun s => " * ".toList ++ s) ++ [[]]) 1

/-- How success looks from outside. -/
def Ending.Succeeds (e : Ending) (out : List Str) : Prop := e = .exits out [] 0

/-- All of these are mentioned. -/
def Mentions (msg : Str) (P : LintWarning → Prop) : Prop := ∀ w, P w → w.text <:+: msg

theorem intercalate_infix (sep : Str) : ∀ (l : List Str) (x : Str), x ∈ l → x <:+: sep.intercalate l
  | [], x, h => by simp at h
  | [y], x, h => by simp at h; subst h; exact ⟨[], [], by simp [List.intercalate, List.intersperse]⟩
  | y :: z :: l, x, h => by
    have e : sep.intercalate (y :: z :: l) = y ++ sep ++ sep.intercalate (z :: l) := by simp [List.intercalate, List.intersperse]
    rw [e]
    rcases List.mem_cons.mp h with rfl | h
    · exact ⟨[], sep ++ sep.intercalate (z :: l), by simp⟩
    · obtain ⟨a, b, hab⟩ := intercalate_infix sep (z :: l) x h
      exact ⟨y ++ sep ++ a, b, by rw [← hab]; simp⟩

theorem bulleted_mentions {o : Orders} (ho : o.Complete) {ws : List LintWarning} {pre post : Str} {P : LintWarning → Prop} (h : ∀ w, P w → w ∈ ws) :
    Mentions (pre ++ bulleted (o.listing ws) ++ post) P := by
  intro w hw
  obtain ⟨a, b, hab⟩ := intercalate_infix "\n * ".toList ((o.listing ws).map LintWarning.text) w.text
    (List.mem_map.mpr ⟨w, (ho.listing ws).mem_iff.mpr (h w hw), rfl⟩)
  exact ⟨pre ++ a, b ++ post, by rw [bulleted, ← hab]; simp⟩

theorem not_env_same {r r' : UserRequest} (hne : ∀ b m, r ≠ .launchEnv b m) (h : r.Same r') : r' = r := by
  cases r <;> first | exact absurd rfl (hne _ _) | exact h.symm

section
variable {lib : Library} {o : Orders} {start : Waiter → Started} {w : World} {m : Matches}

theorem pa2_of {r : UserRequest} (h : Asks m r) (hne : ∀ b m, r ≠ .launchEnv b m) : userAction lib.quote m = .asked (.ok r) := by
  obtain ⟨r', h1, h2⟩ := C72_understood (quote := lib.quote) h
  rw [h1, not_env_same hne h2]

/-- **C74** Checking a configuration: it is printed, with the strings spelled out, if there is nothing to say against it; else everything there is to say is said. -/
theorem C74_lint (ho : o.Complete) {f fmt c} (ha : Asks m (.configLintShow f fmt)) (hf : Finds lib w fmt f c) (hp : ∀ d, lib.print d ≠ []) :
    ((∀ x, ¬ c.Faulty x) ∧ (pa2 lib o start w m).Succeeds [lib.print (encodeConfig (o.written c.spelled))]) ∨
    ((∃ x, c.Faulty x) ∧ ∃ msg, (pa2 lib o start w m).Fails [] [msg] ∧ Mentions msg c.Faulty) := by
  have h1 := pa2_of (lib := lib) ha (by simp)
  obtain ⟨ws, h2, h3⟩ := lint_always c
  cases hws : ws with
  | nil =>
    subst hws
    refine Or.inl ⟨fun x hx => by simpa using (h3 x).mpr hx, ?_⟩
    simp only [Ending.Succeeds, pa2, h1, processAction, readConfig_iff.mpr hf, h2, lastly, if_neg (hp _), List.nil_append]
  | cons x l =>
    refine Or.inr ⟨⟨x, (h3 x).mp (by rw [hws]; simp)⟩, "We found the following warnings / errors: \n\n * ".toList ++ bulleted (o.listing ws) ++ "\n".toList, ?_,
      bulleted_mentions ho fun x hx => (h3 x).mpr hx⟩
    rw [hws] at h2
    simp only [Ending.Fails, pa2, h1, processAction, readConfig_iff.mpr hf, h2, lastly, hws]

/-- **C74** Taking a configuration apart: it aborts on malformed sets and prints the result otherwise. -/
theorem C74_manipulate (ho : o.Complete) {f fmt c} (ha : Asks m (.manipulate f fmt)) (hf : Finds lib w fmt f c) (hp : ∀ d, lib.print d ≠ []) :
    (c.Malformed ∧ pa2 lib o start w m = .aborts) ∨
    (¬ c.Malformed ∧ ∃ c', manipulateLight c = some c' ∧ (pa2 lib o start w m).Succeeds [lib.print (encodeConfig (o.written c'))]) := by
  have h1 := pa2_of (lib := lib) ha (by simp)
  have h2 := (C35_aborts c hf.proper.connection.nodup (spyOrder := o.launches) ho.outs ho.ins).1
  cases hm : manipulateLight c with
  | none =>
    refine Or.inl ⟨h2.mp hm, ?_⟩
    simp only [pa2, h1, processAction, readConfig_iff.mpr hf, hm]
  | some c' =>
    refine Or.inr ⟨fun h => by rw [h2.mpr h] at hm; simp at hm, c', rfl, ?_⟩
    simp only [Ending.Succeeds, pa2, h1, processAction, readConfig_iff.mpr hf, hm, lastly, if_neg (hp _), List.nil_append]

theorem hindered_filter {c : Config} {ws : List LintWarning} (h : ∀ x, x ∈ ws ↔ c.Faulty x) (x : LintWarning) :
    x ∈ ws.filter (fun w => !w.isUnused) ↔ c.Hindered x := by
  rw [List.mem_filter, h, not_unused]; rfl

/-- **C74** What is drawn: the components unless only the legend is asked for, the legend, with the border asked for, unless only the components are. -/
theorem C74_parts {c : Config} {mode : GraphMode} {part : Str × List Item} : part ∈ graphParts o c mode ↔
    (part = ("diagram".toList, draw o.types c) ∧ ∀ b, mode ≠ .legendOnly b) ∨ ∃ b, part = legend b ∧ (mode = .legendOnly b ∨ mode = .full b) := by
  unfold graphParts
  cases mode <;> simp [or_comm]

/-- **C74** Drawing: it succeeds exactly with what is ready for use, and else says why. -/
theorem C74_graph (ho : o.Complete) {f fmt c mode} (ha : Asks m (.graph f fmt mode)) (hf : Finds lib w fmt f c) (hp : ∀ d, lib.dot d ≠ []) :
    (c.Ready ∧ (pa2 lib o start w m).Succeeds [lib.dot (graphParts o c.spelled mode)]) ∨
    (¬ c.Ready ∧ ∃ msg, (pa2 lib o start w m).Fails [] [msg] ∧ Mentions msg c.Hindered) := by
  have h1 := pa2_of (lib := lib) ha (by simp)
  obtain ⟨ws, h2, h3⟩ := lint_always c
  have h4 := hindered_filter h3
  cases hws : ws.filter (fun w => !w.isUnused) with
  | nil =>
    refine Or.inl ⟨(ready_iff c).mpr fun x hx => ?_, ?_⟩
    · have := (h4 x).mpr hx
      rw [hws] at this
      simp at this
    · simp only [Ending.Succeeds, pa2, h1, processAction, readConfig_iff.mpr hf, h2, hws, lastly, if_neg (hp _), List.nil_append]
  | cons x l =>
    refine Or.inr ⟨fun hr => (ready_iff c).mp hr x ((h4 x).mp (by rw [hws]; simp)), "Process ".toList ++ bulleted (o.listing (x :: l)), ?_, ?_⟩
    · simp only [Ending.Fails, pa2, h1, processAction, readConfig_iff.mpr hf, h2, hws, lastly]
    · have := bulleted_mentions ho (pre := "Process ".toList) (post := []) (P := c.Hindered) fun y hy => (hws ▸ (h4 y).mpr hy)
      simpa using this

/-- **C74** Running: it aborts on malformed sets; it says what is missing, if something is, or what cannot be connected; or else runs the pipeline, and ends as that does. The
drains are always printed first. -/
theorem C74_process (ho : o.Complete) {f fmt c} (ha : Asks m (.process f fmt)) (hf : Finds lib w fmt f c) :
    (c.Malformed ∧ pa2 lib o start w m = .aborts) ∨
    (¬ c.Malformed ∧ ∃ c', Verif.manipulate o.outs o.ins o.launches c = some (c', c.drain.keys) ∧
      ((¬ c'.Ready ∧ ∃ msg, (pa2 lib o start w m).Fails [quoteSet lib.quote c.drain.keys] [msg] ∧ Mentions msg c'.Hindered) ∨
       (c'.Ready ∧ ((∃ e, getWaiter c' = .err e ∧ (pa2 lib o start w m).Fails [quoteSet lib.quote c.drain.keys] [e.text]) ∨
         ∃ v, getWaiter c' = .ok v ∧
          (((∃ n, start v = .ended (.ok n)) ∧ (pa2 lib o start w m).Succeeds [quoteSet lib.quote c.drain.keys]) ∨
           (∃ es, start v = .ended (.error es) ∧ (pa2 lib o start w m).Fails [quoteSet lib.quote c.drain.keys] (es.map (errorText lib.display lib.quote v.names))) ∨
           (start v = .aborts ∧ pa2 lib o start w m = .aborts) ∨ (start v = .never ∧ pa2 lib o start w m = .never)))))) := by
  have h1 := pa2_of (lib := lib) ha (by simp)
  have h2 := (C35_aborts c hf.proper.connection.nodup (spyOrder := o.launches) ho.outs ho.ins).2
  cases hm : Verif.manipulate o.outs o.ins o.launches c with
  | none =>
    refine Or.inl ⟨h2.mp hm, ?_⟩
    simp only [pa2, h1, processAction, readConfig_iff.mpr hf, hm]
  | some x =>
    obtain ⟨c', printed⟩ := x
    have hpr : printed = c.drain.keys := C58_refuted c hm
    subst hpr
    refine Or.inr ⟨fun h => by rw [h2.mpr h] at hm; simp at hm, c', rfl, ?_⟩
    obtain ⟨R, _, hR⟩ := processed_hops ho hf.proper.connection.nodup hm
    obtain ⟨ws, h3, h4⟩ := lint_always c'
    rw [spelled_hops hR] at h3
    have h5 := hindered_filter h4
    cases hws : ws.filter (fun w => !w.isUnused) with
    | cons x l =>
      refine Or.inl ⟨fun hr => (ready_iff c').mp hr x ((h5 x).mp (by rw [hws]; simp)), "Process ".toList ++ bulleted (o.listing (x :: l)), ?_, ?_⟩
      · simp only [Ending.Fails, pa2, h1, processAction, readConfig_iff.mpr hf, hm, h3, hws, lastly]
      · have := bulleted_mentions ho (pre := "Process ".toList) (post := []) (P := c'.Hindered) fun y hy => (hws ▸ (h5 y).mpr hy)
        simpa using this
    | nil =>
      refine Or.inr ⟨(ready_iff c').mpr fun x hx => ?_, ?_⟩
      · have := (h5 x).mpr hx
        rw [hws] at this
        simp at this
      · have hrun : processAction lib o w (.ok (.process f fmt)) = .ok [quoteSet lib.quote c.drain.keys] (.process c') := by
          simp only [processAction, readConfig_iff.mpr hf, hm, h3, hws]
        cases hw : getWaiter c' with
        | panic => exact absurd hw (C42_refused c' R hR).1
        | err e =>
          refine Or.inl ⟨e, rfl, ?_⟩
          simp only [Ending.Fails, pa2, h1, hrun, hw, lastly]
        | ok v =>
          refine Or.inr ⟨v, rfl, ?_⟩
          cases hs : start v with
          | ended r =>
            cases r with
            | ok n => exact Or.inl ⟨⟨n, rfl⟩, by simp [Ending.Succeeds, pa2, h1, hrun, hw, hs, lastly]⟩
            | error es => exact Or.inr (Or.inl ⟨es, rfl, by simp only [Ending.Fails, pa2, h1, hrun, hw, hs, lastly]⟩)
          | aborts => exact Or.inr (Or.inr (Or.inl ⟨rfl, by simp only [pa2, h1, hrun, hw, hs]⟩))
          | never => exact Or.inr (Or.inr (Or.inr ⟨rfl, by simp only [pa2, h1, hrun, hw, hs]⟩))

/-- The file and format that a request is about. -/
def UserRequest.source : UserRequest → Str × Format
  | .launchCommand b _ | .launchPath b _ | .launchArgs b _ | .launchEnv b _ | .faucetSrc b _ | .drainDst b _ | .regulatorWatermark b _ _ | .connectionJoin b _ => (b.configIn, b.format)
  | .configLintShow f fmt | .manipulate f fmt | .process f fmt | .graph f fmt _ => (f, fmt)

/-- **C74** Whatever is asked for, if there is no configuration to be found, then that is the one thing said, and nothing is printed. -/
theorem C74_unreadable {r} (ha : Asks m r) (hf : ∀ c, ¬ Finds lib w r.source.2 r.source.1 c) : ∃ msg, (pa2 lib o start w m).Fails [] [msg] := by
  obtain ⟨r', h1, h2⟩ := C72_understood (quote := lib.quote) ha
  have hsrc : r'.source = r.source := by
    by_cases hne : ∀ b m, r ≠ .launchEnv b m
    · rw [not_env_same hne h2]
    · simp only [Classical.not_forall, Classical.not_not] at hne
      obtain ⟨b, e, rfl⟩ := hne
      cases r' <;> simp [UserRequest.Same] at h2
      rw [h2.1]; rfl
  have hr : ∃ e, readConfig lib w r'.source.2 r'.source.1 = .error e := by
    cases h : readConfig lib w r'.source.2 r'.source.1 with
    | error e => exact ⟨e, rfl⟩
    | ok c => rw [hsrc] at h; exact absurd (readConfig_iff.mp h) (hf c)
  obtain ⟨e, hr⟩ := hr
  have : ∃ msg, processAction lib o w (.ok r') = .err [] msg := by
    cases r' <;> simp only [UserRequest.source] at hr <;> simp only [processAction, hr, edited] <;> first | exact ⟨_, rfl⟩ | (split <;> exact ⟨_, rfl⟩)
  obtain ⟨msg, hmsg⟩ := this
  exact ⟨msg, by simp only [Ending.Fails, pa2, h1, hmsg, lastly]⟩

/-- **C74** A connection that cannot be read is refused, and nothing is printed. -/
theorem C74_join {b s} (ha : Asks m (.connectionJoin b s)) (hs : convertToDConn lib.json lib.yaml s = none) :
    (pa2 lib o start w m).Fails [] ["Looks neither like JSON, YAML or JoinString '".toList ++ s ++ "'".toList] := by
  have h1 := pa2_of (lib := lib) ha (by simp)
  simp only [Ending.Fails, pa2, h1, processAction, hs, lastly]

/-- **C74** A command line that lacks something fails, and nothing is printed. -/
theorem C74_lacking (hp : Possible declared m) (hl : Lacking m) : ∃ err, pa2 lib o start w m = .exits [] err 1 ∧ err ≠ [] := by
  rcases possible_split (quote := lib.quote) hp with ⟨r, _, h⟩ | ⟨_, h | ⟨e, h⟩⟩
  · exact absurd hl (asks_not_lacking h)
  · exact ⟨_, by simp only [pa2, h]; rfl, by simp⟩
  · exact ⟨_, by simp only [pa2, h, processAction, lastly]; rfl, by simp⟩

/-- **C74** How the program can end at all: well; with code 1 and something said, and then nothing on standard output unless it was to run a pipeline; by an abort on malformed connection
sets when running or taking apart, or inside a running pipeline; and only a running pipeline can go on for ever. -/
theorem C74_ends (ho : o.Complete) (hpr : ∀ d, lib.print d ≠ []) (hd : ∀ d, lib.dot d ≠ []) (hp : Possible declared m) :
    (∃ s, (pa2 lib o start w m).Succeeds [s]) ∨
    (∃ out err, pa2 lib o start w m = .exits out err 1 ∧ err ≠ [] ∧ (out = [] ∨ ∃ f fmt, Asks m (.process f fmt))) ∨
    (pa2 lib o start w m = .aborts ∧ ((∃ f fmt c, (Asks m (.process f fmt) ∨ Asks m (.manipulate f fmt)) ∧ Finds lib w fmt f c ∧ c.Malformed) ∨
      ∃ f fmt v, Asks m (.process f fmt) ∧ start v = .aborts)) ∨
    (pa2 lib o start w m = .never ∧ ∃ f fmt v, Asks m (.process f fmt) ∧ start v = .never) := by
  have fails : ∀ {out msgs}, (pa2 lib o start w m).Fails out msgs → (out = [] ∨ ∃ f fmt, Asks m (.process f fmt)) →
      ∃ out err, pa2 lib o start w m = .exits out err 1 ∧ err ≠ [] ∧ (out = [] ∨ ∃ f fmt, Asks m (.process f fmt)) :=
    fun h h' => ⟨_, _, h, by simp, h'⟩
  rcases possible_split (quote := lib.quote) hp with ⟨r, h1, ha⟩ | ⟨hl, _⟩
  · by_cases hf : ∃ c, Finds lib w r.source.2 r.source.1 c
    · obtain ⟨c, hf⟩ := hf
      have edit : ∀ {b e}, Says lib r b e → (b.configIn, b.format) = r.source → ∃ s, (pa2 lib o start w m).Succeeds [s] := by
        intro b e hs hb
        have hf' : Finds lib w b.format b.configIn c := by rw [← hb] at hf; exact hf
        refine ⟨lib.print (encodeConfig (o.written (e.run c))), ?_⟩
        simp only [Ending.Succeeds, pa2, h1, processAction_edit hs (readConfig_iff.mpr hf'), lastly, if_neg (hpr _), List.nil_append]
      cases r with
      | process f fmt =>
        rcases C74_process (start := start) ho ha hf with ⟨h, h'⟩ | ⟨_, c', _, ⟨_, _, h, _⟩ | ⟨_, ⟨_, _, h⟩ | ⟨v, _, ⟨_, h⟩ | ⟨_, _, h⟩ | ⟨hs, h⟩ | ⟨hs, h⟩⟩⟩⟩
        · exact Or.inr (Or.inr (Or.inl ⟨h', Or.inl ⟨f, fmt, c, Or.inl ha, hf, h⟩⟩))
        · exact Or.inr (Or.inl (fails h (Or.inr ⟨f, fmt, ha⟩)))
        · exact Or.inr (Or.inl (fails h (Or.inr ⟨f, fmt, ha⟩)))
        · exact Or.inl ⟨_, h⟩
        · exact Or.inr (Or.inl (fails h (Or.inr ⟨f, fmt, ha⟩)))
        · exact Or.inr (Or.inr (Or.inl ⟨h, Or.inr ⟨f, fmt, v, ha, hs⟩⟩))
        · exact Or.inr (Or.inr (Or.inr ⟨h, f, fmt, v, ha, hs⟩))
      | manipulate f fmt =>
        rcases C74_manipulate (start := start) ho ha hf hpr with ⟨h, h'⟩ | ⟨_, _, _, h⟩
        · exact Or.inr (Or.inr (Or.inl ⟨h', Or.inl ⟨f, fmt, c, Or.inr ha, hf, h⟩⟩))
        · exact Or.inl ⟨_, h⟩
      | configLintShow f fmt =>
        rcases C74_lint (start := start) ho ha hf hpr with ⟨_, h⟩ | ⟨_, _, h, _⟩
        · exact Or.inl ⟨_, h⟩
        · exact Or.inr (Or.inl (fails h (Or.inl rfl)))
      | graph f fmt mode =>
        rcases C74_graph (start := start) ho ha hf hd with ⟨_, h⟩ | ⟨_, _, h, _⟩
        · exact Or.inl ⟨_, h⟩
        · exact Or.inr (Or.inl (fails h (Or.inl rfl)))
      | connectionJoin b s =>
        cases hs : convertToDConn lib.json lib.yaml s with
        | none => exact Or.inr (Or.inl (fails (C74_join ha hs) (Or.inl rfl)))
        | some d => exact Or.inl (edit (.join hs) rfl)
      | launchCommand b s => exact Or.inl (edit .command rfl)
      | launchPath b s => exact Or.inl (edit .path rfl)
      | launchArgs b s => exact Or.inl (edit .args rfl)
      | launchEnv b s => exact Or.inl (edit .env rfl)
      | faucetSrc b s => exact Or.inl (edit .source rfl)
      | drainDst b s => exact Or.inl (edit .destination rfl)
      | regulatorWatermark b x y => exact Or.inl (edit .watermarks rfl)
    · obtain ⟨msg, h⟩ := C74_unreadable (lib := lib) (o := o) (start := start) (w := w) ha fun c hc => hf ⟨c, hc⟩
      exact Or.inr (Or.inl (fails h (Or.inl rfl)))
  · obtain ⟨err, h, hne⟩ := C74_lacking (lib := lib) (o := o) (start := start) (w := w) hp hl
    exact Or.inr (Or.inl ⟨[], err, h, hne, Or.inl rfl⟩)

end

end Verif
