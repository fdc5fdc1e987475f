import Verif.Spec.Edits
import Verif.Lemmas.Proper
import Verif.Props.CommandLine
/-!
# C73: editing a configuration from the command line
-/
namespace Verif

theorem Config.Alike.refl (c : Config) : c.Alike c := ⟨fun _ => rfl, fun _ => rfl, fun _ => rfl, fun _ => rfl, fun _ _ => rfl, rfl⟩

theorem Config.Alike.trans {a b c : Config} (h : a.Alike b) (h' : b.Alike c) : a.Alike c :=
  ⟨fun n => (h.faucet n).trans (h'.faucet n), fun n => (h.drain n).trans (h'.drain n), fun n => (h.regulator n).trans (h'.regulator n),
   fun n => (h.launch n).trans (h'.launch n), fun n k => (h.env n k).trans (h'.env n k), h.connection.trans h'.connection⟩

/-- The orders in which a configuration is written are orders of that configuration. -/
def Orders.Faithful (o : Orders) : Prop := ∀ c : Config, c.Proper → (o.written c).Proper ∧ c.Alike (o.written c)

/-- What proper configurations are written as. -/
def Written (d : Data) : Prop := ∃ c : Config, c.Proper ∧ d = encodeConfig c

theorem readConfig_iff {lib : Library} {w : World} {fmt : Format} {name : Str} {c : Config} :
    readConfig lib w fmt name = .ok c ↔ Finds lib w fmt name c := by
  have parse : ∀ s, parseConfig lib fmt s = .ok c ↔ ∃ d, (fmt = .json ∧ lib.json s = some d ∨ fmt = .yaml ∧ lib.yaml s = some d) ∧ decodeConfig d = some c := by
    intro s
    cases fmt with
    | json =>
      simp only [parseConfig]
      cases hj : lib.json s with
      | none => simp
      | some d => cases hd : decodeConfig d <;> simp [hd]
    | yaml =>
      simp only [parseConfig]
      cases hj : lib.yaml s with
      | none => simp
      | some d => cases hd : decodeConfig d <;> simp [hd]
  have text : ∀ s, readText w name = .ok s ↔ (name = "-".toList ∧ w.stdin = some s ∨ name ≠ "-".toList ∧ w.file name = some s) := by
    intro s
    unfold readText
    by_cases hn : name = "-".toList
    · rw [if_pos hn]
      cases hs : w.stdin <;> simp [hn]
    · rw [if_neg hn]
      cases hs : w.file name <;> simp only [hn, false_and, not_false_eq_true, true_and, false_or, ne_eq, reduceCtorEq, Except.ok.injEq, Option.some.injEq]
  unfold readConfig Finds
  cases ht : readText w name with
  | error e =>
    simp only [reduceCtorEq, false_iff]
    rintro ⟨s, d, h, _⟩
    rw [(text s).mpr h] at ht
    simp at ht
  | ok s =>
    simp only
    rw [parse]
    constructor
    · rintro ⟨d, h1, h2⟩
      exact ⟨s, d, (text s).mp ht, h1, h2⟩
    · rintro ⟨s', d, h, h1, h2⟩
      rw [(text s').mpr h] at ht
      simp at ht
      subst ht
      exact ⟨d, h1, h2⟩

theorem Finds.proper {lib : Library} {w fmt name c} (h : Finds lib w fmt name c) : c.Proper := by
  obtain ⟨_, _, _, _, h⟩ := h
  exact decode_proper h

theorem get_perm {α : Type} {m m' : Map α} (hn : m.keys.Nodup) (h : m.Perm m') (k : Str) : m.get k = m'.get k := by
  have hn' : m'.keys.Nodup := (h.map Prod.fst).nodup_iff.mp hn
  cases hg : m.get k with
  | some v => exact (((mem_iff_get hn').mp (h.mem_iff.mp (mem_of_get hg)))).symm
  | none =>
    cases hg' : m'.get k with
    | none => rfl
    | some v =>
      have := (mem_iff_get hn).mp (h.mem_iff.mpr (mem_of_get hg'))
      rw [hg] at this
      simp at this

/-- Edits that are the same but for the order of variables. -/
def Edit.Alike : Edit → Edit → Prop
  | .environment n m, .environment n' m' => n = n' ∧ ∀ k, m.get k = m'.get k
  | e, e' => e = e'

theorem Edit.Alike.refl (e : Edit) : e.Alike e := by cases e <;> simp [Edit.Alike]

theorem alike_launch {c c' : Config} (h : c.Alike c') {f f' : LaunchConfig → LaunchConfig} {new new' : LaunchConfig} (n : Str)
    (hf : ∀ l l' : LaunchConfig, (l.command, l.path, l.arg) = (l'.command, l'.path, l'.arg) → (∀ k, l.env.get k = l'.env.get k) →
      ((f l).command, (f l).path, (f l).arg) = ((f' l').command, (f' l').path, (f' l').arg) ∧ ∀ k, (f l).env.get k = (f' l').env.get k)
    (hnew : (new.command, new.path, new.arg) = (new'.command, new'.path, new'.arg) ∧ ∀ k, new.env.get k = new'.env.get k) :
    Config.Alike { c with launch := c.launch.entry f new n } { c' with launch := c'.launch.entry f' new' n } := by
  refine ⟨h.faucet, h.drain, h.regulator, fun x => ?_, fun x k => ?_, h.connection⟩
  · simp only [get_entry]
    by_cases e : x = n
    · simp only [e, if_true]
      have h1 := h.launch n
      have h2 := h.env n
      cases hg : c.launch.get n <;> cases hg' : c'.launch.get n <;> rw [hg, hg'] at h1 h2 <;> simp only [Option.map_none, Option.map_some, reduceCtorEq, Option.some.injEq] at h1
      · simpa using hnew.1
      · simpa using (hf _ _ h1 h2).1
    · simp only [e, if_false]; exact h.launch x
  · simp only [get_entry]
    by_cases e : x = n
    · simp only [e, if_true]
      have h1 := h.launch n
      have h2 := h.env n
      cases hg : c.launch.get n <;> cases hg' : c'.launch.get n <;> rw [hg, hg'] at h1 h2 <;> simp only [Option.map_none, Option.map_some, reduceCtorEq, Option.some.injEq] at h1
      · exact hnew.2 k
      · exact (hf _ _ h1 h2).2 k
    · simp only [e, if_false]; exact h.env x k

/-- Edits of configurations that say the same make configurations that say the same. -/
theorem Edit.alike {c c' : Config} (h : c.Alike c') {e e' : Edit} (he : e.Alike e') : (e.run c).Alike (e'.run c') := by
  cases e with
  | source n s =>
    cases e' <;> simp [Edit.Alike] at he
    obtain ⟨rfl, rfl⟩ := he
    exact ⟨fun x => by simp only [Edit.run, setSource, get_entry, h.faucet], h.drain, h.regulator, h.launch, h.env, h.connection⟩
  | destination n s =>
    cases e' <;> simp [Edit.Alike] at he
    obtain ⟨rfl, rfl⟩ := he
    exact ⟨h.faucet, fun x => by simp only [Edit.run, setDestination, get_entry, h.drain], h.regulator, h.launch, h.env, h.connection⟩
  | watermarks n a b =>
    cases e' <;> simp [Edit.Alike] at he
    obtain ⟨rfl, rfl, rfl⟩ := he
    exact ⟨h.faucet, h.drain, fun x => by simp only [Edit.run, setWatermark, get_entry, h.regulator], h.launch, h.env, h.connection⟩
  | connections n d =>
    cases e' <;> simp [Edit.Alike] at he
    obtain ⟨rfl, rfl⟩ := he
    exact ⟨h.faucet, h.drain, h.regulator, h.launch, h.env, by simp only [Edit.run, connectionJoin, h.connection]⟩
  | command n s =>
    cases e' <;> simp [Edit.Alike] at he
    obtain ⟨rfl, rfl⟩ := he
    exact alike_launch h n (fun l l' h1 h2 => ⟨by simp_all, h2⟩) ⟨rfl, fun _ => rfl⟩
  | path n s =>
    cases e' <;> simp [Edit.Alike] at he
    obtain ⟨rfl, rfl⟩ := he
    exact alike_launch h n (fun l l' h1 h2 => ⟨by simp_all, h2⟩) ⟨rfl, fun _ => rfl⟩
  | arguments n s =>
    cases e' <;> simp [Edit.Alike] at he
    obtain ⟨rfl, rfl⟩ := he
    exact alike_launch h n (fun l l' h1 h2 => ⟨by simp_all, h2⟩) ⟨rfl, fun _ => rfl⟩
  | environment n m =>
    cases e' <;> simp [Edit.Alike] at he
    obtain ⟨rfl, he⟩ := he
    exact alike_launch h n (fun l l' h1 h2 => ⟨by simpa using h1, he⟩) ⟨rfl, he⟩

theorem convert_fits {lib : Library} {s : Str} {d : DConn} (h : convertToDConn lib.json lib.yaml s = some d) : ∀ l, d = .conns l → ∀ x ∈ l, x.Fits := by
  have one : ∀ {t : Option Data} {c}, t.bind decodeConnection = some c → c.Fits := by
    intro t c h
    cases t with
    | none => simp at h
    | some t => exact decodeConnection_fits h
  have many : ∀ {t : Option Data} {cs}, t.bind (decodeList decodeConnection) = some cs → ∀ x ∈ cs, x.Fits := by
    intro t cs h
    cases t with
    | none => simp at h
    | some t =>
      cases t with
      | list ds => exact decodeEach_inv Connection.Fits (fun _ _ => decodeConnection_fits) h
      | _ => simp [decodeList] at h
  unfold convertToDConn at h
  rintro l rfl
  split at h
  · simp at h
  · simp at h
  · split at h
    · rename_i hc; simp at h; subst h; simpa using one hc
    · split at h
      · rename_i hc; simp at h; subst h; exact many hc
      · split at h
        · rename_i hc; simp at h; subst h; simpa using one hc
        · split at h
          · rename_i hc; simp at h; subst h; exact many hc
          · simp at h

/-- What a command line asks for fits. -/
theorem asked_fits {lib : Library} {m : Matches} {r b e} (h : Asks m r) (hs : Says lib r b e) : e.Fits := by
  cases hs with
  | command => trivial
  | path => trivial
  | args => trivial
  | source => trivial
  | destination => trivial
  | env => cases h with | env _ _ _ hw => exact hw.2.1
  | watermarks => cases h with | watermark _ _ _ _ hx hy => obtain ⟨_, _, _, _, _, hx⟩ := hx; obtain ⟨_, _, _, _, _, hy⟩ := hy; exact ⟨hx, hy⟩
  | join hc => exact convert_fits hc

theorem says_same {lib : Library} {m : Matches} {r r' b e} (h : Asks m r) (hs : Says lib r b e) (hr : r.Same r') :
    ∃ e', Says lib r' b e' ∧ e.Alike e' := by
  cases hs with
  | env =>
    cases r' <;> simp [UserRequest.Same] at hr
    obtain ⟨rfl, hp⟩ := hr
    cases h with
    | env _ _ _ hw => exact ⟨_, .env, rfl, fun k => get_perm hw.2.1 hp k⟩
  | command => cases r' <;> simp [UserRequest.Same] at hr; obtain ⟨rfl, rfl⟩ := hr; exact ⟨_, .command, Edit.Alike.refl _⟩
  | path => cases r' <;> simp [UserRequest.Same] at hr; obtain ⟨rfl, rfl⟩ := hr; exact ⟨_, .path, Edit.Alike.refl _⟩
  | args => cases r' <;> simp [UserRequest.Same] at hr; obtain ⟨rfl, rfl⟩ := hr; exact ⟨_, .args, Edit.Alike.refl _⟩
  | source => cases r' <;> simp [UserRequest.Same] at hr; obtain ⟨rfl, rfl⟩ := hr; exact ⟨_, .source, Edit.Alike.refl _⟩
  | destination => cases r' <;> simp [UserRequest.Same] at hr; obtain ⟨rfl, rfl⟩ := hr; exact ⟨_, .destination, Edit.Alike.refl _⟩
  | watermarks => cases r' <;> simp [UserRequest.Same] at hr; obtain ⟨rfl, rfl, rfl⟩ := hr; exact ⟨_, .watermarks, Edit.Alike.refl _⟩
  | join hc => cases r' <;> simp [UserRequest.Same] at hr; obtain ⟨rfl, rfl⟩ := hr; exact ⟨_, .join hc, Edit.Alike.refl _⟩

theorem processAction_edit {lib : Library} {o : Orders} {w : World} {r b e c} (hs : Says lib r b e) (hc : readConfig lib w b.format b.configIn = .ok c) :
    processAction lib o w (.ok r) = .ok [] (.config (e.run c)) := by
  cases hs with
  | join h => simp only [processAction, h, hc, edited]; rfl
  | _ => simp only [processAction, hc, edited]; rfl

/-- **C73** A command line asking for an edit prints the configuration it names with that edit made, in some order, and nothing else, and succeeds. -/
theorem C73_edit {lib : Library} (hl : lib.Faithful Written) {o : Orders} (ho : o.Faithful) {start : Waiter → Started} {w : World} {m : Matches} (hp : Possible declared m)
    {r b e c} (ha : Asks m r) (hs : Says lib r b e) (hf : Finds lib w b.format b.configIn c) :
    ∃ c', pa2 lib o start w m = .exits [lib.print (encodeConfig c')] [] 0 ∧ c'.Proper ∧ (e.run c).Alike c' := by
  obtain ⟨r', h1, h2⟩ := C72_understood (quote := lib.quote) ha
  obtain ⟨e', hs', he⟩ := says_same ha hs h2
  have hfit : e'.Fits := asked_fits (C72_asked hp h1) hs'
  have hp' := Edit.proper hf.proper hfit
  obtain ⟨h3, h4⟩ := ho _ hp'
  refine ⟨o.written (e'.run c), ?_, h3, (Edit.alike (Config.Alike.refl c) he).trans h4⟩
  simp only [pa2, h1, processAction_edit hs' (readConfig_iff.mpr hf), lastly, if_neg (hl.some _), List.nil_append]

/-- A step of a chain of edits: it reads standard input. -/
def EditStep (lib : Library) (o : Orders) (m : Matches) (e : Edit) : Prop :=
  o.Faithful ∧ Possible declared m ∧ ∃ r b, Asks m r ∧ Says lib r b e ∧ b.configIn = "-".toList

theorem finds_again {lib : Library} (hl : lib.Faithful Written) {c : Config} (hc : c.Proper) (files : Str → Option Str) (fmt : Format) :
    Finds lib ⟨some (lib.print (encodeConfig c) ++ "\n".toList), files⟩ fmt "-".toList c := by
  refine ⟨_, encodeConfig c, Or.inl ⟨rfl, rfl⟩, ?_, C49_config c hc⟩
  cases fmt with
  | json => exact Or.inl ⟨rfl, hl.json _ ⟨c, hc, rfl⟩⟩
  | yaml => exact Or.inr ⟨rfl, hl.yaml _ ⟨c, hc, rfl⟩⟩

/-- **C73** A chain of edits `pa2 config … | pa2 config … | …` does all of them, in order, whatever the orders in which the processes list things. -/
theorem C73_chain {lib : Library} (hl : lib.Faithful Written) {start : Waiter → Started} {l : List ((Orders × (Str → Option Str) × Matches) × Edit)}
    (hs : ∀ x ∈ l, EditStep lib x.1.1 x.1.2.2 x.2) {s : Str} {c c₀ : Config} (hc : ∀ files fmt, Finds lib ⟨some s, files⟩ fmt "-".toList c) (hc₀ : c₀.Alike c) :
    ∃ t c', Piped (fun o files s m => pa2 lib o start ⟨some s, files⟩ m) (l.map (·.1)) s t ∧
      (∀ files fmt, Finds lib ⟨some t, files⟩ fmt "-".toList c') ∧ ((l.map (·.2)).foldl Edit.run c₀).Alike c' := by
  induction l generalizing s c c₀ with
  | nil => exact ⟨s, c, .nil, hc, hc₀⟩
  | cons x l ih =>
    obtain ⟨⟨o, files, m⟩, e⟩ := x
    obtain ⟨ho, hp, r, b, ha, hsy, hb⟩ := hs _ (List.mem_cons_self ..)
    obtain ⟨c', h1, h2, h3⟩ := C73_edit hl ho (start := start) (w := ⟨some s, files⟩) hp ha hsy (hb ▸ hc files b.format)
    obtain ⟨t, c'', h4, h5, h6⟩ := ih (fun y hy => hs y (List.mem_cons_of_mem _ hy)) (s := lib.print (encodeConfig c') ++ "\n".toList) (c := c')
      (c₀ := e.run c₀) (fun files fmt => finds_again hl h2 files fmt) ((Edit.alike hc₀ (Edit.Alike.refl e)).trans h3)
    exact ⟨t, c'', .cons h1 h4, h5, h6⟩

theorem Piped.unique {run} {l : List (Orders × (Str → Option Str) × Matches)} {s t t' : Str} (h : Piped run l s t) (h' : Piped run l s t') : t = t' := by
  induction h with
  | nil => cases h'; rfl
  | cons h1 _ ih =>
    cases h' with
    | cons h2 h3 =>
      rw [h1] at h2
      simp at h2
      exact ih (h2 ▸ h3)

theorem Value.Alike.refl (v : Value) : v.Alike v := by cases v <;> simp [Value.Alike]

theorem read_alike {c c' : Config} (h : c.Alike c') (p : Setting) : (c.read p).Alike (c'.read p) := by
  cases p with
  | source n => rw [Config.read, Config.read, h.faucet]; exact .refl _
  | destination n => rw [Config.read, Config.read, h.drain]; exact .refl _
  | watermarks n => rw [Config.read, Config.read, h.regulator]; exact .refl _
  | monitored n => rw [Config.read, Config.read, h.regulator]; exact .refl _
  | connections n => rw [Config.read, Config.read, h.connection]; exact .refl _
  | command n =>
    have h1 := h.launch n
    rw [Config.read, Config.read]
    cases hg : c.launch.get n <;> cases hg' : c'.launch.get n <;> rw [hg, hg'] at h1 <;> simp at h1
    · exact .refl _
    · simp [h1]; exact .refl _
  | path n =>
    have h1 := h.launch n
    rw [Config.read, Config.read]
    cases hg : c.launch.get n <;> cases hg' : c'.launch.get n <;> rw [hg, hg'] at h1 <;> simp at h1
    · exact .refl _
    · simp [h1]; exact .refl _
  | arguments n =>
    have h1 := h.launch n
    rw [Config.read, Config.read]
    cases hg : c.launch.get n <;> cases hg' : c'.launch.get n <;> rw [hg, hg'] at h1 <;> simp at h1
    · exact .refl _
    · simp [h1]; exact .refl _
  | environment n =>
    have h1 := h.launch n
    have h2 := h.env n
    rw [Config.read, Config.read]
    cases hg : c.launch.get n <;> cases hg' : c'.launch.get n <;> rw [hg, hg'] at h1 h2 <;> simp at h1
    · exact .refl _
    · exact h2

theorem Value.Alike.trans {a b c : Value} (h : a.Alike b) (h' : b.Alike c) : a.Alike c := by
  cases a <;> cases b <;> cases c <;> simp_all [Value.Alike]

theorem lastSaid_fold (es : List Edit) (c : Config) (hs : c.connection.Sorted) (p : Setting) : LastSaid (c.read p) es p ((es.foldl Edit.run c).read p) := by
  induction es generalizing c with
  | nil => exact Or.inr ⟨by simp, .refl _⟩
  | cons e es ih =>
    have hs' : (e.run c).connection.Sorted := by
      cases e <;> first | exact hs | exact sorted_sortedEntry hs _ _ _
    rcases ih (e.run c) hs' with ⟨pre, x, post, h1, h2, h3, h4⟩ | ⟨h1, h2⟩
    · exact Or.inl ⟨e :: pre, x, post, by rw [h1]; rfl, h2, h3, h4⟩
    · by_cases he : e.place = p
      · refine Or.inl ⟨[], e, es, rfl, he, h1, ?_⟩
        rw [← he, C32_sets c hs] at h2
        rw [he] at h2
        exact h2
      · refine Or.inr ⟨?_, ?_⟩
        · intro x hx
          rcases List.mem_cons.mp hx with rfl | hx
          · exact he
          · exact h1 x hx
        · rw [C32_only c hs e p (fun h => he h.symm)] at h2
          exact h2

theorem LastSaid.alike {v es p a a'} (h : LastSaid v es p a) (ha : a.Alike a') : LastSaid v es p a' := by
  rcases h with ⟨pre, x, post, h1, h2, h3, h4⟩ | ⟨h1, h2⟩
  · exact Or.inl ⟨pre, x, post, h1, h2, h3, h4.trans ha⟩
  · exact Or.inr ⟨h1, h2.trans ha⟩

theorem has_alike {c c' : Config} (h : c.Alike c') (o : Owner) : c.Has o ↔ c'.Has o := by
  have key : ∀ {α : Type} {m m' : Map α} (k : Str), (m.get k).isSome = (m'.get k).isSome → (k ∈ m.keys ↔ k ∈ m'.keys) := by
    intro α m m' k h
    have e : ∀ m : Map α, k ∈ m.keys ↔ (m.get k).isSome = true := by
      intro m
      rw [Option.isSome_iff_ne_none, Ne, get_none]
      simp
    rw [e, e, h]
  cases o with
  | connection k => rw [Config.Has, Config.Has, h.connection]
  | component ty n =>
    cases ty <;> simp only [Config.Has]
    · exact key n (by rw [h.faucet])
    · have := congrArg Option.isSome (h.launch n)
      simp at this
      exact key n this
    · exact key n (by rw [h.drain])
    · exact key n (by rw [h.regulator])

theorem has_fold (es : List Edit) (c : Config) (hs : c.connection.Sorted) (o : Owner) :
    (es.foldl Edit.run c).Has o ↔ c.Has o ∨ ∃ e ∈ es, o = e.place.owner := by
  induction es generalizing c with
  | nil => simp
  | cons e es ih =>
    have hs' : (e.run c).connection.Sorted := by
      cases e <;> first | exact hs | exact sorted_sortedEntry hs _ _ _
    rw [List.foldl_cons, ih _ hs', C32_adds c hs]
    simp only [List.mem_cons, exists_eq_or_imp]
    grind

/-- **C73** After a chain of edits, the last one printing `t`: every setting has the value of the last edit about it or, if there is none, the one it had; and there are the
components and connections that were there or that were edited. -/
theorem C73_settled {lib : Library} (hl : lib.Faithful Written) {start : Waiter → Started} {l : List ((Orders × (Str → Option Str) × Matches) × Edit)}
    (hs : ∀ x ∈ l, EditStep lib x.1.1 x.1.2.2 x.2) {s : Str} {c : Config} (hc : ∀ files fmt, Finds lib ⟨some s, files⟩ fmt "-".toList c) {t : Str}
    (ht : Piped (fun o files s m => pa2 lib o start ⟨some s, files⟩ m) (l.map (·.1)) s t) :
    ∃ c', (∀ files fmt, Finds lib ⟨some t, files⟩ fmt "-".toList c') ∧ (∀ p, LastSaid (c.read p) (l.map (·.2)) p (c'.read p)) ∧
      ∀ o, c'.Has o ↔ c.Has o ∨ ∃ x ∈ l, o = x.2.place.owner := by
  obtain ⟨t', c', h1, h2, h3⟩ := C73_chain hl (start := start) hs hc (Config.Alike.refl c)
  have e := ht.unique h1
  subst e
  have hso := (hc (fun _ => none) .json).proper.connection
  refine ⟨c', h2, fun p => (lastSaid_fold _ c hso p).alike (read_alike h3 p), fun o => ?_⟩
  rw [← has_alike h3, has_fold _ _ hso]
  simp only [List.mem_map]
  constructor
  · rintro (h | ⟨_, ⟨x, hx, rfl⟩, h⟩)
    · exact Or.inl h
    · exact Or.inr ⟨x, hx, h⟩
  · rintro (h | ⟨x, hx, h⟩)
    · exact Or.inl h
    · exact Or.inr ⟨_, ⟨x, hx, rfl⟩, h⟩

end Verif
