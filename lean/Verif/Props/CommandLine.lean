import Verif.Spec.CommandLine
import Verif.Props.Command
/-!
# Property C72: what a command line asks for
-/
namespace Verif

/-! ## Numbers -/

theorem numeral_from (n : Nat) (ds : Str) : n ≤ ds.foldl (fun n c => 10 * n + (c.toNat - 48)) n := by
  induction ds generalizing n with
  | nil => exact Nat.le_refl _
  | cons c ds ih => exact Nat.le_trans (by omega) (ih (10 * n + (c.toNat - 48)))

theorem usizeDigits_iff (n m : Nat) (hn : n < 2 ^ 64) (s : Str) :
    usizeDigits n s = some m ↔ (∀ c ∈ s, digit c = true) ∧ s.foldl (fun n c => 10 * n + (c.toNat - 48)) n = m ∧ m < 2 ^ 64 := by
  induction s generalizing n with
  | nil =>
    simp only [usizeDigits, Option.some.injEq, List.not_mem_nil, false_imp_iff, implies_true, List.foldl_nil, true_and]
    exact ⟨fun e => ⟨e, e ▸ hn⟩, fun e => e.1⟩
  | cons c s ih =>
    have hc : '0'.toNat = 48 := rfl
    simp only [usizeDigits, hc, List.foldl_cons, List.mem_cons, forall_eq_or_imp]
    have e : n * 10 + (c.toNat - 48) = 10 * n + (c.toNat - 48) := by omega
    rw [e]
    by_cases hd : digit c = true
    · rw [if_pos hd]
      by_cases h1 : 10 * n + (c.toNat - 48) < 2 ^ 64
      · rw [if_pos (by omega), if_pos h1, ih _ h1]
        simp [hd]
      · have : ¬ (s.foldl (fun n c => 10 * n + (c.toNat - 48)) (10 * n + (c.toNat - 48)) = m ∧ m < 2 ^ 64) := by
          rintro ⟨rfl, h⟩
          have := numeral_from (10 * n + (c.toNat - 48)) s
          omega
        rw [if_neg h1]
        constructor
        · intro h; split at h <;> simp at h
        · rintro ⟨_, h⟩; exact absurd h this
    · rw [if_neg hd]
      simp [hd]

/-- Numbers are read as they are written. -/
theorem parseUsize_iff (s : Str) (n : Nat) : parseUsize s = some n ↔ WritesNumber s n := by
  have hd : ∀ s : Str, (∀ c ∈ s, digit c = true) ↔ ∀ c ∈ s, c ∈ "0123456789".toList := fun s =>
    ⟨fun h c hc => digit_iff.mp (h c hc), fun h c hc => digit_iff.mpr (h c hc)⟩
  have plus : '+' ∉ "0123456789".toList := by decide
  cases s with
  | nil =>
    simp only [parseUsize, reduceCtorEq, WritesNumber, false_iff]
    rintro ⟨ds, h | h, hne, _⟩
    · exact hne h.symm
    · simp at h
  | cons c s =>
    simp only [parseUsize]
    by_cases hc : c = '+'
    · subst hc
      rw [if_pos rfl]
      by_cases hs : s = []
      · rw [if_pos hs]
        subst hs
        simp only [reduceCtorEq, false_iff]
        rintro ⟨ds, h | h, hne, hall, _⟩
        · subst h; exact plus (hall _ (by simp))
        · simp at h; exact hne h
      · rw [if_neg hs, usizeDigits_iff 0 n (by decide), hd]
        constructor
        · rintro ⟨h1, h2, h3⟩
          exact ⟨s, Or.inr rfl, hs, h1, h2, h3⟩
        · rintro ⟨ds, h | h, hne, hall, h2, h3⟩
          · subst h; exact absurd (hall _ (by simp)) plus
          · simp at h; subst h; exact ⟨hall, h2, h3⟩
    · rw [if_neg hc, usizeDigits_iff 0 n (by decide), hd]
      constructor
      · rintro ⟨h1, h2, h3⟩
        exact ⟨_, Or.inl rfl, by simp, h1, h2, h3⟩
      · rintro ⟨ds, h | h, hne, hall, h2, h3⟩
        · subst h; exact ⟨hall, h2, h3⟩
        · simp at h; exact absurd h.1 hc

/-! ## Variables -/

theorem parseEnv_nodup {args : List Str} {m : Map Str} (h : parseEnv args = some m) : m.keys.Nodup := by
  have key : ∀ args : List Str, ∀ acc : Map Str, acc.keys.Nodup → ∀ m, args.foldl addEnv (some acc) = some m → m.keys.Nodup := by
    intro args
    induction args with
    | nil => intro acc ha m h; simp at h; exact h ▸ ha
    | cons a args ih =>
      intro acc ha m h
      rw [List.foldl_cons] at h
      cases hk : asKv a with
      | none => simp [addEnv, hk, addEnv_none] at h
      | some p =>
        obtain ⟨k, v⟩ := p
        have : addEnv (some acc) a = some (acc.entry (fun _ => v) v k) := by simp [addEnv, hk]
        rw [this] at h
        exact ih _ (nodup_entry _ _ _ ha) m h
  exact key args [] (by simp [Map.keys]) m h

theorem parseEnv_writes {args : List Str} {m : Map Str} (h : parseEnv args = some m) : WritesEnv args m := by
  refine ⟨(C50_accepted args).mp ⟨m, h⟩, parseEnv_nodup h, fun n v => ?_⟩
  rw [C50_last_wins h]
  constructor
  · rintro ⟨pre, a, post, e, ⟨h1, h2, h3⟩, h4⟩
    exact ⟨pre, post, h1 ▸ e, h2, h3, fun b hb v' e' => h4 b hb v' ⟨e', h2, h3⟩⟩
  · rintro ⟨pre, post, e, h2, h3, h4⟩
    exact ⟨pre, _, post, e, ⟨rfl, h2, h3⟩, fun b hb v' e' => h4 b hb v' e'.1⟩

/-! ## Commands -/

theorem value_single {a : Args} {n : String} (h : (Declared.single n).Fits a) : ∃ s, a.value n = some s := by
  obtain ⟨s, h⟩ := h
  exact ⟨s, by simp [Args.value, h]⟩

theorem values_several {a : Args} {n : String} (h : (Declared.several n).Fits a) : ∃ l, a.values n = some l := by
  obtain ⟨s, l, h⟩ := h
  exact ⟨_, h⟩

theorem names_of_format {a : Args} (h : formatArg.Fits a) : ∃ f fmt, a.Names f fmt := by
  obtain ⟨s, hs, h⟩ := h
  have hv : a.value "format" = some s.toList := by simp [Args.value, h]
  have hf : ∃ f, a.value "config" = some f ∨ a.value "config" = none ∧ f = "-".toList := by
    cases h : a.value "config" with
    | none => exact ⟨_, Or.inr ⟨rfl, rfl⟩⟩
    | some f => exact ⟨f, Or.inl rfl⟩
  obtain ⟨f, hf⟩ := hf
  simp only [List.mem_cons, List.not_mem_nil, or_false] at hs
  rcases hs with rfl | rfl
  · exact ⟨f, .yaml, hf, Or.inr ⟨hv, rfl⟩⟩
  · exact ⟨f, .json, hf, Or.inl ⟨hv, rfl⟩⟩

theorem Args.Names.reads {a : Args} {f fmt} (h : a.Names f fmt) :
    configFormat (some a) = .ok fmt ∧ configName (some a) = some f ∧ configIn (some a) = f := by
  have e : "json".toList ≠ "yaml".toList := by decide
  refine ⟨?_, ?_, ?_⟩
  · unfold configFormat
    rcases h.format with ⟨hv, rfl⟩ | ⟨hv, rfl⟩
    · have : ((some a).bind fun b => (b.value "format").or (configName (some a))) = some "json".toList := by
        show (a.value "format").or _ = _
        rw [hv]; rfl
      rw [this]
      show (if _ then _ else _) = _
      rw [if_neg e, if_pos rfl]
    · have : ((some a).bind fun b => (b.value "format").or (configName (some a))) = some "yaml".toList := by
        show (a.value "format").or _ = _
        rw [hv]; rfl
      rw [this]
      show (if _ then _ else _) = _
      rw [if_pos rfl]
  · show (a.value "config").or _ = _
    rcases h.file with hv | ⟨hv, rfl⟩ <;> rw [hv] <;> rfl
  · show (a.value "config").getD _ = _
    rcases h.file with hv | ⟨hv, rfl⟩ <;> rw [hv] <;> rfl

theorem Args.Names.unique {a : Args} {f fmt f' fmt'} (h : a.Names f fmt) (h' : a.Names f' fmt') : f = f' ∧ fmt = fmt' := by
  obtain ⟨h1, h2, _⟩ := h.reads
  obtain ⟨h1', h2', _⟩ := h'.reads
  rw [h1] at h1'; rw [h2] at h2'
  simp at h1' h2'
  exact ⟨h2', h1'⟩

/-- The command lines there are. -/
theorem possible_cases {m : Matches} (h : Possible declared m) : m = [] ∨ ∃ a f fmt, a.Names f fmt ∧
    (m = [("process", a)] ∨ m = [("graph", a)] ∨ m = [("config", a)] ∨
     (∃ n b, n ∈ ["empty", "lint", "manipulate", "faucet", "regulator", "drain", "connection", "launch"] ∧ m = [("config", a), (n, b)]) ∨
     (∃ n b k c, m = [("config", a), (n, b), (k, c)] ∧
       ((n = "faucet" ∧ k = "source" ∧ ∃ s, c.value "SOURCE" = some s) ∨
        (n = "regulator" ∧ k = "watermark" ∧ (∃ s, c.value "MIN" = some s) ∧ ∃ s, c.value "MAX" = some s) ∨
        (n = "drain" ∧ k = "destination" ∧ ∃ s, c.value "DESTINATION" = some s) ∨
        (n = "connection" ∧ k = "join" ∧ ∃ s, c.value "JOIN" = some s) ∨
        (n = "connection" ∧ k = "del") ∨
        (n = "launch" ∧ k = "command" ∧ ∃ s, c.value "COMMAND" = some s) ∨
        (n = "launch" ∧ k = "args" ∧ ∃ s, c.values "ARGS" = some s) ∨
        (n = "launch" ∧ k = "env" ∧ ∃ s, c.values "ENV" = some s) ∨
        (n = "launch" ∧ k = "path" ∧ ∃ s, c.value "PATH" = some s)))) := by
  have none : ∀ {m}, Possible [] m → m = [] := by
    intro m h
    cases h with
    | stop => rfl
    | step mem => cases mem
  cases h with
  | stop => exact Or.inl rfl
  | @step _ c a m mem fits rest =>
    right
    simp only [declared, List.mem_cons, List.not_mem_nil, or_false] at mem
    rcases mem with rfl | rfl | rfl
    · obtain ⟨f, fmt, hn⟩ := names_of_format (fits formatArg (by simp [Command.args]))
      obtain rfl := none rest
      exact ⟨a, f, fmt, hn, Or.inl rfl⟩
    · obtain ⟨f, fmt, hn⟩ := names_of_format (fits formatArg (by simp [Command.args]))
      obtain rfl := none rest
      exact ⟨a, f, fmt, hn, Or.inr (Or.inl rfl)⟩
    · obtain ⟨f, fmt, hn⟩ := names_of_format (fits formatArg (by simp [Command.args]))
      refine ⟨a, f, fmt, hn, Or.inr (Or.inr ?_)⟩
      cases rest with
      | stop => exact Or.inl rfl
      | @step _ c b m mem _ rest =>
        right
        simp only [Command.subs, List.mem_cons, List.not_mem_nil, or_false] at mem
        rcases mem with rfl | rfl | rfl | rfl | rfl | rfl | rfl | rfl
        · obtain rfl := none rest; exact Or.inl ⟨_, b, by simp [Command.name], rfl⟩
        · obtain rfl := none rest; exact Or.inl ⟨_, b, by simp [Command.name], rfl⟩
        · obtain rfl := none rest; exact Or.inl ⟨_, b, by simp [Command.name], rfl⟩
        · cases rest with
          | stop => exact Or.inl ⟨_, b, by simp [Command.name], rfl⟩
          | @step _ c' b' m mem fits rest =>
            right
            simp only [Command.subs, List.mem_cons, List.not_mem_nil, or_false] at mem
            subst mem
            obtain rfl := none rest
            exact ⟨"faucet", b, _, b', rfl, Or.inl ⟨rfl, rfl, value_single (fits _ (List.mem_cons_self ..))⟩⟩
        · cases rest with
          | stop => exact Or.inl ⟨_, b, by simp [Command.name], rfl⟩
          | @step _ c' b' m mem fits rest =>
            right
            simp only [Command.subs, List.mem_cons, List.not_mem_nil, or_false] at mem
            subst mem
            obtain rfl := none rest
            exact ⟨"regulator", b, _, b', rfl, Or.inr (Or.inl ⟨rfl, rfl, value_single (fits _ (List.mem_cons_self ..)), value_single (fits _ (List.mem_cons_of_mem _ (List.mem_cons_self ..)))⟩)⟩
        · cases rest with
          | stop => exact Or.inl ⟨_, b, by simp [Command.name], rfl⟩
          | @step _ c' b' m mem fits rest =>
            right
            simp only [Command.subs, List.mem_cons, List.not_mem_nil, or_false] at mem
            subst mem
            obtain rfl := none rest
            exact ⟨"drain", b, _, b', rfl, Or.inr (Or.inr (Or.inl ⟨rfl, rfl, value_single (fits _ (List.mem_cons_self ..))⟩))⟩
        · cases rest with
          | stop => exact Or.inl ⟨_, b, by simp [Command.name], rfl⟩
          | @step _ c' b' m mem fits rest =>
            right
            simp only [Command.subs, List.mem_cons, List.not_mem_nil, or_false] at mem
            rcases mem with rfl | rfl
            · obtain rfl := none rest
              exact ⟨"connection", b, _, b', rfl, Or.inr (Or.inr (Or.inr (Or.inl ⟨rfl, rfl, value_single (fits _ (List.mem_cons_self ..))⟩)))⟩
            · obtain rfl := none rest
              exact ⟨"connection", b, _, b', rfl, Or.inr (Or.inr (Or.inr (Or.inr (Or.inl ⟨rfl, rfl⟩))))⟩
        · cases rest with
          | stop => exact Or.inl ⟨_, b, by simp [Command.name], rfl⟩
          | @step _ c' b' m mem fits rest =>
            right
            simp only [Command.subs, List.mem_cons, List.not_mem_nil, or_false] at mem
            rcases mem with rfl | rfl | rfl | rfl
            · obtain rfl := none rest
              exact ⟨"launch", b, _, b', rfl, Or.inr (Or.inr (Or.inr (Or.inr (Or.inr (Or.inl ⟨rfl, rfl, value_single (fits _ (List.mem_cons_self ..))⟩)))))⟩
            · obtain rfl := none rest
              exact ⟨"launch", b, _, b', rfl, Or.inr (Or.inr (Or.inr (Or.inr (Or.inr (Or.inr (Or.inl ⟨rfl, rfl, values_several (fits _ (List.mem_cons_self ..))⟩))))))⟩
            · obtain rfl := none rest
              exact ⟨"launch", b, _, b', rfl, Or.inr (Or.inr (Or.inr (Or.inr (Or.inr (Or.inr (Or.inr (Or.inl ⟨rfl, rfl, values_several (fits _ (List.mem_cons_self ..))⟩)))))))⟩
            · obtain rfl := none rest
              exact ⟨"launch", b, _, b', rfl, Or.inr (Or.inr (Or.inr (Or.inr (Or.inr (Or.inr (Or.inr (Or.inr ⟨rfl, rfl, value_single (fits _ (List.mem_cons_self ..))⟩)))))))⟩

theorem standardOpts_of {a b : Args} {f fmt} (h : a.Names f fmt) (n : String) :
    standardOpts (some a) (some b) (some n) = match b.value "id" with
      | some id => .ok ⟨id, f, fmt⟩
      | none => .error ("You need to specify an id for the '".toList ++ n.toList ++ "'".toList) := by
  obtain ⟨h1, h2, _⟩ := h.reads
  unfold standardOpts
  rw [h1, h2]
  show (match some f, b.value "id", some n with
    | some configIn, some id, _ => _
    | _, none, some n => _
    | _, none, none => _
    | none, some _, _ => _) = _
  cases b.value "id" <;> rfl

/-- An edit without an id is refused. -/
theorem userAction_three {quote : Str → Str} {a b c : Args} {f fmt} (h : a.Names f fmt) (n k : String) (hid : b.value "id" = none) :
    userAction quote [("config", a), (n, b), (k, c)] = .asked (.error ("The command ".toList ++ quoteAll quote ["config".toList, n.toList, k.toList] ++ " requires further sub commands".toList)) := by
  have hb := standardOpts_of (b := b) h n
  rw [hid] at hb
  simp only [userAction, List.head?_cons, Option.map_some, List.getElem?_cons_succ, List.getElem?_cons_zero, hb, List.map_cons, List.map_nil]
  split <;> simp_all

/-- What the action is, for command lines of three words. -/
theorem userAction_edit {quote : Str → Str} {a b c : Args} {f fmt id} (h : a.Names f fmt) (hid : b.value "id" = some id) :
    userAction quote [("config", a), ("connection", b), ("join", c)] = .asked (orMissing ((c.value "JOIN").map (.connectionJoin ⟨id, f, fmt⟩))) ∧
    userAction quote [("config", a), ("drain", b), ("destination", c)] = .asked (orMissing ((c.value "DESTINATION").map (.drainDst ⟨id, f, fmt⟩))) ∧
    userAction quote [("config", a), ("faucet", b), ("source", c)] = .asked (orMissing ((c.value "SOURCE").map (.faucetSrc ⟨id, f, fmt⟩))) ∧
    userAction quote [("config", a), ("regulator", b), ("watermark", c)] = .asked (orMissing (match (c.value "MIN").bind parseUsize, (c.value "MAX").bind parseUsize with
      | some x, some y => some (.regulatorWatermark ⟨id, f, fmt⟩ x y)
      | _, _ => none)) ∧
    userAction quote [("config", a), ("launch", b), ("command", c)] = .asked (orMissing ((c.value "COMMAND").map (.launchCommand ⟨id, f, fmt⟩))) ∧
    userAction quote [("config", a), ("launch", b), ("path", c)] = .asked (orMissing ((c.value "PATH").map (.launchPath ⟨id, f, fmt⟩))) ∧
    userAction quote [("config", a), ("launch", b), ("args", c)] = .asked (.ok (.launchArgs ⟨id, f, fmt⟩ ((c.values "ARGS").getD []))) ∧
    userAction quote [("config", a), ("launch", b), ("env", c)] = .asked (orMissing ((parseEnv ((c.values "ENV").getD [])).map (.launchEnv ⟨id, f, fmt⟩))) ∧
    (∃ e, userAction quote [("config", a), ("connection", b), ("del", c)] = .asked (.error e)) := by
  have hb := fun n => standardOpts_of (b := b) h n
  simp only [hid] at hb
  refine ⟨?_, ?_, ?_, ?_, ?_, ?_, ?_, ?_, ?_⟩
  all_goals
    simp only [userAction, List.head?_cons, Option.map_some, List.getElem?_cons_succ, List.getElem?_cons_zero, hb, List.map_cons, List.map_nil]
    first
      | rfl
      | exact ⟨_, rfl⟩

/-- What the action is, for command lines of one or two words. -/
theorem userAction_short {quote : Str → Str} {a b : Args} {f fmt} (h : a.Names f fmt) :
    userAction quote [("process", a)] = .asked (.ok (.process f fmt)) ∧
    userAction quote [("graph", a)] = .asked (.ok (.graph f fmt (graphMode (some a)))) ∧
    userAction quote [("config", a), ("lint", b)] = .asked (.ok (.configLintShow f fmt)) ∧
    userAction quote [("config", a), ("manipulate", b)] = .asked (.ok (.manipulate f fmt)) ∧
    (∃ e, userAction quote [("config", a)] = .asked (.error e)) ∧
    ∀ n ∈ ["empty", "faucet", "regulator", "drain", "connection", "launch"], ∃ e, userAction quote [("config", a), (n, b)] = .asked (.error e) := by
  obtain ⟨h1, h2, h3⟩ := h.reads
  refine ⟨?_, ?_, ?_, ?_, ?_, ?_⟩
  · simp only [userAction, List.head?_cons, Option.map_some, List.map_cons, List.map_nil, h1, h3]; rfl
  · simp only [userAction, List.head?_cons, Option.map_some, List.map_cons, List.map_nil, h1, h3]; rfl
  · simp only [userAction, List.head?_cons, Option.map_some, List.map_cons, List.map_nil, h1, h3]; rfl
  · simp only [userAction, List.head?_cons, Option.map_some, List.map_cons, List.map_nil, h1, h3]; rfl
  · simp only [userAction, List.head?_cons, Option.map_some, List.map_cons, List.map_nil]; exact ⟨_, rfl⟩
  · intro n hn
    simp only [List.mem_cons, List.not_mem_nil, or_false] at hn
    rcases hn with rfl | rfl | rfl | rfl | rfl | rfl <;>
      simp only [userAction, List.head?_cons, Option.map_some, List.map_cons, List.map_nil] <;> exact ⟨_, rfl⟩

theorem asks_graph {a : Args} {f fmt} (h : a.Names f fmt) : Asks [("graph", a)] (.graph f fmt (graphMode (some a))) := by
  have e : graphMode (some a) = match decide (a.count "legend-only" > 0), decide (a.count "diagram-only" > 0) with
      | true, false => .legendOnly (decide (a.count "legend-border" > 0))
      | false, true => .diagramOnly
      | _, _ => .full (decide (a.count "legend-border" > 0)) := rfl
  by_cases h1 : a.count "legend-only" = 0 <;> by_cases h2 : a.count "diagram-only" = 0
  · have := Asks.full h (iff_of_true h1 h2)
    rw [e]; simpa [h1, h2] using this
  · have := Asks.diagram h h1 h2
    rw [e, decide_eq_false (by omega : ¬ a.count "legend-only" > 0), decide_eq_true (by omega : a.count "diagram-only" > 0)]; exact this
  · have := Asks.legend h h1 h2
    rw [e, decide_eq_true (by omega : a.count "legend-only" > 0), decide_eq_false (by omega : ¬ a.count "diagram-only" > 0)]; exact this
  · have := Asks.full h (iff_of_false h1 h2)
    rw [e, decide_eq_true (by omega : a.count "legend-only" > 0), decide_eq_true (by omega : a.count "diagram-only" > 0)]; exact this

theorem orMissing_ok {α : Type} {x : Option α} {r : α} : orMissing x = .ok r ↔ x = some r := by cases x <;> simp [orMissing]

/-- What is lacking is told from what is asked. -/
theorem possible_split {quote : Str → Str} {m : Matches} (hpos : Possible declared m) :
    (∃ r, userAction quote m = .asked (.ok r) ∧ Asks m r) ∨ (Lacking m ∧ (userAction quote m = .exit ∨ ∃ e, userAction quote m = .asked (.error e))) := by
  replace hpos := possible_cases hpos
  rcases hpos with rfl | ⟨a, f, fmt, hn, h⟩
  · exact Or.inr ⟨.nothing, Or.inl rfl⟩
  · rcases h with rfl | rfl | rfl | ⟨n, b, hm, rfl⟩ | ⟨n, b, k, c, rfl, h⟩
    · exact Or.inl ⟨_, (userAction_short (b := a) hn).1, .process hn⟩
    · exact Or.inl ⟨_, (userAction_short (b := a) hn).2.1, asks_graph hn⟩
    · exact Or.inr ⟨.config, Or.inr (userAction_short (b := a) hn).2.2.2.2.1⟩
    · obtain ⟨_, _, h3, h4, _, h6⟩ := userAction_short (quote := quote) (b := b) hn
      simp only [List.mem_cons, List.not_mem_nil, or_false] at hm
      rcases hm with rfl | rfl | rfl | hm
      · exact Or.inr ⟨.empty, Or.inr (h6 _ (by simp))⟩
      · exact Or.inl ⟨_, h3, .lint hn⟩
      · exact Or.inl ⟨_, h4, .manipulate hn⟩
      · refine Or.inr ⟨.part (by simpa using hm), Or.inr (h6 _ ?_)⟩
        simp only [List.mem_cons, List.not_mem_nil, or_false]; exact Or.inr hm
    · cases hid : b.value "id" with
      | none => exact Or.inr ⟨.id hid, Or.inr ⟨_, userAction_three hn n k hid⟩⟩
      | some id =>
        obtain ⟨e1, e2, e3, e4, e5, e6, e7, e8, e9⟩ := userAction_edit (quote := quote) (c := c) hn hid
        rcases h with ⟨rfl, rfl, s, hs⟩ | ⟨rfl, rfl, ⟨s, hs⟩, t, ht⟩ | ⟨rfl, rfl, s, hs⟩ | ⟨rfl, rfl, s, hs⟩ | ⟨rfl, rfl⟩ | ⟨rfl, rfl, s, hs⟩ | ⟨rfl, rfl, l, hl⟩ |
          ⟨rfl, rfl, l, hl⟩ | ⟨rfl, rfl, s, hs⟩
        · exact Or.inl ⟨_, by rw [e3, hs]; rfl, .source hn hid hs⟩
        · cases hx : parseUsize s with
          | none =>
            refine Or.inr ⟨.low hs fun x hw => ?_, Or.inr ⟨missingValues, by rw [e4, hs]; simp [hx, orMissing]⟩⟩
            rw [← parseUsize_iff, hx] at hw; simp at hw
          | some x => cases hy : parseUsize t with
            | none =>
              refine Or.inr ⟨.high ht fun x hw => ?_, Or.inr ⟨missingValues, by rw [e4, ht]; simp [hy, orMissing]⟩⟩
              rw [← parseUsize_iff, hy] at hw; simp at hw
            | some y => exact Or.inl ⟨_, by rw [e4, hs, ht]; simp [hx, hy, orMissing], .watermark hn hid hs ht ((parseUsize_iff _ _).mp hx) ((parseUsize_iff _ _).mp hy)⟩
        · exact Or.inl ⟨_, by rw [e2, hs]; rfl, .destination hn hid hs⟩
        · exact Or.inl ⟨_, by rw [e1, hs]; rfl, .join hn hid hs⟩
        · exact Or.inr ⟨.del, Or.inr e9⟩
        · exact Or.inl ⟨_, by rw [e5, hs]; rfl, .command hn hid hs⟩
        · exact Or.inl ⟨_, by rw [e7, hl]; rfl, .args hn hid hl⟩
        · cases hp : parseEnv l with
          | none =>
            have := mt (C50_accepted l).mpr (by rw [hp]; simp)
            simp only [Classical.not_forall] at this
            obtain ⟨x, hx, hbad⟩ := this
            refine Or.inr ⟨.unset hl hx fun n v e => ?_, Or.inr ⟨missingValues, by rw [e8, hl]; simp [hp, orMissing]⟩⟩
            by_cases h1 : '=' ∈ n
            · exact Or.inl h1
            · refine Or.inr (Classical.byContradiction fun h2 => hbad ⟨n, v, e, h1, h2⟩)
          | some m => exact Or.inl ⟨_, by rw [e8, hl]; simp [hp, orMissing], .env hn hid hl (parseEnv_writes hp)⟩
        · exact Or.inl ⟨_, by rw [e6, hs]; rfl, .path hn hid hs⟩

theorem WritesNumber.unique {s : Str} {x y : Nat} (h : WritesNumber s x) (h' : WritesNumber s y) : x = y := by
  rw [← parseUsize_iff] at h h'; rw [h] at h'; simpa using h'

theorem lacking_cases {m : Matches} (h : Lacking m) : m = [] ∨ (∃ a, m = [("config", a)]) ∨
    (∃ a n b, n ∈ ["faucet", "regulator", "drain", "connection", "launch", "empty"] ∧ m = [("config", a), (n, b)]) ∨
    (∃ a n b k c, m = [("config", a), (n, b), (k, c)] ∧ (b.value "id" = none ∨ n = "connection" ∧ k = "del" ∨
      (k = "watermark" ∧ ∃ s, (c.value "MIN" = some s ∨ c.value "MAX" = some s) ∧ ∀ x, ¬ WritesNumber s x) ∨
      (k = "env" ∧ ∃ l s, c.values "ENV" = some l ∧ s ∈ l ∧ ∀ n v, s = n ++ '=' :: v → '=' ∈ n ∨ n = []))) := by
  cases h with
  | nothing => exact Or.inl rfl
  | config => exact Or.inr (Or.inl ⟨_, rfl⟩)
  | part h =>
    refine Or.inr (Or.inr (Or.inl ⟨_, _, _, ?_, rfl⟩))
    simp only [List.mem_cons, List.not_mem_nil, or_false] at h ⊢
    rcases h with h | h | h | h | h <;> simp [h]
  | empty => exact Or.inr (Or.inr (Or.inl ⟨_, _, _, by simp, rfl⟩))
  | del => exact Or.inr (Or.inr (Or.inr ⟨_, _, _, _, _, rfl, Or.inr (Or.inl ⟨rfl, rfl⟩)⟩))
  | id h => exact Or.inr (Or.inr (Or.inr ⟨_, _, _, _, _, rfl, Or.inl h⟩))
  | low h hb => exact Or.inr (Or.inr (Or.inr ⟨_, _, _, _, _, rfl, Or.inr (Or.inr (Or.inl ⟨rfl, _, Or.inl h, hb⟩))⟩))
  | high h hb => exact Or.inr (Or.inr (Or.inr ⟨_, _, _, _, _, rfl, Or.inr (Or.inr (Or.inl ⟨rfl, _, Or.inr h, hb⟩))⟩))
  | unset h hs hb => exact Or.inr (Or.inr (Or.inr ⟨_, _, _, _, _, rfl, Or.inr (Or.inr (Or.inr ⟨rfl, _, _, h, hs, hb⟩))⟩))

theorem lacking_three {a b c : Args} {n k : String} (h : Lacking [("config", a), (n, b), (k, c)]) : b.value "id" = none ∨ n = "connection" ∧ k = "del" ∨
      (k = "watermark" ∧ ∃ s, (c.value "MIN" = some s ∨ c.value "MAX" = some s) ∧ ∀ x, ¬ WritesNumber s x) ∨
      (k = "env" ∧ ∃ l s, c.values "ENV" = some l ∧ s ∈ l ∧ ∀ n v, s = n ++ '=' :: v → '=' ∈ n ∨ n = []) := by
  rcases lacking_cases h with h | ⟨_, h⟩ | ⟨_, _, _, _, h⟩ | ⟨_, _, _, _, _, h, h'⟩
  · simp at h
  · simp at h
  · simp at h
  · simp at h
    obtain ⟨_, ⟨rfl, rfl⟩, rfl, rfl⟩ := h
    exact h'

/-- A command line does not both ask and lack something. -/
theorem asks_not_lacking {m : Matches} {r} (h : Asks m r) (hl : Lacking m) : False := by
  cases h with
  | watermark hn hid hs ht hx hy =>
    have := lacking_three hl
    simp [hid] at this
    obtain ⟨s, h | h, hb⟩ := this
    · rw [hs] at h; simp at h; subst h; exact hb _ hx
    · rw [ht] at h; simp at h; subst h; exact hb _ hy
  | env hn hid hv hw =>
    have := lacking_three hl
    simp [hid, hv] at this
    obtain ⟨s, hs, hb⟩ := this
    obtain ⟨n, v, e, h1, h2⟩ := hw.1 _ hs
    rcases hb n v e with h | h
    · exact h1 h
    · exact h2 h
  | source hn hid => have := lacking_three hl; simp [hid] at this
  | destination hn hid => have := lacking_three hl; simp [hid] at this
  | join hn hid => have := lacking_three hl; simp [hid] at this
  | command hn hid => have := lacking_three hl; simp [hid] at this
  | path hn hid => have := lacking_three hl; simp [hid] at this
  | args hn hid => have := lacking_three hl; simp [hid] at this
  | lint =>
    rcases lacking_cases hl with h | ⟨_, h⟩ | ⟨_, _, _, h', h⟩ | ⟨_, _, _, _, _, h, h'⟩
    · simp at h
    · simp at h
    · simp at h; simp [← h.2.1] at h'
    · simp at h
  | manipulate =>
    rcases lacking_cases hl with h | ⟨_, h⟩ | ⟨_, _, _, h', h⟩ | ⟨_, _, _, _, _, h, h'⟩
    · simp at h
    · simp at h
    · simp at h; simp [← h.2.1] at h'
    · simp at h
  | _ =>
    rcases lacking_cases hl with h | ⟨_, h⟩ | ⟨_, _, _, h', h⟩ | ⟨_, _, _, _, _, h, h'⟩ <;> simp at h

/-- **C72** What is done is what the command line asks for. -/
theorem C72_asked {quote : Str → Str} {m : Matches} (h : Possible declared m) {r} (hr : userAction quote m = .asked (.ok r)) : Asks m r := by
  rcases possible_split (quote := quote) h with ⟨r', h1, h2⟩ | ⟨_, h1 | ⟨e, h1⟩⟩
  · rw [hr] at h1; simp at h1; exact h1 ▸ h2
  · rw [hr] at h1; simp at h1
  · rw [hr] at h1; simp at h1

/-- **C72** Every possible command line either asks for something, and that is done, or lacks something, and is refused; never both. -/
theorem C72_refused {quote : Str → Str} {m : Matches} (h : Possible declared m) :
    ((∃ r, Asks m r) ↔ ∃ r, userAction quote m = .asked (.ok r)) ∧ ((∃ r, Asks m r) ↔ ¬ Lacking m) := by
  rcases possible_split (quote := quote) h with ⟨r, h1, h2⟩ | ⟨hl, h1⟩
  · exact ⟨iff_of_true ⟨r, h2⟩ ⟨r, h1⟩, iff_of_true ⟨r, h2⟩ fun hl => asks_not_lacking h2 hl⟩
  · refine ⟨iff_of_false (fun ⟨r, h⟩ => asks_not_lacking h hl) ?_, iff_of_false (fun ⟨r, h⟩ => asks_not_lacking h hl) (fun hn => hn hl)⟩
    rintro ⟨r, hr⟩
    rcases h1 with h1 | ⟨e, h1⟩ <;> rw [hr] at h1 <;> simp at h1

theorem map_perm_of_get {α : Type} : ∀ {m m' : Map α}, m.keys.Nodup → m'.keys.Nodup → (∀ k v, m.get k = some v ↔ m'.get k = some v) → m.Perm m' := by
  intro m m' h h' hg
  have nd : ∀ {m : Map α}, m.keys.Nodup → m.Nodup := fun {m} h => List.Pairwise.imp (fun h e => h (by rw [e])) (List.pairwise_map.mp h)
  refine (List.perm_ext_iff_of_nodup (nd h) (nd h')).mpr ?_
  rintro ⟨k, v⟩
  rw [mem_iff_get h, mem_iff_get h']
  exact hg k v

theorem WritesEnv.perm {l : List Str} {m m' : Map Str} (h : WritesEnv l m) (h' : WritesEnv l m') : m.Perm m' :=
  map_perm_of_get h.2.1 h'.2.1 fun k v => (h.2.2 k v).trans (h'.2.2 k v).symm

/-- **C72** What a command line asks for is done. -/
theorem C72_understood {quote : Str → Str} {m : Matches} {r} (h : Asks m r) : ∃ r', userAction quote m = .asked (.ok r') ∧ r.Same r' := by
  have graph : ∀ {a f fmt mode}, Args.Names a f fmt → graphMode (some a) = mode → ∃ r', userAction quote [("graph", a)] = .asked (.ok r') ∧ (UserRequest.graph f fmt mode).Same r' := by
    rintro a f fmt mode hn rfl
    exact ⟨_, (userAction_short (b := a) hn).2.1, rfl⟩
  have pos : ∀ {n : Nat}, n ≠ 0 → decide (n > 0) = true := fun h => decide_eq_true (by omega)
  have neg : ∀ {n : Nat}, n = 0 → decide (n > 0) = false := fun h => decide_eq_false (by omega)
  have mode : ∀ a : Args, graphMode (some a) = match decide (a.count "legend-only" > 0), decide (a.count "diagram-only" > 0) with
      | true, false => .legendOnly (decide (a.count "legend-border" > 0))
      | false, true => .diagramOnly
      | _, _ => .full (decide (a.count "legend-border" > 0)) := fun _ => rfl
  cases h with
  | process hn => exact ⟨_, (userAction_short (b := ⟨fun _ => none, fun _ => 0⟩) hn).1, rfl⟩
  | lint hn => exact ⟨_, (userAction_short hn).2.2.1, rfl⟩
  | manipulate hn => exact ⟨_, (userAction_short hn).2.2.2.1, rfl⟩
  | @full a _ _ hn hc =>
    refine graph hn ?_
    rw [mode]
    by_cases h1 : a.count "legend-only" = 0
    · rw [neg h1, neg (hc.mp h1)]
    · rw [pos h1, pos (fun e => h1 (hc.mpr e))]
  | legend hn h1 h2 => exact graph hn (by rw [mode, pos h1, neg h2])
  | diagram hn h1 h2 => exact graph hn (by rw [mode, neg h1, pos h2])
  | @source a b c _ _ _ s hn hid hs => exact ⟨_, by rw [(userAction_edit (c := c) hn hid).2.2.1, hs]; rfl, rfl⟩
  | @destination a b c _ _ _ s hn hid hs => exact ⟨_, by rw [(userAction_edit (c := c) hn hid).2.1, hs]; rfl, rfl⟩
  | @watermark a b c _ _ _ s t x y hn hid hs ht hx hy =>
    refine ⟨_, ?_, rfl⟩
    rw [(userAction_edit (c := c) hn hid).2.2.2.1, hs, ht]
    simp [(parseUsize_iff _ _).mpr hx, (parseUsize_iff _ _).mpr hy, orMissing]
  | @join a b c _ _ _ s hn hid hs => exact ⟨_, by rw [(userAction_edit (c := c) hn hid).1, hs]; rfl, rfl⟩
  | @command a b c _ _ _ s hn hid hs => exact ⟨_, by rw [(userAction_edit (c := c) hn hid).2.2.2.2.1, hs]; rfl, rfl⟩
  | @path a b c _ _ _ s hn hid hs => exact ⟨_, by rw [(userAction_edit (c := c) hn hid).2.2.2.2.2.1, hs]; rfl, rfl⟩
  | @args a b c _ _ _ s hn hid hs => exact ⟨_, by rw [(userAction_edit (c := c) hn hid).2.2.2.2.2.2.1, hs]; rfl, rfl⟩
  | @env a b c _ _ _ l e hn hid hl hw =>
    obtain ⟨m, hm⟩ := (C50_accepted l).mpr hw.1
    exact ⟨.launchEnv _ m, by rw [(userAction_edit (c := c) hn hid).2.2.2.2.2.2.2.1, hl, Option.getD_some, hm]; rfl, rfl, hw.perm (parseEnv_writes hm)⟩

theorem UserRequest.Same.join {r r' s : UserRequest} (h : r.Same s) (h' : r'.Same s) : r.Same r' := by
  cases s <;> cases r <;> cases r' <;> simp_all [UserRequest.Same]
  exact h.2.trans h'.2.symm

/-- **C72** A command line asks for one thing. -/
theorem C72_unambiguous {m : Matches} {r r'} (h : Asks m r) (h' : Asks m r') : r.Same r' := by
  obtain ⟨s, h1, h2⟩ := C72_understood (quote := fun s => s) h
  obtain ⟨s', h1', h2'⟩ := C72_understood (quote := fun s => s) h'
  rw [h1] at h1'
  simp at h1'
  subst h1'
  exact h2.join h2'

/-! ## What is declared or meant but not so -/

/-- Arguments with these values. -/
def argsOf (l : List (String × List Str)) : Args := ⟨fun n => l.lookup n, fun _ => 0⟩

theorem argsOf_config (x : Option Str) (fmt : String) (h : fmt ∈ ["yaml", "json"]) :
    ∀ d ∈ [Declared.option "config", formatArg], d.Fits (argsOf (("format", [fmt.toList]) :: (match x with | some f => [("config", [f])] | none => []))) := by
  intro d hd
  simp only [List.mem_cons, List.not_mem_nil, or_false] at hd
  rcases hd with rfl | rfl
  · cases x with
    | none => exact Or.inl rfl
    | some f => exact Or.inr ⟨f, rfl⟩
  · exact ⟨fmt, h, rfl⟩

/-- **C72** "Every command that is declared can be used": false of `config empty` and `config connection del`, which are refused whatever else is said. -/
theorem C72_declared_refuted :
    (∃ m, Possible declared m ∧ m.map (·.1) = ["config", "empty"]) ∧ (∃ m, Possible declared m ∧ m.map (·.1) = ["config", "connection", "del"]) ∧
    ∀ quote m, Possible declared m → m.map (·.1) = ["config", "empty"] ∨ m.map (·.1) = ["config", "connection", "del"] →
      ∃ e, userAction quote m = .asked (.error e) := by
  have mem : Command.mk "config" [.option "config", formatArg] (declared[2].subs) ∈ declared := List.mem_of_getElem? (i := 2) rfl
  refine ⟨⟨[("config", argsOf [("format", ["yaml".toList])]), ("empty", argsOf [])], ?_, rfl⟩,
    ⟨[("config", argsOf [("format", ["yaml".toList])]), ("connection", argsOf [("id", ["x".toList])]), ("del", argsOf [])], ?_, rfl⟩, ?_⟩
  · refine .step mem (argsOf_config none "yaml" (by simp)) (.step (c := .mk "empty" [] []) (List.mem_of_getElem? (i := 0) rfl) (by simp [Command.args]) .stop)
  · refine .step mem (argsOf_config none "yaml" (by simp)) (.step (c := .mk "connection" [.option "id"] [.mk "join" [.single "JOIN"] [], .mk "del" [] []])
      (List.mem_of_getElem? (i := 6) rfl) ?_ (.step (c := .mk "del" [] []) (List.mem_of_getElem? (i := 1) rfl) (by simp [Command.args]) .stop))
    intro d hd
    simp only [Command.args, List.mem_cons, List.not_mem_nil, or_false] at hd
    subst hd
    exact Or.inr ⟨_, rfl⟩
  · intro quote m hp hm
    have hl : Lacking m := by
      rcases hm with hm | hm
      · match m, hm with
        | [(n, a), (k, b)], hm =>
          simp at hm
          obtain ⟨rfl, rfl⟩ := hm
          exact .empty
      · match m, hm with
        | [(n, a), (k, b), (j, c)], hm =>
          simp at hm
          obtain ⟨rfl, rfl, rfl⟩ := hm
          exact .del
    rcases possible_split (quote := quote) hp with ⟨r, _, h⟩ | ⟨_, h | h⟩
    · exact absurd hl (asks_not_lacking h)
    · exfalso
      rcases possible_cases hp with rfl | ⟨a, f, fmt, hn, _⟩
      · simp at hm
      · unfold userAction at h
        rcases hm with hm | hm <;> simp only [hm] at h <;> split at h <;> simp_all
    · exact h

/-- **C72** "Without `--format` the format is told from the ending of the file name" (pa2.rs:266-270): false, the default of `--format` is always there. -/
theorem C72_extension_refuted (file : Str) : ∃ m, Possible declared m ∧
    (∃ a, m = [("process", a)] ∧ a.value "config" = some file ∧ a.value "format" = some "yaml".toList) ∧
    ∀ quote, userAction quote m = .asked (.ok (.process file .yaml)) := by
  refine ⟨[("process", argsOf [("format", ["yaml".toList]), ("config", [file])])], ?_, ⟨_, rfl, rfl, rfl⟩, ?_⟩
  · exact .step (c := .mk "process" [.option "config", formatArg] []) (List.mem_of_getElem? (i := 0) rfl) (argsOf_config (some file) "yaml" (by simp)) .stop
  · intro quote
    exact (userAction_short (b := argsOf []) ⟨Or.inl rfl, Or.inr ⟨rfl, rfl⟩⟩).1

/-- A line that asks for something. -/
example : Asks [("config", argsOf [("format", ["json".toList])]), ("regulator", argsOf [("id", ["r".toList])]), ("watermark", argsOf [("MIN", ["+10".toList]), ("MAX", ["007".toList])])]
    (.regulatorWatermark ⟨"r".toList, "-".toList, .json⟩ 10 7) :=
  .watermark ⟨Or.inr ⟨rfl, rfl⟩, Or.inl ⟨rfl, rfl⟩⟩ rfl rfl rfl
    ⟨"10".toList, Or.inr rfl, by decide, by decide, by decide, by decide⟩ ⟨"007".toList, Or.inl rfl, by decide, by decide, by decide, by decide⟩

/-- **C72** "An edit that does not say of whom it speaks is told to give an id" (pa2.rs:291): false, it is told that further sub commands are required. -/
theorem C72_id_refuted {quote : Str → Str} {a b c : Args} {f fmt} (hn : a.Names f fmt) (hid : b.value "id" = none) (n k : String) :
    standardOpts (some a) (some b) (some n) = .error ("You need to specify an id for the '".toList ++ n.toList ++ "'".toList) ∧
    userAction quote [("config", a), (n, b), (k, c)] = .asked (.error ("The command ".toList ++ quoteAll quote ["config".toList, n.toList, k.toList] ++ " requires further sub commands".toList)) :=
  ⟨by rw [standardOpts_of hn, hid], userAction_three hn n k hid⟩

end Verif
