import Verif.Model.Clap
/-!
# Command lines that can be given, and what they ask for

Used by C72–C75.
-/
namespace Verif

/-- What clap makes of an argument with this declaration. -/
def Declared.Fits (a : Args) : Declared → Prop
  | .option n => a.values n = none ∨ ∃ s, a.values n = some [s]
  | .choice n _ ps => ∃ s ∈ ps, a.values n = some [s.toList]
  | .flag _ => True
  | .single n => ∃ s, a.values n = some [s]
  | .several n => ∃ s l, a.values n = some (s :: l)

/-- Command lines that clap lets through: subcommands as declared, one inside the other, with their arguments. One may stop anywhere, since no subcommand is declared
as required. -/
inductive Possible : List Command → Matches → Prop
  | stop {cs} : Possible cs []
  | step {cs} {c : Command} {a : Args} {m : Matches} (mem : c ∈ cs) (fits : ∀ d ∈ c.args, d.Fits a) (rest : Possible c.subs m) : Possible cs ((c.name, a) :: m)

/-- The configuration file and format that a command names: standard input and YAML if nothing is said. -/
structure Args.Names (a : Args) (file : Str) (fmt : Format) : Prop where
  file : a.value "config" = some file ∨ a.value "config" = none ∧ file = "-".toList
  format : a.value "format" = some "json".toList ∧ fmt = .json ∨ a.value "format" = some "yaml".toList ∧ fmt = .yaml

/-- The value of a numeral. -/
def numeral (ds : Str) : Nat := ds.foldl (fun n c => 10 * n + (c.toNat - 48)) 0

/-- A number as it may be written: digits, perhaps after a plus sign, and not too large for 64 bits. -/
def WritesNumber (s : Str) (n : Nat) : Prop :=
  ∃ ds, (s = ds ∨ s = '+' :: ds) ∧ ds ≠ [] ∧ (∀ c ∈ ds, c ∈ "0123456789".toList) ∧ numeral ds = n ∧ n < 2 ^ 64

/-- Settings of environment variables as they are meant: each names a variable, the last one counts. -/
def WritesEnv (args : List Str) (env : Map Str) : Prop :=
  (∀ a ∈ args, ∃ n v, a = n ++ '=' :: v ∧ '=' ∉ n ∧ n ≠ []) ∧ env.keys.Nodup ∧
  ∀ n v, env.get n = some v ↔ ∃ pre post, args = pre ++ (n ++ '=' :: v) :: post ∧ '=' ∉ n ∧ n ≠ [] ∧ ∀ b ∈ post, ∀ v', b ≠ n ++ '=' :: v'

/-- What the commands on a configuration file ask for. -/
inductive Asks : Matches → UserRequest → Prop
  | process {a f fmt} : a.Names f fmt → Asks [("process", a)] (.process f fmt)
  | lint {a b f fmt} : a.Names f fmt → Asks [("config", a), ("lint", b)] (.configLintShow f fmt)
  | manipulate {a b f fmt} : a.Names f fmt → Asks [("config", a), ("manipulate", b)] (.manipulate f fmt)
  | full {a f fmt} : a.Names f fmt → (a.count "legend-only" = 0 ↔ a.count "diagram-only" = 0) →
      Asks [("graph", a)] (.graph f fmt (.full (decide (0 < a.count "legend-border"))))
  | legend {a f fmt} : a.Names f fmt → a.count "legend-only" ≠ 0 → a.count "diagram-only" = 0 →
      Asks [("graph", a)] (.graph f fmt (.legendOnly (decide (0 < a.count "legend-border"))))
  | diagram {a f fmt} : a.Names f fmt → a.count "legend-only" = 0 → a.count "diagram-only" ≠ 0 → Asks [("graph", a)] (.graph f fmt .diagramOnly)
  | source {a b c f fmt id s} : a.Names f fmt → b.value "id" = some id → c.value "SOURCE" = some s →
      Asks [("config", a), ("faucet", b), ("source", c)] (.faucetSrc ⟨id, f, fmt⟩ s)
  | destination {a b c f fmt id s} : a.Names f fmt → b.value "id" = some id → c.value "DESTINATION" = some s →
      Asks [("config", a), ("drain", b), ("destination", c)] (.drainDst ⟨id, f, fmt⟩ s)
  | watermark {a b c f fmt id s t x y} : a.Names f fmt → b.value "id" = some id → c.value "MIN" = some s → c.value "MAX" = some t →
      WritesNumber s x → WritesNumber t y → Asks [("config", a), ("regulator", b), ("watermark", c)] (.regulatorWatermark ⟨id, f, fmt⟩ x y)
  | join {a b c f fmt id s} : a.Names f fmt → b.value "id" = some id → c.value "JOIN" = some s →
      Asks [("config", a), ("connection", b), ("join", c)] (.connectionJoin ⟨id, f, fmt⟩ s)
  | command {a b c f fmt id s} : a.Names f fmt → b.value "id" = some id → c.value "COMMAND" = some s →
      Asks [("config", a), ("launch", b), ("command", c)] (.launchCommand ⟨id, f, fmt⟩ s)
  | path {a b c f fmt id s} : a.Names f fmt → b.value "id" = some id → c.value "PATH" = some s →
      Asks [("config", a), ("launch", b), ("path", c)] (.launchPath ⟨id, f, fmt⟩ s)
  | args {a b c f fmt id l} : a.Names f fmt → b.value "id" = some id → c.values "ARGS" = some l →
      Asks [("config", a), ("launch", b), ("args", c)] (.launchArgs ⟨id, f, fmt⟩ l)
  | env {a b c f fmt id l env} : a.Names f fmt → b.value "id" = some id → c.values "ENV" = some l → WritesEnv l env →
      Asks [("config", a), ("launch", b), ("env", c)] (.launchEnv ⟨id, f, fmt⟩ env)

/-- Requests that are the same but for the order in which variables are listed. -/
def UserRequest.Same : UserRequest → UserRequest → Prop
  | .launchEnv b e, .launchEnv b' e' => b = b' ∧ e.Perm e'
  | r, r' => r = r'

/-- What can be the matter with a command line: it stops before it says what to do, it is one of the two that nobody wrote, it does not say of whom it speaks, or its
numbers or variables are none. -/
inductive Lacking : Matches → Prop
  | nothing : Lacking []
  | config {a} : Lacking [("config", a)]
  | part {a n b} : n ∈ ["faucet", "regulator", "drain", "connection", "launch"] → Lacking [("config", a), (n, b)]
  | empty {a b} : Lacking [("config", a), ("empty", b)]
  | del {a b c} : Lacking [("config", a), ("connection", b), ("del", c)]
  | id {a n b k c} : b.value "id" = none → Lacking [("config", a), (n, b), (k, c)]
  | low {a b c s} : c.value "MIN" = some s → (∀ x, ¬ WritesNumber s x) → Lacking [("config", a), ("regulator", b), ("watermark", c)]
  | high {a b c s} : c.value "MAX" = some s → (∀ x, ¬ WritesNumber s x) → Lacking [("config", a), ("regulator", b), ("watermark", c)]
  | unset {a b c l s} : c.values "ENV" = some l → s ∈ l → (∀ n v, s = n ++ '=' :: v → '=' ∈ n ∨ n = []) → Lacking [("config", a), ("launch", b), ("env", c)]

end Verif
