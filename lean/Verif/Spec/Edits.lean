import Verif.Model.Main
import Verif.Spec.CommandLine
import Verif.Spec.Settings
/-!
# Editing a configuration from the command line, step by step

Used by C73.
-/
namespace Verif

/-- Configurations that say the same, in whatever order components and variables are listed. -/
structure Config.Alike (c c' : Config) : Prop where
  faucet : ∀ n, c.faucet.get n = c'.faucet.get n
  drain : ∀ n, c.drain.get n = c'.drain.get n
  regulator : ∀ n, c.regulator.get n = c'.regulator.get n
  launch : ∀ n, (c.launch.get n).map (fun l => (l.command, l.path, l.arg)) = (c'.launch.get n).map fun l => (l.command, l.path, l.arg)
  env : ∀ n k, (c.launch.get n).bind (·.env.get k) = (c'.launch.get n).bind (·.env.get k)
  connection : c.connection = c'.connection

/-- Values that are the same in whatever order variables are listed. -/
def Value.Alike : Value → Value → Prop
  | .variables m, .variables m' => ∀ k, m.get k = m'.get k
  | v, v' => v = v'

/-- A configuration is found under this name (`-` is standard input) in this format. -/
def Finds (lib : Library) (w : World) (fmt : Format) (name : Str) (c : Config) : Prop :=
  ∃ s d, (name = "-".toList ∧ w.stdin = some s ∨ name ≠ "-".toList ∧ w.file name = some s) ∧
    (fmt = .json ∧ lib.json s = some d ∨ fmt = .yaml ∧ lib.yaml s = some d) ∧ decodeConfig d = some c

/-- The edit that a request is about. -/
inductive Says (lib : Library) : UserRequest → Base → Edit → Prop
  | command {b s} : Says lib (.launchCommand b s) b (.command b.id s)
  | path {b s} : Says lib (.launchPath b s) b (.path b.id s)
  | args {b l} : Says lib (.launchArgs b l) b (.arguments b.id l)
  | env {b m} : Says lib (.launchEnv b m) b (.environment b.id m)
  | source {b s} : Says lib (.faucetSrc b s) b (.source b.id s)
  | destination {b s} : Says lib (.drainDst b s) b (.destination b.id s)
  | watermarks {b x y} : Says lib (.regulatorWatermark b x y) b (.watermarks b.id x y)
  | join {b s d} : convertToDConn lib.json lib.yaml s = some d → Says lib (.connectionJoin b s) b (.connections b.id d)

/-- The JSON writer writes something, and both readers read it back, with the line end after it. -/
structure Library.Faithful (lib : Library) (Writable : Data → Prop) : Prop where
  json : ∀ d, Writable d → lib.json (lib.print d ++ "\n".toList) = some d
  yaml : ∀ d, Writable d → lib.yaml (lib.print d ++ "\n".toList) = some d
  some : ∀ d, lib.print d ≠ []

/-- Commands one after the other, each reading what the one before it has printed: `pa2 … | pa2 … | pa2 …`. Each succeeds. -/
inductive Piped (run : Orders → (Str → Option Str) → Str → Matches → Ending) : List (Orders × (Str → Option Str) × Matches) → Str → Str → Prop
  | nil {s} : Piped run [] s s
  | cons {o files m l s out t} : run o files s m = .exits [out] [] 0 → Piped run l (out ++ "\n".toList) t → Piped run ((o, files, m) :: l) s t

/-- What a setting has come to after edits: the value of the last one about it, or what it was. -/
def LastSaid (before : Value) (es : List Edit) (p : Setting) (after : Value) : Prop :=
  (∃ pre e post, es = pre ++ e :: post ∧ e.place = p ∧ (∀ x ∈ post, x.place ≠ p) ∧ e.value.Alike after) ∨
  ((∀ x ∈ es, x.place ≠ p) ∧ before.Alike after)

end Verif
