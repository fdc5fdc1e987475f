import Verif.Spec.Wiring
import Verif.Model.Spawn
/-!
# What a configuration says of how programs are started

Used to state C97.
-/
namespace Verif

/-- The command is as configured, within the process `h`: the program, its arguments in order, the directory if one is given and else that of `h`, and the environment of `h`
with what is given instead. -/
structure AsConfigured (cfg : LaunchConfig) (h : Host) (cmd : Cmd) : Prop where
  program : cfg.command = some cmd.program
  args : cmd.args = cfg.arg
  here : cfg.path = none → cmd.directory h = h.dir
  elsewhere : ∀ p, cfg.path = some p → cmd.directory h = some p
  given : ∀ k v, (k, v) ∈ cfg.env → cmd.var h k = some v
  inherited : ∀ k, k ∉ cfg.env.keys → cmd.var h k = h.vars.get k

/-- Exactly the streams that are used are piped. -/
structure PipedAs (hs : List Hop) (x : Str) (cmd : Cmd) : Prop where
  stdin : cmd.stdin = true ↔ ∃ h ∈ hs, h.to = (.launch, x)
  stdout : cmd.stdout = true ↔ ∃ h ∈ hs, h.src = ⟨.launch, x, .out⟩
  stderr : cmd.stderr = true ↔ ∃ h ∈ hs, h.src = ⟨.launch, x, .err⟩

end Verif
