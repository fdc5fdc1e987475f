import Verif.Model.Main
/-!
# `/repo/src/bin/pa2.rs`: the declared commands
-/
namespace Verif

/-- An argument as declared: an option with a value, an option with a default and a choice of values, a flag, a required value, one or more required values. -/
inductive Declared where
  | option (name : String)
  | choice (name : String) (dflt : String) (possible : List String)
  | flag (name : String)
  | single (name : String)
  | several (name : String)
  deriving Repr, DecidableEq

inductive Command where
  | mk (name : String) (args : List Declared) (subs : List Command)
  deriving Repr

def Command.name : Command → String
  | .mk n _ _ => n
def Command.args : Command → List Declared
  | .mk _ a _ => a
def Command.subs : Command → List Command
  | .mk _ _ s => s

/-- pa2.rs:47-55 `config_format` -/
def formatArg : Declared := .choice "format" "yaml" ["yaml", "json"]

/-- pa2.rs:19-158 `get_clap_app`: names and arguments; help texts are left out. `id` is declared as not required. -/
def declared : List Command :=
  [.mk "process" [.option "config", formatArg] [],
   .mk "graph" [.option "config", .flag "diagram-only", .flag "legend-only", .flag "legend-border", formatArg] [],
   .mk "config" [.option "config", formatArg]
    [.mk "empty" [] [],
     .mk "lint" [] [],
     .mk "manipulate" [] [],
     .mk "faucet" [.option "id"] [.mk "source" [.single "SOURCE"] []],
     .mk "regulator" [.option "id"] [.mk "watermark" [.single "MIN", .single "MAX"] []],
     .mk "drain" [.option "id"] [.mk "destination" [.single "DESTINATION"] []],
     .mk "connection" [.option "id"] [.mk "join" [.single "JOIN"] [], .mk "del" [] []],
     .mk "launch" [.option "id"]
      [.mk "command" [.single "COMMAND"] [], .mk "args" [.several "ARGS"] [], .mk "env" [.several "ENV"] [], .mk "path" [.single "PATH"] []]]]

end Verif
