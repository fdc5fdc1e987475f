import Verif.Model.Waiter
/-!
# `launch.rs`: the command a program is started with

Starting itself is the operating system's; here is what it is asked for.
-/
namespace Verif

/-- What the process of pipeawesome has itself: its directory, unless `std::env::current_dir` fails, and its environment. -/
structure Host where
  dir : Option Str
  vars : Map Str

/-- `async_std::process::Command` as far as it is used here. `vars` is what is set on top of what the new process inherits; the streams are piped, or else `null`. -/
structure Cmd where
  program : Str
  args : List Str
  dir : Option Str
  vars : Map Str
  stdin : Bool
  stdout : Bool
  stderr : Bool
  deriving Repr, DecidableEq

/-- `Command::new`; what the streams are at first does not matter as all are set. -/
def Cmd.new (program : Str) : Cmd := ⟨program, [], none, [], false, false, false⟩

/-- `Command::envs`: sets one after the other -/
def Cmd.envs (c : Cmd) (vars : Map Str) : Cmd := { c with vars := vars.foldl (fun m x => m.put x.1 x.2) c.vars }

/-- `Command::args`: adds to those there -/
def Cmd.addArgs (c : Cmd) (args : List Str) : Cmd := { c with args := c.args ++ args }

/-- `Command::current_dir` -/
def Cmd.currentDir (c : Cmd) (dir : Str) : Cmd := { c with dir := some dir }

/-- launch.rs:130-134 -/
def Cmd.withDir (c : Cmd) (h : Host) (path : Option Str) : Cmd :=
  match path, h.dir with
  | some p, _ => c.currentDir p
  | none, some p => c.currentDir p
  | none, none => c

/-- launch.rs:136-139 -/
def Cmd.withPath (c : Cmd) (path : Option Str) : Cmd :=
  match path with
  | some p => c.currentDir p
  | none => c

/-- launch.rs:141-144 -/
def Cmd.withEnv (c : Cmd) (h : Host) (env : Option (Map Str)) : Cmd :=
  match env with
  | some env => c.envs env
  | none => c.envs h.vars

/-- launch.rs:146-148 -/
def Cmd.withArgs (c : Cmd) (args : Option (List Str)) : Cmd :=
  match args with
  | some args => c.addArgs args
  | none => c

/-- launch.rs:128-149 `environment_configure` -/
def Cmd.configure (c : Cmd) (h : Host) (path : Option Str) (env : Option (Map Str)) (args : Option (List Str)) : Cmd :=
  (((c.withDir h path).withPath path).withEnv h env).withArgs args

/-- launch.rs:154-181, up to `spawn`. That it was started before (`launched`) never happens, as nothing sets the field. -/
def Comp.command (h : Host) : Comp → Option Cmd
  | .launch _ env path cmd args inp out err _ =>
    some { (Cmd.new cmd).configure h path env args with stdin := inp.isSome, stdout := out.isSome, stderr := err.isSome }
  | _ => none

/-- What the operating system does with a command, as the standard library documents it: the environment of the new process is that of the old with what is set on top. -/
def Cmd.var (c : Cmd) (h : Host) (k : Str) : Option Str :=
  match c.vars.get k with
  | some v => some v
  | none => h.vars.get k

/-- Likewise the directory. -/
def Cmd.directory (c : Cmd) (h : Host) : Option Str :=
  match c.dir with
  | some d => some d
  | none => h.dir

end Verif
