import Verif.Model.Serde
/-!
# `/repo/src/bin/pa2.rs`: arguments of the editing commands
-/
namespace Verif

/-- `str::split_once`: at the first occurrence. -/
def splitOnce (c : Char) : Str → Option (Str × Str)
  | [] => none
  | x :: s => if x = c then some ([], s) else (splitOnce c s).map fun p => (x :: p.1, p.2)

/-- bin/pa2.rs:419-428 `as_kv`; `none` is an error. -/
def asKv (s : Str) : Option (Str × Str) :=
  match splitOnce '=' s with
  | none => none
  | some (a, b) => if a = [] then none else some (a, b)

/-- bin/pa2.rs:430-440, the body of the fold -/
def addEnv (hm : Option (Map Str)) (s : Str) : Option (Map Str) :=
  match hm, asKv s with
  | some hm, some (k, v) => some (hm.entry (fun _ => v) v k)
  | _, _ => none

/-- bin/pa2.rs:417-442: all errors end up as the same message, so they are one. -/
def parseEnv (args : List Str) : Option (Map Str) := args.foldl addEnv (some [])

/-- bin/pa2.rs:218-235 `convert_to_deserialized_connection`. `json` and `yaml` read texts; they are any functions. -/
def convertToDConn (json yaml : Str → Option Data) (s : Str) : Option DConn :=
  match loadConnection s with
  | .ok _ => some (.join s)
  | .panic => none
  | .parseError =>
    match (json s).bind decodeConnection with
    | some c => some (.conns [c])
    | none => match (json s).bind (decodeList decodeConnection) with
      | some cs => some (.conns cs)
      | none => match (yaml s).bind decodeConnection with
        | some c => some (.conns [c])
        | none => match (yaml s).bind (decodeList decodeConnection) with
          | some cs => some (.conns cs)
          | none => none

end Verif
