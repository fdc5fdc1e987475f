import Verif.Model.Settings
/-!
# `/repo/src/config_manip.rs`: from connection sets to hops, junctions and exit drains

`none` is a panic. Vectors are lists, `pop` and `push` work at the end.
-/
namespace Verif

/-- The digits of a number, as `format!("{}", i)` writes them. -/
def natStr (n : Nat) : Str :=
  if h : n < 10 then ["0123456789".toList.getD n '0']
  else natStr (n / 10) ++ ["0123456789".toList.getD (n % 10) '0']
decreasing_by omega

/-- config_manip.rs:17 -/
def indexedKey (base : Str) (i : Nat) : Str := base ++ '_' :: natStr i

/-- config_manip.rs:14-23, the loop from `i` on. Since one of the first `existing.length + 1` candidates is unused, that much fuel is enough (C39). `i` is
an `i32` in the program; here it is unbounded. -/
def newKeyFrom (base : Str) (existing : List Str) : Nat → Nat → Str
  | 0, i => indexedKey base i
  | fuel + 1, i => if existing.contains (indexedKey base i) then newKeyFrom base existing fuel (i + 1) else indexedKey base i

/-- config_manip.rs:14-23 `generate_new_key` -/
def newKey (base : Str) (existing : List Str) : Str := newKeyFrom base existing (existing.length + 1) 1

/-- config_manip.rs:25-28 -/
inductive Apart where
  | single (c : Connection)
  | double (c d : Connection)
  deriving Repr, DecidableEq

/-- config_manip.rs:30-50 -/
def chunker (acc : List Apart) (item : Connection) : List Apart :=
  match acc.getLast? with
  | none => [.single item]
  | some (.single first) => acc.dropLast ++ [.double first item]
  | some (.double first second) => acc.dropLast ++ [.double first second, .double second item]

/-- config_manip.rs:57-67 -/
def asEnd : Connection → Option Connection
  | .end ty n i s => some (.end ty n i s)
  | .middle ty n i _ s => some (.end ty n i s)
  | .start .. => none

/-- config_manip.rs:69-79 -/
def asStart : Connection → Option Connection
  | .end .. => none
  | .middle ty n _ o s => some (.start ty n o s)
  | .start ty n o s => some (.start ty n o s)

/-- config_manip.rs:52-86 `break_apart_mapper` followed by 88-97 `apart_iterator_to_double_connection` -/
def apartPair : Apart → Option DConn
  | .single _ => none
  | .double a b => match asEnd b, asStart a with
    | some b, some a => some (.conns [a, b])
    | _, _ => none

def apartPairs : List Apart → Option (List DConn)
  | [] => some []
  | a :: l => match apartPair a, apartPairs l with
    | some p, some ps => some (p :: ps)
    | _, _ => none

/-- config_manip.rs:99-106 -/
def breakApart (input : List Connection) : Option (List DConn) := apartPairs (input.foldl chunker [])

/-- config_manip.rs:115-120: the loop over the pairs -/
def addPairs (base : Str) : List DConn → Map DConn → List Str → Map DConn
  | [], acc, _ => acc
  | p :: ps, acc, existing =>
    let k := newKey base existing
    addPairs base ps (acc.sortedPut k p) (k :: existing)

/-- config_manip.rs:110-124 `rebuild_pair_up_connections_folder` -/
def pairUpFolder (acc : Map DConn) (kv : Str × DConn) : Option (Map DConn) :=
  match kv.2 with
  | .join _ => none
  | .conns v => match breakApart v with
    | none => none
    | some pairs => some (addPairs kv.1 pairs acc acc.keys)

/-- config_manip.rs:794, 805: the fold over all connections -/
def pairUp : Map DConn → Map DConn → Option (Map DConn)
  | acc, [] => some acc
  | acc, kv :: m => match pairUpFolder acc kv with
    | none => none
    | some acc' => pairUp acc' m

/-- An output of a component, the key type of `outcount` in config_manip.rs:210. -/
structure OutRef where
  ty : ComponentType
  name : Str
  port : OutputPort
  deriving Repr, DecidableEq

/-- A component, the key type of `incount` in config_manip.rs:210. -/
structure InRef where
  ty : ComponentType
  name : Str
  deriving Repr, DecidableEq

/-- `*m.entry(k).or_insert(0) += 1` -/
def countUp {κ} [DecidableEq κ] (k : κ) : List (κ × Nat) → List (κ × Nat)
  | [] => [(k, 1)]
  | (k', n) :: m => if k' = k then (k, n + 1) :: m else (k', n) :: countUp k m

/-- config_manip.rs:210-231 `count_start_ends`, the fold from the given counts on -/
def countStartEnds : List (OutRef × Nat) → List (InRef × Nat) → Map DConn → Option (List (OutRef × Nat) × List (InRef × Nat))
  | outs, ins, [] => some (outs, ins)
  | outs, ins, (_, d) :: m => match d with
    | .conns [.start st sn o _, .end et en _ _] => countStartEnds (countUp ⟨st, sn, o⟩ outs) (countUp ⟨et, en⟩ ins) m
    | _ => none

/-- config_manip.rs:241-258 -/
def junctionName : Connection → Option (Option Str)
  | .end ty n _ _ => some (if ty = .junction then some n else none)
  | .middle .. => none
  | .start ty n _ _ => some (if ty = .junction then some n else none)

def junctionNames : List Connection → Option (List Str)
  | [] => some []
  | c :: l => match junctionName c, junctionNames l with
    | some (some n), some ns => some (n :: ns)
    | some none, some ns => some ns
    | _, _ => none

/-- config_manip.rs:234-274 `extract_junction_names` -/
def extractJunctionNames : Map DConn → Option (List Str)
  | [] => some []
  | (_, .join _) :: _ => none
  | (_, .conns v) :: m => match junctionNames v, extractJunctionNames m with
    | some a, some b => some (a ++ b)
    | _, _ => none

/-- config_manip.rs:277-288 `get_multis`, `get_multi_starts` -/
def multis {κ} (counts : List (κ × Nat)) : List κ :=
  counts.foldl (fun acc kv => if kv.2 < 2 then acc else acc ++ [kv.1]) []

/-- What the folds of `add_start_junctions_for` and `add_end_junctions_for` carry along. -/
structure InsertState where
  acc : Map DConn
  added : Bool
  existing : List Str

/-- config_manip.rs:303-348: the body of the fold of `add_start_junctions_for` -/
def startStep (multi : OutRef) (junction : Str) (s : InsertState) (kd : Str × DConn) : Option InsertState :=
  match kd.2 with
  | .join _ => none
  | .conns [.start ty n o st, .end ety en ei est] =>
    if ty = multi.ty ∧ n = multi.name ∧ o = multi.port then
      let right : DConn := .conns [.start .junction junction .out none, .end ety en ei none]
      if s.added then some { s with acc := s.acc.sortedPut kd.1 right }
      else
        let left : DConn := .conns [.start ty n o none, .end .junction junction ⟨.finish, ei.priority⟩ none]
        let k := newKey "dyn_connection".toList s.existing
        some ⟨(s.acc.sortedPut k left).sortedPut kd.1 right, true, k :: s.existing⟩
    else some { s with acc := s.acc.sortedPut kd.1 (.conns [.start ty n o st, .end ety en ei est]) }
  | .conns [a, b] => some { s with acc := s.acc.sortedPut kd.1 (.conns [a, b]) }
  | .conns _ => none

/-- config_manip.rs:357-400: the body of the fold of `add_end_junctions_for` -/
def endStep (multi : InRef) (junction : Str) (s : InsertState) (kd : Str × DConn) : Option InsertState :=
  match kd.2 with
  | .join _ => none
  | .conns [.start ty n o st, .end ety en ei est] =>
    if ety = multi.ty ∧ en = multi.name then
      let left : DConn := .conns [.start ty n o none, .end .junction junction ei none]
      if s.added then some { s with acc := s.acc.sortedPut kd.1 left }
      else
        let right : DConn := .conns [.start .junction junction .out none, .end ety en ⟨.finish, ei.priority⟩ none]
        let k := newKey "dyn_connection".toList s.existing
        some ⟨(s.acc.sortedPut kd.1 left).sortedPut k right, true, k :: s.existing⟩
    else some { s with acc := s.acc.sortedPut kd.1 (.conns [.start ty n o st, .end ety en ei est]) }
  | .conns [a, b] => some { s with acc := s.acc.sortedPut kd.1 (.conns [a, b]) }
  | .conns _ => none

/-- A fold whose body may panic. -/
def foldOpt {σ α} (f : σ → α → Option σ) : σ → List α → Option σ
  | s, [] => some s
  | s, x :: l => match f s x with
    | none => none
    | some s' => foldOpt f s' l

/-- config_manip.rs:298-349 `add_start_junctions_for`; the state is `existing_keys` and the connections. -/
def addStartJunction (s : List Str × Map DConn) (multi : OutRef) : Option (List Str × Map DConn) :=
  match extractJunctionNames s.2 with
  | none => none
  | some names =>
    match foldOpt (startStep multi (newKey "junction".toList names)) ⟨[], false, s.1⟩ s.2 with
    | none => none
    | some r => some (r.existing, r.acc)

/-- config_manip.rs:351-401 `add_end_junctions_for` -/
def addEndJunction (s : List Str × Map DConn) (multi : InRef) : Option (List Str × Map DConn) :=
  match extractJunctionNames s.2 with
  | none => none
  | some names =>
    match foldOpt (endStep multi (newKey "junction".toList names)) ⟨[], false, s.1⟩ s.2 with
    | none => none
    | some r => some (r.existing, r.acc)

/-- config_manip.rs:292-416 `add_junctions`. The outputs and components used more than once come out of hash maps, in any order: `perm` and `perm'` are that order. -/
def addJunctions (perm : List OutRef → List OutRef) (perm' : List InRef → List InRef) (m : Map DConn) : Option (Map DConn) :=
  match countStartEnds [] [] m with
  | none => none
  | some (outs, ins) =>
    match foldOpt addStartJunction (m.keys, m) (perm (multis outs)) with
    | none => none
    | some s => match foldOpt addEndJunction s (perm' (multis ins)) with
      | none => none
      | some r => some r.2

/-- config_manip.rs:549-559: the connections that are pairs -/
def pairsOf (m : Map DConn) : List (Connection × Connection) :=
  m.filterMap fun kd => match kd.2 with
    | .conns [a, b] => some (a, b)
    | _ => none

def exitLaunch : Connection → Option Str
  | .start .launch n .exit _ => some n
  | _ => none

def startLaunch : Connection → Option Str
  | .start .launch n _ _ => some n
  | _ => none

/-- config_manip.rs:571-580: inserting into a set -/
def insertLaunch (acc : List Str) (p : Connection × Connection) : List Str :=
  match startLaunch p.1 with
  | some n => if acc.contains n then acc else acc ++ [n]
  | none => acc

/-- config_manip.rs:547-589 `identify_required_spies_for_launch_exits`: a set, in the order in which its members are found first. -/
def requiredSpies (m : Map DConn) : List Str :=
  let has := (pairsOf m).filterMap fun p => exitLaunch p.1
  let all := (pairsOf m).foldl insertLaunch []
  all.filter fun n => !has.contains n

/-- config_manip.rs:656-667: one round of the loop. `HashMap::insert` and `BTreeMap::insert`. -/
structure SpyState where
  config : Config
  drains : List Str
  keys : List Str

def addSpy (s : SpyState) (launch : Str) : SpyState :=
  let d := newKey "dyn_drain".toList s.drains
  let k := newKey "dyn_connection".toList s.keys
  { config := { s.config with
      drain := s.config.drain.put d "/dev/null".toList
      connection := s.config.connection.sortedPut k
        (.conns [.start .launch launch .exit none, .end .drain d ⟨.terminate, 0⟩ none]) }
    drains := d :: s.drains
    keys := k :: s.keys }

/-- config_manip.rs:650-668 `add_launch_exit_spies`: the configuration, and what is printed on standard output (line 654: the drains, as `{:?}` writes a set of strings; only that
something is printed is modelled, as the list of the names). -/
def addSpies (c : Config) (toAdd : List Str) : Config × List Str :=
  ((toAdd.foldl addSpy ⟨c, c.drain.keys, c.connection.keys⟩).config, c.drain.keys)

/-- config_manip.rs:791-801 `connection_manipulation`; `spyOrder` is the order in which the hash set of launches is iterated. The second component is what was
printed. -/
def manipulate (perm : List OutRef → List OutRef) (perm' : List InRef → List InRef) (spyOrder : List Str → List Str) (c : Config) :
    Option (Config × List Str) :=
  match convertConnections c.connection with
  | none => none
  | some (conns, _) => match pairUp [] conns with
    | none => none
    | some paired => match addJunctions perm perm' paired with
      | none => none
      | some m => some (addSpies { c with connection := m } (spyOrder (requiredSpies m)))

/-- config_manip.rs:803-808 `connection_manipulation_light` -/
def manipulateLight (c : Config) : Option Config :=
  match convertConnections c.connection with
  | none => none
  | some (conns, _) => match pairUp [] conns with
    | none => none
    | some paired => some { c with connection := paired }

end Verif
