import Verif.Lemmas.Maps
import Verif.Model.Serde
/-!
# Property C49: written configurations read back as themselves
-/
namespace Verif

theorem decode_text (s : Str) : decodeStr (.text s) = some s := rfl
theorem decode_type (t : ComponentType) : decodeType (encodeType t) = some t := by cases t <;> simp [decodeType, encodeType]
theorem decode_port (t : OutputPort) : decodePort (encodePort t) = some t := by cases t <;> simp [decodePort, encodePort]
theorem decode_breakable (t : Breakable) : decodeBreakable (encodeBreakable t) = some t := by
  cases t <;> simp [decodeBreakable, encodeBreakable]

theorem decode_opt (r : Map Data) (k : Str) (s : Option Str) (h : field r k = some (some (encodeOpt s))) :
    optional decodeStr r k = some s := by
  unfold optional
  rw [h]
  cases s <;> rfl

/-- A number that fits into the `isize` of a 64 bit machine. -/
def FitsI (n : Int) : Prop := -2 ^ 63 ≤ n ∧ n < 2 ^ 63

def Connection.Fits : Connection → Prop
  | .middle _ _ i _ _ => FitsI i.priority
  | .start .. => True
  | .end _ _ i _ => FitsI i.priority

/-- **C49** Every connection reads back as itself: the kinds are not confused. -/
theorem C49_connection (c : Connection) (h : c.Fits) : decodeConnection (encodeConnection c) = some c := by
  cases c with
  | middle ty n i o s =>
    obtain ⟨b, p⟩ := i
    have hp : decodeInt (.num p) = some p := if_pos h
    have ho := decode_opt (k := "connection_set".toList) (s := s) (r := [("component_type".toList, encodeType ty), ("component_name".toList, .text n), ("breakable".toList, encodeBreakable b), ("priority".toList, .num p), ("output_port".toList, encodePort o), ("connection_set".toList, encodeOpt s)]) (by simp [field])
    simp only [encodeConnection, encodeInput, decodeConnection, decodeMiddle, List.cons_append, List.nil_append, ho]
    simp [required, field, decodeInput, defaulted, decode_type, decode_port, decode_breakable, decode_text, hp]
  | start ty n o s =>
    have ho := decode_opt (k := "connection_set".toList) (s := s) (r := [("component_type".toList, encodeType ty), ("component_name".toList, .text n), ("output_port".toList, encodePort o), ("connection_set".toList, encodeOpt s)]) (by simp [field])
    simp only [encodeConnection, decodeConnection, decodeMiddle, decodeStart, ho]
    simp [required, field, decodeInput, defaulted, decode_type, decode_port, decode_text]
  | «end» ty n i s =>
    obtain ⟨b, p⟩ := i
    have hp : decodeInt (.num p) = some p := if_pos h
    have ho := decode_opt (k := "connection_set".toList) (s := s) (r := [("component_type".toList, encodeType ty), ("component_name".toList, .text n), ("breakable".toList, encodeBreakable b), ("priority".toList, .num p), ("connection_set".toList, encodeOpt s)]) (by simp [field])
    simp only [encodeConnection, encodeInput, decodeConnection, decodeMiddle, decodeStart, decodeEnd, List.cons_append, List.nil_append, ho]
    simp [required, field, decodeInput, defaulted, decode_type, decode_breakable, decode_text, hp]

theorem decode_each {α} {f : Data → Option α} {g : α → Data} {l : List α} (h : ∀ x ∈ l, f (g x) = some x) :
    decodeEach f (l.map g) = some l := by
  induction l with
  | nil => rfl
  | cons x l ih =>
    simp only [List.map_cons, decodeEach, h x (by simp), ih (fun y hy => h y (by simp [hy]))]

theorem put_new {α} {m : Map α} {k : Str} {v : α} (h : k ∉ m.keys) : m.put k v = m ++ [(k, v)] := by
  induction m with
  | nil => rfl
  | cons x m ih =>
    obtain ⟨k', w⟩ := x
    simp only [Map.keys, List.map_cons, List.mem_cons, not_or] at h
    have := ih h.2
    unfold Map.put at this ⊢
    simp only [Map.entry, if_neg (Ne.symm h.1), this, List.cons_append]

theorem sortedPut_last {α} {m : Map α} {k : Str} {v : α} (h : ∀ x ∈ m, strLt x.1 k = true) : m.sortedPut k v = m ++ [(k, v)] := by
  induction m with
  | nil => rfl
  | cons x m ih =>
    obtain ⟨k', w⟩ := x
    have := ih (fun x hx => h x (by simp [hx]))
    have h1 : strLt k' k = true := h (k', w) (by simp)
    unfold Map.sortedPut at this ⊢
    rw [Map.sortedEntry, if_neg (strLt_ne h1), if_neg (by rw [strLt_asymm h1]; simp), this, List.cons_append]

theorem decode_hash {α} {f : Data → Option α} {g : α → Data} {m : Map α} (hn : m.keys.Nodup)
    (h : ∀ k v, (k, v) ∈ m → f (g v) = some v) : decodeHash f (encodeMap g m) = some m := by
  have key : ∀ (m acc : Map α), (acc ++ m).keys.Nodup → (∀ k v, (k, v) ∈ m → f (g v) = some v) →
      decodeEntries Map.put f (m.map fun x => (x.1, g x.2)) acc = some (acc ++ m) := by
    intro m
    induction m with
    | nil => intro acc _ _; simp [decodeEntries]
    | cons x m ih =>
      intro acc hn h
      obtain ⟨k, v⟩ := x
      have hk : k ∉ Map.keys acc := by
        simp only [Map.keys, List.map_append, List.map_cons] at hn ⊢
        intro hm
        exact (List.nodup_append.mp hn).2.2 k hm k (by simp) rfl
      simp only [List.map_cons, decodeEntries, h k v (by simp), put_new hk]
      rw [ih]
      · simp
      · simpa using hn
      · intro k v hm; exact h k v (by simp [hm])
  exact key m [] (by simpa using hn) h

theorem decode_tree {α} {f : Data → Option α} {g : α → Data} {m : Map α} (hn : m.Sorted)
    (h : ∀ k v, (k, v) ∈ m → f (g v) = some v) : decodeTree f (encodeMap g m) = some m := by
  have key : ∀ (m acc : Map α), (acc ++ m).Sorted → (∀ k v, (k, v) ∈ m → f (g v) = some v) →
      decodeEntries Map.sortedPut f (m.map fun x => (x.1, g x.2)) acc = some (acc ++ m) := by
    intro m
    induction m with
    | nil => intro acc _ _; simp [decodeEntries]
    | cons x m ih =>
      intro acc hn h
      obtain ⟨k, v⟩ := x
      have hk : ∀ x ∈ acc, strLt x.1 k = true := by
        intro x hx
        exact (List.pairwise_append.mp hn).2.2 x hx (k, v) (by simp)
      simp only [List.map_cons, decodeEntries, h k v (by simp), sortedPut_last hk]
      rw [ih]
      · simp
      · simpa using hn
      · intro k v hm; exact h k v (by simp [hm])
  exact key m [] (by simpa using hn) h

theorem decode_nat {a : Nat} (h : a < 2 ^ 64) : decodeNat (.num a) = some a := by
  simp only [decodeNat]
  rw [if_pos ⟨by omega, by omega⟩]
  simp

/-- What is true of every configuration the program holds: its maps have no key twice, `BTreeMap`s are in order, numbers fit their types. -/
structure Config.Proper (c : Config) : Prop where
  faucet : c.faucet.keys.Nodup
  drain : c.drain.keys.Nodup
  regulator : c.regulator.keys.Nodup
  launch : c.launch.keys.Nodup
  env : ∀ n l, (n, l) ∈ c.launch → l.env.keys.Nodup
  connection : c.connection.Sorted
  marks : ∀ n r a b, (n, r) ∈ c.regulator → r.buffered = some (a, b) → a < 2 ^ 64 ∧ b < 2 ^ 64
  priorities : ∀ k l x, (k, .conns l) ∈ c.connection → x ∈ l → x.Fits

theorem decode_texts (l : List Str) : decodeList decodeStr (.list (l.map .text)) = some l :=
  decode_each fun _ _ => rfl

theorem decode_faucet (s : Str) : decodeFaucet (encodeFaucet s) = some s := by
  simp [encodeFaucet, decodeFaucet, required, field, decode_text]

theorem decode_drain (s : Str) : decodeDrain (encodeDrain s) = some s := by
  have : field [("destination".toList, Data.text s)] "destination".toList = some (some (.text s)) := by simp [field]
  simp only [encodeDrain, decodeDrain, defaulted, this, decode_text]

theorem decode_marks {r : Map Data} {k : Str} {b : Option (Nat × Nat)} (h : field r k = some (some (encodeMarks b)))
    (hb : ∀ x y, b = some (x, y) → x < 2 ^ 64 ∧ y < 2 ^ 64) : optional decodeMarks r k = some b := by
  unfold optional
  rw [h]
  cases b with
  | none => rfl
  | some ab =>
    obtain ⟨a, b⟩ := ab
    obtain ⟨h1, h2⟩ := hb a b rfl
    show (bothMarks (decodeNat (.num a)) (decodeNat (.num b))).map some = _
    rw [decode_nat h1, decode_nat h2]; rfl

theorem decode_regulator (r : RegulatorConfig) (hb : ∀ x y, r.buffered = some (x, y) → x < 2 ^ 64 ∧ y < 2 ^ 64) :
    decodeRegulator (encodeRegulator r) = some r := by
  obtain ⟨b, mon⟩ := r
  have hb := decode_marks (r := [("buffered".toList, encodeMarks b), ("monitored_buffers".toList, .list (mon.map .text))]) (k := "buffered".toList)
    (b := b) (by simp [field]) hb
  simp only [encodeRegulator, decodeRegulator, hb]
  simp [defaulted, field, decode_texts]

theorem decode_launch (l : LaunchConfig) (he : l.env.keys.Nodup) : decodeLaunch (encodeLaunch l) = some l := by
  obtain ⟨cmd, path, env, arg⟩ := l
  have he : decodeHash decodeStr (encodeMap .text env) = some env := decode_hash he fun _ _ _ => rfl
  have o1 := decode_opt (r := [("cmd".toList, encodeOpt cmd), ("path".toList, encodeOpt path), ("env".toList, encodeMap .text env), ("arg".toList, .list (arg.map .text))]) "cmd".toList cmd (by simp [field])
  have o2 := decode_opt (r := [("cmd".toList, encodeOpt cmd), ("path".toList, encodeOpt path), ("env".toList, encodeMap .text env), ("arg".toList, .list (arg.map .text))]) "path".toList path (by simp [field])
  simp only [encodeLaunch, decodeLaunch, o1, o2]
  simp [defaulted, field, decode_texts, he]

theorem decode_dconn (d : DConn) (h : ∀ l, d = .conns l → ∀ x ∈ l, x.Fits) : decodeDConn (encodeDConn d) = some d := by
  cases d with
  | join s => rfl
  | conns l =>
    have : decodeEach decodeConnection (l.map encodeConnection) = some l :=
      decode_each fun x hx => C49_connection x (h l rfl x hx)
    simp [encodeDConn, decodeDConn, decodeStr, decodeList, this]

/-- **C49** Every configuration reads back as itself. -/
theorem C49_config (c : Config) (h : c.Proper) : decodeConfig (encodeConfig c) = some c := by
  have hf : decodeHash decodeFaucet (encodeMap encodeFaucet c.faucet) = some c.faucet :=
    decode_hash h.faucet fun k v _ => decode_faucet v
  have hd : decodeHash decodeDrain (encodeMap encodeDrain c.drain) = some c.drain :=
    decode_hash h.drain fun k v _ => decode_drain v
  have hr : decodeHash decodeRegulator (encodeMap encodeRegulator c.regulator) = some c.regulator :=
    decode_hash h.regulator fun k v hm => decode_regulator v fun x y => h.marks k v x y hm
  have hl : decodeHash decodeLaunch (encodeMap encodeLaunch c.launch) = some c.launch :=
    decode_hash h.launch fun k v hm => decode_launch v (h.env k v hm)
  have hc : decodeTree decodeDConn (encodeMap encodeDConn c.connection) = some c.connection :=
    decode_tree h.connection fun k v hm => decode_dconn v (by rintro l rfl x hx; exact h.priorities k l x hm hx)
  simp [encodeConfig, decodeConfig, defaulted, field, hf, hr, hd, hl, hc]

/-- A configuration with something in every field is proper. -/
example : Config.Proper ⟨[("f".toList, "-".toList)], [("r".toList, ⟨some (1, 2), ["b".toList]⟩)], [("d".toList, "-".toList)],
    [("l".toList, ⟨some "ls".toList, none, [("A".toList, "1".toList)], []⟩)],
    [("a".toList, .conns [.start .faucet "f".toList .out none, .middle .launch "l".toList ⟨.finish, -5⟩ .exit (some "a".toList), .end .drain "d".toList ⟨.terminate, 0⟩ none]), ("b".toList, .join "".toList)]⟩ := by
  refine ⟨by simp [Map.keys], by simp [Map.keys], by simp [Map.keys], by simp [Map.keys], ?_, ?_, ?_, ?_⟩
  · intro n l h; simp at h; obtain ⟨rfl, rfl⟩ := h; simp [Map.keys]
  · simp [Map.Sorted]; decide
  · intro n r a b h hb; simp at h; obtain ⟨rfl, rfl⟩ := h; simp at hb; omega
  · intro k l x h hx
    simp at h
    obtain ⟨rfl, rfl⟩ := h
    simp at hx
    rcases hx with rfl | rfl | rfl <;> simp [Connection.Fits, FitsI]

/-- What is read with fields left out: the defaults of config.rs:78-85 and connectable.rs:49. -/
example : decodeConnection (.record [("component_name".toList, .text "x".toList), ("priority".toList, .num 3), ("component_type".toList, .text "drain".toList)]) =
    some (.end .drain "x".toList ⟨.terminate, 3⟩ none) := by
  simp [decodeConnection, decodeMiddle, decodeStart, decodeEnd, required, field, decodeType, decodeStr, decodeInput, defaulted, optional, decodeInt]

end Verif
