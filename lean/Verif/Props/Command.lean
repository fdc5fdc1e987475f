import Verif.Model.Command
import Verif.Props.Settings
/-!
# Property C50 (environment settings) and C60 (what the connection command stores)
-/
namespace Verif

/-- `a` is `n=v`, with the name as short as possible and not empty. -/
def NameValue (a n v : Str) : Prop := a = n ++ '=' :: v ∧ '=' ∉ n ∧ n ≠ []

theorem splitOnce_some {c : Char} {s a b : Str} : splitOnce c s = some (a, b) ↔ s = a ++ c :: b ∧ c ∉ a := by
  induction s generalizing a with
  | nil => simp [splitOnce]
  | cons x s ih =>
    simp only [splitOnce]
    split
    · rename_i h; subst h
      constructor
      · intro h; simp at h; obtain ⟨rfl, rfl⟩ := h; simp
      · rintro ⟨h, hn⟩
        cases a with
        | nil => simp at h; simp [h]
        | cons y a => simp at h; exact absurd (by simp [h.1]) hn
    · rename_i h
      constructor
      · intro h'
        rw [Option.map_eq_some_iff] at h'
        obtain ⟨⟨a', b'⟩, h1, h2⟩ := h'
        simp at h2
        obtain ⟨rfl, rfl⟩ := h2
        obtain ⟨rfl, hn⟩ := ih.mp h1
        refine ⟨rfl, ?_⟩
        simp only [List.mem_cons, not_or]
        exact ⟨fun e => h e.symm, hn⟩
      · rintro ⟨h1, hn⟩
        cases a with
        | nil => simp at h1; exact absurd h1.1 h
        | cons y a =>
          simp at h1
          obtain ⟨rfl, h1⟩ := h1
          simp only [List.mem_cons, not_or] at hn
          rw [ih.mpr ⟨h1, hn.2⟩]; rfl

theorem asKv_some {s n v : Str} : asKv s = some (n, v) ↔ NameValue s n v := by
  unfold asKv NameValue
  cases h : splitOnce '=' s with
  | none =>
    simp only [reduceCtorEq, false_iff]
    rintro ⟨h1, h2, _⟩
    have := splitOnce_some.mpr ⟨h1, h2⟩
    rw [h] at this; simp at this
  | some p =>
    obtain ⟨a, b⟩ := p
    simp only []
    have h' := splitOnce_some.mp h
    constructor
    · intro hs
      split at hs
      · simp at hs
      · rename_i hne
        simp at hs
        obtain ⟨rfl, rfl⟩ := hs
        exact ⟨h'.1, h'.2, hne⟩
    · rintro ⟨h1, h2, h3⟩
      have := splitOnce_some.mpr ⟨h1, h2⟩
      rw [h] at this
      simp at this
      obtain ⟨rfl, rfl⟩ := this
      rw [if_neg h3]

theorem addEnv_none (l : List Str) : l.foldl addEnv none = none := by
  induction l with
  | nil => rfl
  | cons x l ih => simpa [List.foldl_cons, addEnv] using ih

theorem parseEnv_snoc (l : List Str) (a : Str) : parseEnv (l ++ [a]) = addEnv (parseEnv l) a := by
  simp [parseEnv]

/-- **C50** The settings are accepted iff each has the form `NAME=VALUE` with a nonempty name. -/
theorem C50_accepted (args : List Str) : (∃ m, parseEnv args = some m) ↔ ∀ a ∈ args, ∃ n v, NameValue a n v := by
  have key : ∀ args : List Str, ∀ acc, (∃ m, args.foldl addEnv (some acc) = some m) ↔ ∀ a ∈ args, ∃ n v, NameValue a n v := by
    intro args
    induction args with
    | nil => intro acc; simp
    | cons a args ih =>
      intro acc
      rw [List.foldl_cons]
      cases h : asKv a with
      | none =>
        have : addEnv (some acc) a = none := by simp [addEnv, h]
        rw [this, addEnv_none]
        simp only [reduceCtorEq, exists_false, false_iff]
        intro hh
        obtain ⟨n, v, hnv⟩ := hh a (by simp)
        rw [← asKv_some, h] at hnv; simp at hnv
      | some p =>
        obtain ⟨n, v⟩ := p
        have : addEnv (some acc) a = some (acc.entry (fun _ => v) v n) := by simp [addEnv, h]
        rw [this, ih]
        have := asKv_some.mp h
        simp only [List.mem_cons, forall_eq_or_imp]
        constructor
        · exact fun hh => ⟨⟨n, v, this⟩, hh⟩
        · exact fun hh => hh.2
  exact key args []

/-- **C50** A name has the value of its last setting; other names have none. -/
theorem C50_last_wins {args : List Str} {m : Map Str} (h : parseEnv args = some m) (n v : Str) :
    m.get n = some v ↔ ∃ pre a post, args = pre ++ a :: post ∧ NameValue a n v ∧ ∀ b ∈ post, ∀ v', ¬ NameValue b n v' := by
  have key : ∀ r : List Str, ∀ m, parseEnv r.reverse = some m →
      (m.get n = some v ↔ ∃ pre a post, r.reverse = pre ++ a :: post ∧ NameValue a n v ∧ ∀ b ∈ post, ∀ v', ¬ NameValue b n v') := by
    intro r
    induction r with
    | nil =>
      intro m h
      simp [parseEnv] at h
      subst h
      simp [Map.get]
    | cons a r ih =>
      intro m h
      rw [List.reverse_cons, parseEnv_snoc] at h
      cases hr : parseEnv r.reverse with
      | none => rw [hr] at h; simp [addEnv] at h
      | some m' =>
        rw [hr] at h
        cases ha : asKv a with
        | none => simp [addEnv, ha] at h
        | some p =>
          obtain ⟨n', v'⟩ := p
          have hnv := asKv_some.mp ha
          simp [addEnv, ha] at h
          subst h
          rw [get_entry]
          have uniq : ∀ {w}, NameValue a n w → n = n' ∧ w = v' := by
            intro w hw
            rw [← asKv_some, ha] at hw
            simp at hw; exact ⟨hw.1.symm, hw.2.symm⟩
          by_cases hn : n = n'
          · subst hn
            rw [if_pos rfl]
            constructor
            · intro hv
              have : v' = v := by cases hg : Map.get m' n <;> simp [hg] at hv <;> exact hv
              subst this
              exact ⟨r.reverse, a, [], by simp, hnv, by simp⟩
            · rintro ⟨pre, b, post, he, hb, hpost⟩
              rw [List.reverse_cons] at he
              rcases List.eq_nil_or_concat post with rfl | ⟨post', z, rfl⟩
              · have := List.append_inj_right' he rfl
                simp at this; subst this
                obtain ⟨_, rfl⟩ := uniq hb
                cases Map.get m' n <;> simp
              · have e2 : pre ++ b :: (post' ++ [z]) = (pre ++ b :: post') ++ [z] := by simp
                rw [List.concat_eq_append, e2] at he
                have := List.append_inj_right' he rfl
                simp at this; subst this
                exact absurd hnv (hpost a (by simp) v')
          · rw [if_neg hn, ih m' hr]
            constructor
            · rintro ⟨pre, b, post, he, hb, hpost⟩
              refine ⟨pre, b, post ++ [a], by rw [List.reverse_cons, he]; simp, hb, ?_⟩
              intro z hz w hw
              rcases List.mem_append.mp hz with hz | hz
              · exact hpost z hz w hw
              · simp at hz; subst hz; exact hn (uniq hw).1
            · rintro ⟨pre, b, post, he, hb, hpost⟩
              rw [List.reverse_cons] at he
              rcases List.eq_nil_or_concat post with rfl | ⟨post', z, rfl⟩
              · have := List.append_inj_right' he rfl
                simp at this; subst this
                exact absurd (uniq hb).1 hn
              · have e2 : pre ++ b :: (post' ++ [z]) = (pre ++ b :: post') ++ [z] := by simp
                rw [List.concat_eq_append, e2] at he
                have h1 := List.append_inj_left' he rfl
                exact ⟨pre, b, post', h1, hb, fun y hy w => hpost y (by simp [hy]) w⟩
  have := key args.reverse m (by rw [List.reverse_reverse]; exact h)
  rwa [List.reverse_reverse] at this

/-- A value with `=` in it, a name set twice, and one that is refused. -/
example : parseEnv ["A=1".toList, "B=x=y".toList, "A=".toList] = some [("A".toList, []), ("B".toList, "x=y".toList)] ∧
    parseEnv ["A=1".toList, "=1".toList] = none ∧ parseEnv ["A".toList] = none := by decide +kernel

/-- **C60** The connection command never stores something unreadable: what it stores means something. A readable connection string is stored as it
is, whatever else it might be. -/
theorem C60_readable {json yaml : Str → Option Data} {s : Str} {d : DConn} (h : convertToDConn json yaml s = some d) :
    (∃ cs, d.Means cs) ∧ ¬ d.Invalid ∧ ((∃ cs, loadConnection s = .ok cs) ↔ d = .join s) := by
  unfold convertToDConn at h
  cases hl : loadConnection s with
  | ok cs => rw [hl] at h; simp at h; subst h; simp [DConn.Means, DConn.Invalid, hl]
  | panic => rw [hl] at h; simp at h
  | parseError =>
    rw [hl] at h
    simp only [] at h
    have : ∃ l, d = .conns l := by
      (repeat' split at h) <;> simp at h <;> exact ⟨_, h.symm⟩
    obtain ⟨l, rfl⟩ := this
    refine ⟨⟨l, rfl⟩, id, by simp⟩

/-- **C60** It refuses exactly what is no connection string, nor a connection nor a list of connections in one of the formats. -/
theorem C60_refused (json yaml : Str → Option Data) (s : Str) : convertToDConn json yaml s = none ↔
    loadConnection s = .parseError ∧ ∀ t, json s = some t ∨ yaml s = some t → decodeConnection t = none ∧ decodeList decodeConnection t = none := by
  unfold convertToDConn
  cases hl : loadConnection s with
  | ok cs => simp
  | panic => exact absurd hl (load_not_panic s)
  | parseError =>
    simp only [true_and]
    cases hj : json s with
    | none =>
      cases hy : yaml s with
      | none => simp
      | some y => cases h1 : decodeConnection y <;> cases h2 : decodeList decodeConnection y <;> simp [h1, h2]
    | some j =>
      cases hy : yaml s with
      | none => cases h1 : decodeConnection j <;> cases h2 : decodeList decodeConnection j <;> simp [h1, h2]
      | some y =>
        cases h1 : decodeConnection j <;> cases h2 : decodeList decodeConnection j <;> cases h3 : decodeConnection y <;>
          cases h4 : decodeList decodeConnection y <;> simp [h1, h2, h3, h4]
        rintro t (rfl | rfl)
        · exact ⟨h1, h2⟩
        · exact ⟨h3, h4⟩

end Verif
