import Verif.Props.Edits
/-!
# A text format that can be read back

It shows that the assumptions on the libraries in C73 can be met; nothing else rests on it.
-/
namespace Verif

def plainText : Str → Str
  | [] => ['.']
  | c :: s => 'c' :: c :: plainText s

def plainNum : Int → Str
  | .ofNat n => 'p' :: plainText (List.replicate n '1')
  | .negSucc n => 'm' :: plainText (List.replicate n '1')

mutual
def plain : Data → Str
  | .null => ['n']
  | .text s => 't' :: plainText s
  | .num n => 'i' :: plainNum n
  | .list l => 'l' :: plainList l
  | .record m => 'r' :: plainRecord m
def plainList : List Data → Str
  | [] => ['.']
  | d :: l => 'c' :: plain d ++ plainList l
def plainRecord : List (Str × Data) → Str
  | [] => ['.']
  | (k, d) :: m => 'c' :: plainText k ++ plain d ++ plainRecord m
end

theorem plainText_inj : ∀ {s s' r r' : Str}, plainText s ++ r = plainText s' ++ r' → s = s' ∧ r = r'
  | [], [], r, r', h => by simpa [plainText] using h
  | [], c :: s', r, r', h => by simp [plainText] at h
  | c :: s, [], r, r', h => by simp [plainText] at h
  | c :: s, c' :: s', r, r', h => by
    simp [plainText] at h
    obtain ⟨h1, h2⟩ := plainText_inj h.2
    exact ⟨by rw [h.1, h1], h2⟩

theorem plainNum_inj {n n' : Int} {r r' : Str} (h : plainNum n ++ r = plainNum n' ++ r') : n = n' ∧ r = r' := by
  have rep : ∀ {a b : Nat}, List.replicate a '1' = List.replicate b '1' → a = b := by
    intro a b e
    simpa using congrArg List.length e
  cases n <;> cases n' <;> simp [plainNum] at h
  · obtain ⟨h1, h2⟩ := plainText_inj h
    exact ⟨by rw [rep h1], h2⟩
  · obtain ⟨h1, h2⟩ := plainText_inj h
    exact ⟨by rw [rep h1], h2⟩

mutual
theorem plain_inj : ∀ {d d' : Data} {r r' : Str}, plain d ++ r = plain d' ++ r' → d = d' ∧ r = r'
  | .null, d', r, r', h => by cases d' <;> simp [plain] at h; exact ⟨rfl, h⟩
  | .text s, d', r, r', h => by
    cases d' <;> simp [plain] at h
    obtain ⟨h1, h2⟩ := plainText_inj h
    exact ⟨by rw [h1], h2⟩
  | .num s, d', r, r', h => by
    cases d' <;> simp [plain] at h
    obtain ⟨h1, h2⟩ := plainNum_inj h
    exact ⟨by rw [h1], h2⟩
  | .list l, d', r, r', h => by
    cases d' <;> simp [plain] at h
    obtain ⟨h1, h2⟩ := plainList_inj h
    exact ⟨by rw [h1], h2⟩
  | .record l, d', r, r', h => by
    cases d' <;> simp [plain] at h
    obtain ⟨h1, h2⟩ := plainRecord_inj h
    exact ⟨by rw [h1], h2⟩
theorem plainList_inj : ∀ {l l' : List Data} {r r' : Str}, plainList l ++ r = plainList l' ++ r' → l = l' ∧ r = r'
  | [], [], r, r', h => by simpa [plainList] using h
  | [], _ :: _, r, r', h => by simp [plainList] at h
  | _ :: _, [], r, r', h => by simp [plainList] at h
  | d :: l, d' :: l', r, r', h => by
    simp [plainList] at h
    obtain ⟨h1, h2⟩ := plain_inj h
    obtain ⟨h3, h4⟩ := plainList_inj h2
    exact ⟨by rw [h1, h3], h4⟩
theorem plainRecord_inj : ∀ {l l' : List (Str × Data)} {r r' : Str}, plainRecord l ++ r = plainRecord l' ++ r' → l = l' ∧ r = r'
  | [], [], r, r', h => by simpa [plainRecord] using h
  | [], (_, _) :: _, r, r', h => by simp [plainRecord] at h
  | (_, _) :: _, [], r, r', h => by simp [plainRecord] at h
  | (k, d) :: l, (k', d') :: l', r, r', h => by
    simp [plainRecord] at h
    obtain ⟨h0, h⟩ := plainText_inj h
    obtain ⟨h1, h2⟩ := plain_inj h
    obtain ⟨h3, h4⟩ := plainRecord_inj h2
    exact ⟨by rw [h0, h1, h3], h4⟩
end

open Classical in
/-- Reads what `plain` has written, with a line end after it. -/
noncomputable def readPlain (s : Str) : Option Data := if h : ∃ d, plain d ++ "\n".toList = s then some h.choose else none

theorem readPlain_plain (d : Data) : readPlain (plain d ++ "\n".toList) = some d := by
  have h : ∃ d', plain d' ++ "\n".toList = plain d ++ "\n".toList := ⟨d, rfl⟩
  rw [readPlain, dif_pos h]
  exact congrArg some (plain_inj h.choose_spec).1

noncomputable def plainLibrary : Library := ⟨readPlain, readPlain, fun _ _ => [], plain, id, fun _ => [], fun _ => []⟩

/-- Things are listed in the order in which they are held. -/
def plainOrders : Orders := ⟨id, id, id, id, id, id⟩

theorem plain_faithful : plainLibrary.Faithful Written :=
  ⟨fun d _ => readPlain_plain d, fun d _ => readPlain_plain d, fun d => by show plain d ≠ []; cases d <;> simp [plain]⟩

theorem plainOrders_faithful : plainOrders.Faithful := fun c h => ⟨h, .refl c⟩

/-- Things are listed the other way round. -/
def turned (c : Config) : Config := { c with faucet := c.faucet.reverse, drain := c.drain.reverse, regulator := c.regulator.reverse, launch := c.launch.reverse }

theorem turned_faithful : ({ plainOrders with written := turned } : Orders).Faithful := by
  intro c h
  have nd : ∀ {α : Type} {m : Map α}, m.keys.Nodup → (Map.keys m.reverse).Nodup := by
    intro α m h
    exact ((List.reverse_perm m).map Prod.fst).nodup_iff.mpr h
  refine ⟨⟨nd h.faucet, nd h.drain, nd h.regulator, nd h.launch, fun n l hm => h.env n l (List.mem_reverse.mp hm), h.connection,
    fun n r a b hm => h.marks n r a b (List.mem_reverse.mp hm), h.priorities⟩, ?_⟩
  refine ⟨fun n => get_perm h.faucet (List.reverse_perm _).symm n, fun n => get_perm h.drain (List.reverse_perm _).symm n,
    fun n => get_perm h.regulator (List.reverse_perm _).symm n, fun n => ?_, fun n k => ?_, rfl⟩
  · rw [get_perm h.launch (List.reverse_perm _).symm n]; rfl
  · rw [get_perm h.launch (List.reverse_perm _).symm n]; rfl

theorem possible_source (file : Option Str) (id src : Str) : ∃ m, Possible declared m ∧
    Asks m (.faucetSrc ⟨id, file.getD "-".toList, .yaml⟩ src) := by
  refine ⟨[("config", argsOf (("format", ["yaml".toList]) :: (match file with | some f => [("config", [f])] | none => []))),
    ("faucet", argsOf [("id", [id])]), ("source", argsOf [("SOURCE", [src])])], ?_, ?_⟩
  · refine .step (c := .mk "config" [.option "config", formatArg] (declared[2].subs)) (List.mem_of_getElem? (i := 2) rfl) (argsOf_config file "yaml" (by simp)) ?_
    refine .step (c := .mk "faucet" [.option "id"] [.mk "source" [.single "SOURCE"] []]) (List.mem_of_getElem? (i := 3) rfl) ?_ ?_
    · intro d hd
      simp only [Command.args, List.mem_cons, List.not_mem_nil, or_false] at hd
      subst hd
      exact Or.inr ⟨_, rfl⟩
    · refine .step (c := .mk "source" [.single "SOURCE"] []) (List.mem_of_getElem? (i := 0) rfl) ?_ .stop
      intro d hd
      simp only [Command.args, List.mem_cons, List.not_mem_nil, or_false] at hd
      subst hd
      exact ⟨_, rfl⟩
  · refine .source ⟨?_, Or.inr ⟨rfl, rfl⟩⟩ rfl rfl
    cases file with
    | none => exact Or.inr ⟨rfl, rfl⟩
    | some f => exact Or.inl rfl

/-- Two edits of the same faucet, one after the other, by processes with different orders: the assumptions of C73 are met, and the second one counts. -/
example : ∃ (l : List ((Orders × (Str → Option Str) × Matches) × Edit)) (s : Str) (c : Config), l.length = 2 ∧ (∀ x ∈ l, EditStep plainLibrary x.1.1 x.1.2.2 x.2) ∧
    (∀ files fmt, Finds plainLibrary ⟨some s, files⟩ fmt "-".toList c) ∧ ∃ t c', Piped (fun o files s m => pa2 plainLibrary o (fun _ => .never) ⟨some s, files⟩ m) (l.map (·.1)) s t ∧
      (∀ files fmt, Finds plainLibrary ⟨some t, files⟩ fmt "-".toList c') ∧ c'.read (.source "f".toList) = .text "b".toList := by
  obtain ⟨m, h1, h2⟩ := possible_source none "f".toList "a".toList
  obtain ⟨m', h1', h2'⟩ := possible_source none "f".toList "b".toList
  let c : Config := ⟨[("g".toList, "x".toList)], [], [], [], []⟩
  have hc : c.Proper := ⟨by decide, by decide, by decide, by decide, by simp [c], by simp [c, Map.Sorted], by simp [c], by simp [c]⟩
  let l : List ((Orders × (Str → Option Str) × Matches) × Edit) :=
    [((plainOrders, fun _ => none, m), .source "f".toList "a".toList), (({ plainOrders with written := turned }, fun _ => none, m'), .source "f".toList "b".toList)]
  have hl : ∀ x ∈ l, EditStep plainLibrary x.1.1 x.1.2.2 x.2 := by
    intro x hx
    rcases List.mem_cons.mp hx with rfl | hx
    · exact ⟨plainOrders_faithful, h1, _, _, h2, .source, rfl⟩
    · rcases List.mem_cons.mp hx with rfl | hx
      · exact ⟨turned_faithful, h1', _, _, h2', .source, rfl⟩
      · simp at hx
  have hf := fun files fmt => finds_again plain_faithful hc files fmt
  obtain ⟨t, _, ht, _, _⟩ := C73_chain plain_faithful (start := fun _ => .never) hl hf (.refl c)
  obtain ⟨c', h3, h4, _⟩ := C73_settled plain_faithful (start := fun _ => .never) hl hf ht
  refine ⟨l, _, c, rfl, hl, hf, t, c', ht, h3, ?_⟩
  rcases h4 (.source "f".toList) with ⟨pre, e, post, e1, e2, e3, e4⟩ | ⟨h, _⟩
  · have : e = .source "f".toList "b".toList := by
      match pre, e1 with
      | [], e1 =>
        simp only [l, List.map_cons, List.map_nil, List.nil_append, List.cons.injEq] at e1
        exact absurd rfl (e3 (.source "f".toList "b".toList) (by rw [← e1.2]; simp))
      | [_], e1 => simp only [l, List.map_cons, List.map_nil, List.cons_append, List.nil_append, List.cons.injEq] at e1; exact e1.2.1.symm
      | _ :: _ :: _, e1 => simp [l] at e1
    subst this
    revert e4
    cases c'.read (.source "f".toList) <;> simp [Edit.value, Value.Alike]
    exact Eq.symm
  · exact absurd rfl (h (.source "f".toList "a".toList) (by simp [l]))

end Verif
