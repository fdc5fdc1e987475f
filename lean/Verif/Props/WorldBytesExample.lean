import Verif.Props.WorldBytes
import Verif.Props.BytesExample
import Verif.Lemmas.WorldEnds
/-!
# Property C86: examples
-/
namespace Verif

/-! ## Programs that print a function of their input -/

/-- Reads its input to the end and prints a function of it, either as soon as it can or after having read everything. -/
def filterBy (F : Bytes → Bytes) (early : Bool) : Program := fun l =>
  if .refused .out ∈ l then .exit (some 1)
  else if (early = true ∨ .sawEnd ∈ l) ∧ (putOut .out l).length < (F (takenIn l)).length then .write .out ((F (takenIn l)).drop (putOut .out l).length)
  else if .sawEnd ∈ l then .exit (some 0) else .read

theorem Program.Lives.before {p : Program} {l : List PEv} (h : p.Lives l) : ∀ {a b : List PEv} {e : PEv}, l = a ++ e :: b → ¬ Exited a ∧ (p a).Allows e := by
  induction h with
  | start => intro a b e h; simp at h
  | @next l e' h1 h2 h3 ih =>
    intro a b e h
    rcases List.eq_nil_or_concat b with rfl | ⟨b', x, rfl⟩
    · obtain ⟨rfl, he⟩ := List.append_inj' h (by simp)
      cases he
      exact ⟨h2, h3⟩
    · rw [List.concat_eq_append, ← List.cons_append, ← List.append_assoc] at h
      obtain ⟨rfl, _⟩ := List.append_inj' h (by simp)
      exact ih rfl

theorem Wish.Allows.of_read {w : Wish} {e : PEv} (h : w.Allows e) (hw : w = .read) : (∃ d, e = .took d) ∨ e = .sawEnd := by
  cases h <;> first | cases hw | skip
  · exact Or.inl ⟨_, rfl⟩
  · exact Or.inr rfl
theorem Wish.Allows.of_write {w : Wish} {e : PEv} (h : w.Allows e) {p : Port} {m : Bytes} (hw : w = .write p m) : (∃ d, e = .put p d ∧ d <+: m) ∨ e = .refused p := by
  cases h <;> first | cases hw | skip
  · exact Or.inl ⟨_, rfl, by assumption⟩
  · exact Or.inr rfl
theorem Wish.Allows.of_exit {w : Wish} {e : PEv} (h : w.Allows e) {c : Option Int} (hw : w = .exit c) : e = .exit c := by
  cases h <;> first | cases hw | skip
  rfl

theorem takenIn_snoc (l : List PEv) (e : PEv) : takenIn (l ++ [e]) = takenIn l ++ takenIn [e] := by simp [takenIn]
theorem putOut_snoc (p : Port) (l : List PEv) (e : PEv) : putOut p (l ++ [e]) = putOut p l ++ putOut p [e] := by simp [putOut]

theorem prefix_grow {a b d : Bytes} (h : a <+: b) (hd : d <+: b.drop a.length) : a ++ d <+: b := by
  obtain ⟨t, rfl⟩ := h
  rw [List.drop_left] at hd
  exact (List.prefix_append_right_inj a).mpr hd

theorem filterBy_lives {F : Bytes → Bytes} {early : Bool} (hF : early = true → ∀ x y, x <+: y → F x <+: F y) {l : List PEv} (h : (filterBy F early).Lives l) :
    putOut .out l <+: F (takenIn l) ∧ (early = true ∨ .sawEnd ∈ l ∨ putOut .out l = []) ∧ PEv.shutIn ∉ l ∧ PEv.shut .out ∉ l ∧
      (Exited l → .refused .out ∈ l ∨ .sawEnd ∈ l ∧ putOut .out l = F (takenIn l)) := by
  induction h with
  | start => exact ⟨List.nil_prefix, Or.inr (Or.inr rfl), by simp, by simp, by rintro ⟨c, hc⟩; cases hc⟩
  | @next l e h1 h2 h3 ih =>
    obtain ⟨i1, i2, i3, i4, i5⟩ := ih
    rw [takenIn_snoc, putOut_snoc]
    have ex : ∀ e : PEv, (∀ c, e ≠ .exit c) → ¬ Exited (l ++ [e]) := by
      rintro e he ⟨c, hc⟩
      rcases List.mem_append.mp hc with hc | hc
      · exact h2 ⟨c, hc⟩
      · exact he c (List.mem_singleton.mp hc).symm
    by_cases c1 : PEv.refused .out ∈ l
    · have := h3.of_exit (c := some 1) (by simp only [filterBy, c1, if_true])
      subst this
      simp [putOut, takenIn] at i1 i2 ⊢
      exact ⟨i1, i2, i3, i4, fun _ => Or.inl c1⟩
    by_cases c2 : (early = true ∨ .sawEnd ∈ l) ∧ (putOut .out l).length < (F (takenIn l)).length
    · rcases h3.of_write (p := .out) (m := (F (takenIn l)).drop (putOut .out l).length) (by simp only [filterBy, c1, c2, if_true, if_false, and_self]) with ⟨d, rfl, hd⟩ | rfl
      · refine ⟨?_, ?_, by simpa using i3, by simpa using i4, fun h => absurd h (ex _ (by simp))⟩
        · have e1 : putOut .out [.put .out d] = d := by simp [putOut]
          have e2 : takenIn [PEv.put .out d] = [] := by simp [takenIn]
          rw [e1, e2, List.append_nil]
          exact prefix_grow i1 hd
        · rcases c2.1 with h | h
          · exact Or.inl h
          · exact Or.inr (Or.inl (by simp [h]))
      · refine ⟨by simpa [putOut, takenIn] using i1, ?_, by simpa using i3, by simpa using i4, fun h => absurd h (ex _ (by simp))⟩
        rcases c2.1 with h | h
        · exact Or.inl h
        · exact Or.inr (Or.inl (by simp [h]))
    by_cases c3 : PEv.sawEnd ∈ l
    · have := h3.of_exit (c := some 0) (by simp only [filterBy]; rw [if_neg c1, if_neg c2, if_pos c3])
      subst this
      have e1 : putOut .out l = F (takenIn l) := i1.eq_of_length (by
        have := i1.length_le
        have : ¬ (putOut .out l).length < (F (takenIn l)).length := fun h => c2 ⟨Or.inr c3, h⟩
        omega)
      have e2 : putOut .out [PEv.exit (some 0)] = [] := by simp [putOut]
      have e3 : takenIn [PEv.exit (some 0)] = [] := by simp [takenIn]
      rw [e2, e3, List.append_nil, List.append_nil]
      exact ⟨i1, Or.inr (Or.inl (by simp [c3])), by simpa using i3, by simpa using i4, fun _ => Or.inr ⟨by simp [c3], e1⟩⟩
    · rcases h3.of_read (by simp only [filterBy]; rw [if_neg c1, if_neg c2, if_neg c3]) with ⟨d, rfl⟩ | rfl
      · have e1 : putOut .out [PEv.took d] = [] := by simp [putOut]
        rw [e1, List.append_nil]
        refine ⟨?_, by simpa using i2, by simpa using i3, by simpa using i4, fun h => absurd h (ex _ (by simp))⟩
        rcases i2 with h | h | h
        · exact i1.trans (hF h _ _ (List.prefix_append _ _))
        · exact absurd h c3
        · rw [h]; exact List.nil_prefix
      · have e1 : putOut .out [PEv.sawEnd] = [] := by simp [putOut]
        have e2 : takenIn [PEv.sawEnd] = [] := by simp [takenIn]
        rw [e1, e2, List.append_nil, List.append_nil]
        exact ⟨i1, Or.inr (Or.inl (by simp)), by simpa using i3, by simpa using i4, fun h => absurd h (ex _ (by simp))⟩

theorem filterBy_filters {F : Bytes → Bytes} {early : Bool} (hF : early = true → ∀ x y, x <+: y → F x <+: F y) : (filterBy F early).Filters F := by
  have key : ∀ l, (filterBy F early).Lives l → Regular l → Exited l → .sawEnd ∈ l ∧ putOut .out l = F (takenIn l) := by
    intro l hl hr hx
    obtain ⟨_, _, _, i4, i5⟩ := filterBy_lives hF hl
    refine (i5 hx).resolve_left fun h => ?_
    obtain ⟨a, b, e⟩ := List.append_of_mem h
    rcases hr.listened a .out b e with h | h
    · exact i4 (by rw [e]; exact List.mem_append_left _ h)
    · exact (hl.before e).1 h
  refine ⟨fun l hl hr hs => ?_, fun l hl hr hx => (key l hl hr hx).2⟩
  obtain ⟨_, _, i3, _, _⟩ := filterBy_lives hF hl
  have hx : Exited l := hs.resolve_left i3
  obtain ⟨a, b, e⟩ := List.append_of_mem (key l hl hr hx).1
  refine ⟨a, b, e, ?_⟩
  rintro (h | h)
  · exact i3 (by rw [e]; exact List.mem_append_left _ h)
  · exact (hl.before e).1 h

theorem filterBy_follows {F : Bytes → Bytes} (hF : ∀ x y, x <+: y → F x <+: F y) : (filterBy F true).Follows F := fun _ hl => (filterBy_lives (fun _ => hF) hl).1

/-! ## A file, a program that counts bytes up, one that reverses everything, a file -/

def straw : Config where
  faucet := [("field".toList, "a.txt".toList)]
  drain := [("sack".toList, "b.txt".toList)]
  regulator := []
  launch := [("grind".toList, ⟨some "tr".toList, none, [], []⟩), ("sieve".toList, ⟨some "tac".toList, none, [], []⟩)]
  connection := [("m".toList, .conns [.start .faucet "field".toList .out none, .middle .launch "grind".toList ⟨.terminate, 0⟩ .out none, .middle .launch "sieve".toList ⟨.terminate, 0⟩ .out none,
    .end .drain "sack".toList ⟨.terminate, 0⟩ none])]

def strawField : Hop := ⟨⟨.faucet, "field".toList, .out⟩, none, ⟨.launch, "grind".toList⟩, ⟨.terminate, 0⟩, none⟩
def strawGrind : Hop := ⟨⟨.launch, "grind".toList, .out⟩, none, ⟨.launch, "sieve".toList⟩, ⟨.terminate, 0⟩, none⟩
def strawSieve : Hop := ⟨⟨.launch, "sieve".toList, .out⟩, none, ⟨.drain, "sack".toList⟩, ⟨.terminate, 0⟩, none⟩

theorem straw_hops {b i h} (hh : straw.HopOf b i h) :
    (b = "m".toList ∧ i = 0 ∧ h = strawField) ∨ (b = "m".toList ∧ i = 1 ∧ h = strawGrind) ∨ (b = "m".toList ∧ i = 2 ∧ h = strawSieve) := by
  obtain ⟨d, cs, hm, hd, x, y, hx, hy, e1, e2, e3, e4⟩ := hh
  obtain ⟨s, st, t, inp, dst⟩ := h
  simp only [straw, List.mem_cons, Prod.mk.injEq, List.not_mem_nil, or_false] at hm
  obtain ⟨rfl, rfl⟩ := hm
  simp only [DConn.Means] at hd
  subst hd
  rcases i with _ | _ | _ | i <;> simp at hx hy
  · subst hx hy
    simp [Connection.out, Connection.into, Connection.setName] at e1 e2 e3 e4
    simp [strawField, ← e1, ← e2, ← e3.1, ← e3.2, ← e4]
  · subst hx hy
    simp [Connection.out, Connection.into, Connection.setName] at e1 e2 e3 e4
    simp [strawGrind, ← e1, ← e2, ← e3.1, ← e3.2, ← e4]
  · subst hx hy
    simp [Connection.out, Connection.into, Connection.setName] at e1 e2 e3 e4
    simp [strawSieve, ← e1, ← e2, ← e3.1, ← e3.2, ← e4]
theorem straw_field : straw.HopOf "m".toList 0 strawField := ⟨_, _, List.mem_cons_self, rfl, _, _, rfl, rfl, rfl, rfl, rfl, rfl⟩
theorem straw_grind : straw.HopOf "m".toList 1 strawGrind := ⟨_, _, List.mem_cons_self, rfl, _, _, rfl, rfl, rfl, rfl, rfl, rfl⟩
theorem straw_sieve : straw.HopOf "m".toList 2 strawSieve := ⟨_, _, List.mem_cons_self, rfl, _, _, rfl, rfl, rfl, rfl, rfl, rfl⟩

theorem straw_sound : straw.Sound [strawField, strawGrind, strawSieve] := by
  refine ⟨by decide +kernel, ?_, ?_, ⟨?_, ?_, ?_, ?_, ?_, ?_⟩, ?_, complete_of (by decide +kernel) (by decide +kernel)⟩
  · intro b d h
    simp only [straw, List.mem_cons, Prod.mk.injEq, List.not_mem_nil, or_false] at h
    obtain ⟨_, rfl⟩ := h
    refine ⟨_, rfl, by simp, ?_, ?_⟩
    · intro i a hi
      rcases i with _ | _ | _ | i <;> simp at hi
      all_goals (subst hi; simp [Connection.into])
    · intro i a b hi hi'
      rcases i with _ | _ | _ | i <;> simp at hi hi'
      all_goals (subst hi; simp [Connection.out])
  · intro b i h hh hd
    rcases straw_hops hh with ⟨_, _, rfl⟩ | ⟨_, _, rfl⟩ | ⟨_, _, rfl⟩ <;> simp [strawField, strawGrind, strawSieve, straw, Map.keys] at hd ⊢
  · intro b i h hh
    rcases straw_hops hh with ⟨_, _, rfl⟩ | ⟨_, _, rfl⟩ | ⟨_, _, rfl⟩ <;> simp [Config.Runnable, Hop.from, Hop.to, strawField, strawGrind, strawSieve, straw, Map.get, List.lookup]
  · intro b i h hh
    rcases straw_hops hh with ⟨_, _, rfl⟩ | ⟨_, _, rfl⟩ | ⟨_, _, rfl⟩ <;> simp [strawField, strawGrind, strawSieve]
  · intro b i h hh
    rcases straw_hops hh with ⟨_, _, rfl⟩ | ⟨_, _, rfl⟩ | ⟨_, _, rfl⟩ <;> simp [strawField, strawGrind, strawSieve]
  · intro b i h hh
    rcases straw_hops hh with ⟨_, _, rfl⟩ | ⟨_, _, rfl⟩ | ⟨_, _, rfl⟩ <;> simp [strawField, strawGrind, strawSieve]
  · intro b i h b' i' h' hh hh'
    rcases straw_hops hh with ⟨_, _, rfl⟩ | ⟨_, _, rfl⟩ | ⟨_, _, rfl⟩ <;> rcases straw_hops hh' with ⟨_, _, rfl⟩ | ⟨_, _, rfl⟩ | ⟨_, _, rfl⟩ <;> simp [strawField, strawGrind, strawSieve]
  · intro b i h k hh
    rcases straw_hops hh with ⟨_, _, rfl⟩ | ⟨_, _, rfl⟩ | ⟨_, _, rfl⟩ <;> intros <;> rfl
  · intro h
    constructor
    · intro hh
      simp only [List.mem_cons, List.not_mem_nil, or_false] at hh
      rcases hh with rfl | rfl | rfl
      · exact ⟨_, _, straw_field⟩
      · exact ⟨_, _, straw_grind⟩
      · exact ⟨_, _, straw_sieve⟩
    · rintro ⟨b, i, hh⟩
      rcases straw_hops hh with ⟨_, _, rfl⟩ | ⟨_, _, rfl⟩ | ⟨_, _, rfl⟩ <;> simp

def strawWaiter : Waiter := match manipulate id id id straw with
  | some (c', _) => ((getWaiter c').ok?).getD Waiter.new
  | none => Waiter.new
theorem straw_made : ∃ c' printed, manipulate id id id straw = some (c', printed) ∧ getWaiter c' = .ok strawWaiter := by
  cases h : manipulate id id id straw with
  | none => exact absurd (show (manipulate id id id straw).isSome = true by decide +kernel) (by simp [h])
  | some x =>
    refine ⟨x.1, x.2, rfl, ?_⟩
    have h1 : strawWaiter = ((getWaiter x.1).ok?).getD Waiter.new := by simp only [strawWaiter, h]
    have h2 : ((manipulate id id id straw).bind fun x => (getWaiter x.1).ok?).isSome = true := by decide +kernel
    rw [h] at h2
    simp only [Option.bind_some] at h2
    rw [h1]
    cases h3 : getWaiter x.1 with
    | ok w => rfl
    | err e => rw [h3] at h2; cases h2
    | panic => rw [h3] at h2; cases h2

/-- A program that counts every byte up, as soon as it can, and one that reverses all of its input. -/
def raised : Bytes → Bytes := List.map (· + 1)
theorem raised_mono (x y : Bytes) (h : x <+: y) : raised x <+: raised y := h.map _
def strawProgs : Str → Program := fun x => if x = "grind".toList then filterBy raised true else filterBy List.reverse false
theorem straw_first : (strawProgs "grind".toList).Filters raised := filterBy_filters fun _ => raised_mono
theorem straw_second : (strawProgs "sieve".toList).Filters List.reverse := filterBy_filters (early := false) (by intro h; cases h)

def strawText : Bytes := [1, 2, 10, 3, 4, 5, 6, 10]
def strawFeed : Feed := fun h => if h = 12 then [[1, 2, 10], [3, 4, 5, 6, 10]] else []
/-- The whole run, in the order in which it goes if everybody tries in turn. Pipes hold two bytes. -/
def strawAll : List Happening := strawWaiter.worldDrive [] quernCaps 2 strawProgs strawFeed (([24, 24, 1, 24, 1, 24, 36, 1, 24, 36, 1, 2, 24, 36, 1, 36, 1, 2, 36, 1, 36, 2, 36, 1, 36, 1, 2, 36, 1, 36, 1, 2,
  1, 36, 36, 2, 2, 13, 2, 13, 37, 2, 13, 37, 2, 4, 13, 37, 4, 6, 13, 37, 4, 6, 13, 6, 13, 13, 13, 37, 37, 14, 37, 14, 37, 14, 37, 14, 37, 14, 14, 30, 14, 30, 14, 30, 14, 16, 30, 16, 18, 30, 16, 18, 18] :
  List Nat).filterMap fun k => (strawWaiter.everybody [])[k]?)

theorem straw_runs : strawWaiter.WorldRun [] quernCaps 2 strawProgs strawAll := Waiter.worldDrive_runs _ _
theorem straw_launches : ∀ x, strawWaiter.comps.get (.launch, x) ≠ none → x = "grind".toList ∨ x = "sieve".toList := by
  intro x hx
  obtain ⟨y, hy⟩ := Option.ne_none_iff_exists'.mp hx
  have hk : ∀ z ∈ strawWaiter.comps, z.1.1 = .launch → z.1.2 = "grind".toList ∨ z.1.2 = "sieve".toList := by decide +kernel
  exact hk ((.launch, x), y) (Table.get_mem hy) rfl
theorem straw_over : strawWaiter.AllOver [] strawAll := by
  have h : Exited (historyOf "grind".toList strawAll) ∧ Exited (historyOf "sieve".toList strawAll) := by decide +kernel
  refine ⟨Waiter.overNow_sound (by decide +kernel), fun x hx => ?_⟩
  rcases straw_launches x hx with rfl | rfl
  · exact h.1
  · exact h.2
theorem straw_calm : ∀ i, ∀ f ∈ acts (proj i (coreOf strawAll)), f.trouble = false := straw_runs.core.calm (by decide +kernel)

theorem straw_supplies : ∀ b i g, straw.HopOf b i g → g.src.ty = .faucet → strawWaiter.Supplies (coreOf strawAll) g strawText := by
  intro b i g hh hg
  rcases straw_hops hh with ⟨_, _, rfl⟩ | ⟨_, _, rfl⟩ | ⟨_, _, rfl⟩
  · exact Or.inl ⟨12, [[1, 2], [10, 3, 4, 5], [6, 10]], by decide +kernel, by decide, by decide +kernel, by unfold ReadsFrom; decide +kernel⟩
  · cases hg
  · cases hg

theorem straw_into {h : Hop} (hh : h ∈ [strawField, strawGrind, strawSieve]) :
    straw.Into h.dst [("m".toList, if h.dst.name = "grind".toList then 0 else if h.dst.name = "sieve".toList then 1 else 2)] := by
  refine ⟨by simp, fun b i => ?_⟩
  simp only [List.mem_cons, List.not_mem_nil, or_false] at hh
  constructor
  · intro hm
    simp only [List.mem_cons, List.not_mem_nil, or_false] at hm
    rcases hh with rfl | rfl | rfl
    · cases hm; exact ⟨_, straw_field, rfl⟩
    · cases hm; exact ⟨_, straw_grind, rfl⟩
    · cases hm; exact ⟨_, straw_sieve, rfl⟩
  · rintro ⟨g, hg, e⟩
    rcases hh with rfl | rfl | rfl <;> rcases straw_hops hg with ⟨rfl, rfl, rfl⟩ | ⟨rfl, rfl, rfl⟩ | ⟨rfl, rfl, rfl⟩ <;> first | (cases e; done) | decide +kernel

theorem straw_gives : straw.Gives strawProgs (fun _ => strawText) strawSieve (List.reverse (raised strawText)) :=
  .program straw_sieve rfl rfl straw_second straw_grind rfl (straw_into (by simp)) (.stream straw_grind (Or.inr rfl) .none)
    (.program straw_grind rfl rfl straw_first straw_field rfl (straw_into (by simp)) (.stream straw_field (Or.inl rfl) .none) (.file straw_field rfl))

/-- What is written to the file is the other file, every byte counted up, the whole reversed. -/
example : bytesIn 15 (proj (.part (.drain, "sack".toList) .main) (coreOf strawAll)) = List.reverse (raised strawText) := by
  obtain ⟨c', printed, h1, h2⟩ := straw_made
  have e1 : 15 = 3 * strawWaiter.idOf strawSieve.to := by decide +kernel
  rw [e1]
  exact C86_pipeline (perm := id) (perm' := id) (spyOrder := id) (order := []) (cs := []) straw_sound (fun _ => .refl _) (fun _ => .refl _) (fun _ => .refl _) h1 h2 rfl straw_runs straw_over straw_calm
    straw_supplies (h := strawSieve) straw_sieve rfl (by decide +kernel) (straw_into (by simp)) (.stream straw_sieve (Or.inr rfl) .none) straw_gives

-- what it came to
example : bytesIn 15 (proj (.part (.drain, "sack".toList) .main) (coreOf strawAll)) = [11, 7, 6, 5, 4, 11, 3, 2] := by decide +kernel

def strawRank : CompRef → Nat
  | (.launch, x) => if x = "grind".toList then 1 else 2
  | (.drain, _) => 3
  | _ => 0
theorem straw_free : NoWayBack [strawField, strawGrind, strawSieve] := C85_components (noReturn strawRank (by
  have : ∀ h ∈ [strawField, strawGrind, strawSieve], strawRank h.from < strawRank h.to := by decide +kernel
  rintro a b ⟨h, hm, rfl, rfl⟩
  exact this h hm))
theorem straw_patient : ∀ x, strawWaiter.comps.get (.launch, x) ≠ none → (strawProgs x).Patient := by
  intro x hx
  rcases straw_launches x hx with rfl | rfl
  · exact straw_first.reads
  · exact straw_second.reads

/-- The same without knowing that all has ended or that no stream has failed. -/
example : bytesIn 15 (proj (.part (.drain, "sack".toList) .main) (coreOf strawAll)) = List.reverse (raised strawText) := by
  obtain ⟨c', printed, h1, h2⟩ := straw_made
  obtain ⟨st, hst⟩ := Option.isSome_iff_exists.mp straw_runs.core.exec.chans
  have e1 : 15 = 3 * strawWaiter.idOf strawSieve.to := by decide +kernel
  rw [e1]
  exact (C86_unix (perm := id) (perm' := id) (spyOrder := id) (order := []) straw_sound (fun _ => .refl _) (fun _ => .refl _) (fun _ => .refl _) h1 h2 rfl straw_free
    (fun k ch => by unfold quernCaps; split <;> simp) (by decide) straw_runs hst straw_patient (fun i _ => straw_calm i) (fun ⟨a, ha, _⟩ => straw_over.still ha) straw_supplies).2
    (h := strawSieve) straw_sieve rfl (by decide +kernel) (straw_into (by simp)) (.stream straw_sieve (Or.inr rfl) .none) straw_gives

/-- The same for two programs that count bytes up, whatever becomes of the files, in the middle of it. -/
def chaffSome : List Happening := strawWaiter.worldDrive [] quernCaps 2 (fun _ => filterBy raised true) strawFeed (([24, 24, 1, 24, 1, 24, 36, 1, 24, 36, 1, 2, 24, 36, 1, 36, 1, 2, 36, 1, 36, 2, 36, 1, 36, 1,
  2, 36, 1, 36, 1, 2, 1, 36, 36, 2, 2, 13, 2, 13, 37, 2, 13, 37, 2, 4, 14, 37, 4, 6, 13, 37, 4, 6, 14, 37, 6, 13, 37, 13, 14, 37, 13, 37, 13, 14, 13, 37, 37, 14, 14, 30, 14, 30, 14, 30, 14] : List Nat).filterMap fun k => (strawWaiter.everybody [])[k]?)
theorem chaff_runs : strawWaiter.WorldRun [] quernCaps 2 (fun _ => filterBy raised true) chaffSome := Waiter.worldDrive_runs _ _
theorem chaff_supplies : ∀ b i g, straw.HopOf b i g → g.src.ty = .faucet → strawWaiter.Supplies (coreOf chaffSome) g strawText := by
  intro b i g hh hg
  rcases straw_hops hh with ⟨_, _, rfl⟩ | ⟨_, _, rfl⟩ | ⟨_, _, rfl⟩
  · exact Or.inl ⟨12, [[1, 2], [10, 3, 4, 5], [6, 10]], by decide +kernel, by decide, by decide +kernel, by unfold ReadsFrom; decide +kernel⟩
  · cases hg
  · cases hg

theorem chaff_gives : straw.GivesAtMost (fun _ => filterBy raised true) (fun _ => strawText) strawSieve (raised (raised strawText)) :=
  .program straw_sieve rfl rfl (filterBy_follows raised_mono) raised_mono straw_grind rfl (straw_into (by simp)) (.stream straw_grind (Or.inr rfl) .none)
    (.program straw_grind rfl rfl (filterBy_follows raised_mono) raised_mono straw_field rfl (straw_into (by simp)) (.stream straw_field (Or.inl rfl) .none) (.file straw_field rfl))

example : bytesTo 15 (proj (.part (.drain, "sack".toList) .main) (coreOf chaffSome)) <+: raised (raised strawText) := by
  obtain ⟨c', printed, h1, h2⟩ := straw_made
  have e1 : 15 = 3 * strawWaiter.idOf strawSieve.to := by decide +kernel
  rw [e1]
  exact C86_follows (perm := id) (perm' := id) (spyOrder := id) (order := []) (cs := []) straw_sound (fun _ => .refl _) (fun _ => .refl _) (fun _ => .refl _) h1 h2 rfl chaff_runs
    chaff_supplies (h := strawSieve) straw_sieve rfl (straw_into (by simp)) (.stream straw_sieve (Or.inr rfl) .none) chaff_gives

-- what it came to
example : takenIn (historyOf "sieve".toList chaffSome) = [2, 3, 11, 4, 5, 6, 7, 11] := by decide +kernel
example : bytesTo 15 (proj (.part (.drain, "sack".toList) .main) (coreOf chaffSome)) = [3, 4, 12, 5, 6, 7, 8, 12] := by decide +kernel

end Verif
