import Verif.Props.WorldSolve
import Verif.Props.WorldEndsExample
/-!
# Property C90: examples
-/
namespace Verif

/-! ## Programs that print on both outputs -/

/-- Reads its input to the end, prints a function of it, prints errors, and ends with a code, all depending on what it has read. -/
def worker (F G : Bytes → Bytes) (K : Bytes → Option Int) : Program := fun l =>
  if .sawEnd ∉ l then .read
  else if (putOut .out l).length < (F (takenIn l)).length ∧ .refused .out ∉ l then .write .out ((F (takenIn l)).drop (putOut .out l).length)
  else if (putOut .err l).length < (G (takenIn l)).length ∧ .refused .err ∉ l then .write .err ((G (takenIn l)).drop (putOut .err l).length)
  else .exit (K (takenIn l))

def yes (p : Prop) [Decidable p] : Nat := if p then 1 else 0

structure Works (F G : Bytes → Bytes) (K : Bytes → Option Int) (l : List PEv) : Prop where
  opened : PEv.shutIn ∉ l ∧ ∀ p, PEv.shut p ∉ l
  out : putOut .out l <+: F (takenIn l)
  err : putOut .err l <+: G (takenIn l)
  early : .sawEnd ∉ l → putOut .out l = [] ∧ putOut .err l = []
  steps : ∃ d, l.length ≤ (takenIn l).length + (putOut .out l).length + (putOut .err l).length + yes (.sawEnd ∈ l) + yes (.refused .out ∈ l) + yes (.refused .err ∈ l) + d ∧ d ≤ 1 ∧ (¬ Exited l → d = 0)
  ended : ∀ k, .exit k ∈ l → .sawEnd ∈ l ∧ k = K (takenIn l) ∧ (.refused .out ∈ l ∨ putOut .out l = F (takenIn l)) ∧ (.refused .err ∈ l ∨ putOut .err l = G (takenIn l))

theorem worker_lives {F G : Bytes → Bytes} {K : Bytes → Option Int} {l : List PEv} (h : (worker F G K).Lives l) : Works F G K l := by
  induction h with
  | start => exact ⟨by simp, List.nil_prefix, List.nil_prefix, fun _ => ⟨rfl, rfl⟩, ⟨0, by simp, by omega, fun _ => rfl⟩, by simp⟩
  | @next l e h1 h2 h3 ih =>
    obtain ⟨⟨i1, i1'⟩, i2, i3, i4, ⟨d, i5, i6, i7⟩, i8⟩ := ih
    have hd := i7 h2
    subst hd
    have noexit : ∀ k, PEv.exit k ∉ l := fun k hk => h2 ⟨k, hk⟩
    by_cases c1 : PEv.sawEnd ∉ l
    · have hw : worker F G K l = .read := by simp only [worker]; rw [if_pos c1]
      obtain ⟨e1, e2⟩ := i4 c1
      rcases h3.of_read hw with ⟨d, rfl⟩ | rfl
      · rw [hw] at h3
        have hpos : 0 < d.length := by cases h3 with | took h => exact List.length_pos_iff.mpr h
        have t : takenIn [PEv.took d] = d := by simp [takenIn]
        have p : ∀ q, putOut q [PEv.took d] = [] := fun q => by simp [putOut]
        refine ⟨by simpa using ⟨i1, i1'⟩, ?_, ?_, ?_, ⟨0, ?_, by omega, fun _ => rfl⟩, ?_⟩
        · rw [putOut_snoc, p, e1]; exact List.nil_prefix
        · rw [putOut_snoc, p, e2]; exact List.nil_prefix
        · intro _; simp [putOut_snoc, p, e1, e2]
        · simp only [takenIn_snoc, t, putOut_snoc, p, List.length_append, List.mem_append, List.mem_singleton, reduceCtorEq, or_false, List.length_nil, List.length_singleton]
          omega
        · intro k hk
          simp [noexit] at hk
      · have t : takenIn [PEv.sawEnd] = [] := by simp [takenIn]
        have p : ∀ q, putOut q [PEv.sawEnd] = [] := fun q => by simp [putOut]
        refine ⟨by simpa using ⟨i1, i1'⟩, ?_, ?_, ?_, ⟨0, ?_, by omega, fun _ => rfl⟩, ?_⟩
        · rw [putOut_snoc, p, e1]; exact List.nil_prefix
        · rw [putOut_snoc, p, e2]; exact List.nil_prefix
        · intro _; simp [putOut_snoc, p, e1, e2]
        · have y0 : yes (PEv.sawEnd ∈ l) = 0 := if_neg c1
          have y1 : yes (PEv.sawEnd ∈ l ++ [PEv.sawEnd]) = 1 := if_pos (by simp)
          rw [y1]
          simp only [takenIn_snoc, t, putOut_snoc, p, List.length_append, List.mem_append, List.mem_singleton, reduceCtorEq, or_false, List.length_nil, List.length_singleton]
          omega
        · intro k hk
          simp [noexit] at hk
    have c1' : PEv.sawEnd ∈ l := Classical.byContradiction c1
    -- writing to one of the outputs
    have writes : ∀ (q : Port) (H : Bytes), (q = .out ∨ q = .err) → putOut q l <+: H → (∀ m, putOut q l ++ m <+: H → putOut .out (l ++ [.put q m]) <+: F (takenIn l) ∧ putOut .err (l ++ [.put q m]) <+: G (takenIn l)) →
        (putOut q l).length < H.length → .refused q ∉ l → worker F G K l = .write q (H.drop (putOut q l).length) → Works F G K (l ++ [e]) := by
      intro q H hq hH hm hlt hr hw
      rcases h3.of_write hw with ⟨m, rfl, hd⟩ | rfl
      · rw [hw] at h3
        have hne : H.drop (putOut q l).length ≠ [] := by
          intro h
          have := congrArg List.length h
          simp at this
          omega
        have hpos : 0 < m.length := by cases h3 with | put _ h => exact List.length_pos_iff.mpr (h hne)
        obtain ⟨m1, m2⟩ := hm m (prefix_grow hH hd)
        have t : takenIn (l ++ [PEv.put q m]) = takenIn l := by simp [takenIn]
        refine ⟨by simpa using ⟨i1, i1'⟩, by rwa [t], by rwa [t], fun h => absurd (by simp [c1']) h, ⟨0, ?_, by omega, fun _ => rfl⟩, ?_⟩
        · simp only [t, List.length_append, List.mem_append, List.mem_singleton, reduceCtorEq, or_false, List.length_nil, List.length_singleton]
          have : (putOut .out (l ++ [.put q m])).length + (putOut .err (l ++ [.put q m])).length = (putOut .out l).length + (putOut .err l).length + m.length := by
            rcases hq with rfl | rfl <;> simp [putOut] <;> omega
          omega
        · intro k hk
          simp [noexit] at hk
      · have t : takenIn (l ++ [PEv.refused q]) = takenIn l := by simp [takenIn]
        have p : ∀ q', putOut q' (l ++ [PEv.refused q]) = putOut q' l := fun q' => by simp [putOut]
        refine ⟨by simpa using ⟨i1, i1'⟩, by rwa [t, p], by rwa [t, p], fun h => absurd (by simp [c1']) h, ⟨0, ?_, by omega, fun _ => rfl⟩, ?_⟩
        · simp only [t, p, List.length_append, List.length_nil, List.length_singleton]
          have y1 : yes (PEv.sawEnd ∈ l ++ [PEv.refused q]) = yes (PEv.sawEnd ∈ l) := by simp [yes]
          have y2 : yes (PEv.refused .out ∈ l ++ [PEv.refused q]) + yes (PEv.refused .err ∈ l ++ [PEv.refused q]) = yes (PEv.refused .out ∈ l) + yes (PEv.refused .err ∈ l) + 1 := by
            rcases hq with rfl | rfl <;> simp [yes, hr] <;> omega
          omega
        · intro k hk
          simp [noexit] at hk
    by_cases c2 : (putOut .out l).length < (F (takenIn l)).length ∧ .refused .out ∉ l
    · exact writes .out _ (Or.inl rfl) i2 (fun m hm => ⟨by simpa [putOut] using hm, by simpa [putOut] using i3⟩) c2.1 c2.2 (by simp only [worker]; rw [if_neg c1, if_pos c2])
    by_cases c3 : (putOut .err l).length < (G (takenIn l)).length ∧ .refused .err ∉ l
    · exact writes .err _ (Or.inr rfl) i3 (fun m hm => ⟨by simpa [putOut] using i2, by simpa [putOut] using hm⟩) c3.1 c3.2 (by simp only [worker]; rw [if_neg c1, if_neg c2, if_pos c3])
    have := h3.of_exit (c := K (takenIn l)) (by simp only [worker]; rw [if_neg c1, if_neg c2, if_neg c3])
    subst this
    have t : takenIn (l ++ [PEv.exit (K (takenIn l))]) = takenIn l := by simp [takenIn]
    have p : ∀ q', putOut q' (l ++ [PEv.exit (K (takenIn l))]) = putOut q' l := fun q' => by simp [putOut]
    refine ⟨by simpa using ⟨i1, i1'⟩, by rwa [t, p], by rwa [t, p], fun h => absurd (by simp [c1']) h, ⟨1, ?_, by omega, fun h => absurd ⟨K (takenIn l), by simp⟩ h⟩, ?_⟩
    · simp only [t, p, List.length_append, List.length_nil, List.length_singleton, List.mem_append, List.mem_singleton, reduceCtorEq, or_false]
      omega
    · intro k hk
      have hk' : k = K (takenIn l) := by simpa [noexit] using hk
      have full : ∀ {q : Port} {H : Bytes}, putOut q l <+: H → ¬ ((putOut q l).length < H.length ∧ .refused q ∉ l) → .refused q ∈ l ∨ putOut q l = H := fun {q H} h1 h2 => by
        by_cases hr : .refused q ∈ l
        · exact Or.inl hr
        · have := h1.length_le
          exact Or.inr (h1.eq_of_length (by have : ¬ _ := fun h => h2 ⟨h, hr⟩; omega))
      rw [t, p, p]
      simp only [List.mem_append, List.mem_singleton, reduceCtorEq, or_false]
      exact ⟨c1', hk', full i2 c2, full i3 c3⟩

/-- What such a program does. -/
def Deed.By (F G : Bytes → Bytes) (K : Bytes → Option Int) (d : Deed) : Prop := d.out = F d.read ∧ d.err = G d.read ∧ d.code = K d.read

theorem worker_meets (F G : Bytes → Bytes) (K : Bytes → Option Int) : (worker F G K).Meets (Deed.By F G K) := by
  have heard : ∀ l, (worker F G K).Lives l → Regular l → ∀ p, .refused p ∉ l := fun l hl hr p h => by
    obtain ⟨a, b, e⟩ := List.append_of_mem h
    rcases hr.listened a p b e with h | h
    · exact (worker_lives hl).opened.2 p (by rw [e]; exact List.mem_append_left _ h)
    · exact (hl.before e).1 h
  refine ⟨fun l hl hr hs => ?_, fun l d hl hr hd => ?_⟩
  · have hx : Exited l := hs.resolve_left (worker_lives hl).opened.1
    obtain ⟨k, hk⟩ := hx
    obtain ⟨a, b, e⟩ := List.append_of_mem ((worker_lives hl).ended k hk).1
    refine ⟨a, b, e, ?_⟩
    rintro (h | h)
    · exact (worker_lives hl).opened.1 (by rw [e]; exact List.mem_append_left _ h)
    · exact (hl.before e).1 h
  · obtain ⟨e1, e2, e3, e4⟩ := hd
    obtain ⟨_, h1, h2, h3⟩ := (worker_lives hl).ended _ e4
    rw [Deed.By, e1, e2, e3]
    exact ⟨h2.resolve_left (heard l hl hr _), h3.resolve_left (heard l hl hr _), h1⟩

theorem worker_finite (F G : Bytes → Bytes) (K : Bytes → Option Int) : (worker F G K).Finite := by
  refine Program.finite_of (fun t => t.length + (F t).length + (G t).length + 4) fun l hl => ?_
  obtain ⟨_, h1, h2, _, ⟨d, h3, h4, _⟩, _⟩ := worker_lives hl
  have := h1.length_le
  have := h2.length_le
  have y : ∀ (p : Prop) [Decidable p], yes p ≤ 1 := fun p _ => by unfold yes; split <;> omega
  have := y (PEv.sawEnd ∈ l)
  have := y (PEv.refused .out ∈ l)
  have := y (PEv.refused .err ∈ l)
  omega

/-! ## A program both outputs of which lead to another program -/

def kiln : Config where
  faucet := [("ore".toList, "a.txt".toList)]
  drain := [("bell".toList, "c.txt".toList), ("chest".toList, "b.txt".toList)]
  regulator := []
  launch := [("forge".toList, ⟨some "wc".toList, none, [], []⟩), ("smelt".toList, ⟨some "sh".toList, none, [], []⟩)]
  connection := [("a".toList, .conns [.start .faucet "ore".toList .out none, .middle .launch "smelt".toList ⟨.terminate, 0⟩ .out none, .middle .launch "forge".toList ⟨.terminate, 0⟩ .out none,
      .end .drain "chest".toList ⟨.terminate, 0⟩ none]),
    ("b".toList, .conns [.start .launch "smelt".toList .err none, .end .launch "forge".toList ⟨.terminate, 0⟩ none]),
    ("c".toList, .conns [.start .launch "smelt".toList .exit none, .end .drain "bell".toList ⟨.terminate, 0⟩ none])]

def kilnOre : Hop := ⟨⟨.faucet, "ore".toList, .out⟩, none, ⟨.launch, "smelt".toList⟩, ⟨.terminate, 0⟩, none⟩
def kilnIron : Hop := ⟨⟨.launch, "smelt".toList, .out⟩, none, ⟨.launch, "forge".toList⟩, ⟨.terminate, 0⟩, none⟩
def kilnForge : Hop := ⟨⟨.launch, "forge".toList, .out⟩, none, ⟨.drain, "chest".toList⟩, ⟨.terminate, 0⟩, none⟩
def kilnSlag : Hop := ⟨⟨.launch, "smelt".toList, .err⟩, none, ⟨.launch, "forge".toList⟩, ⟨.terminate, 0⟩, none⟩
def kilnBell : Hop := ⟨⟨.launch, "smelt".toList, .exit⟩, none, ⟨.drain, "bell".toList⟩, ⟨.terminate, 0⟩, none⟩
def kilnHops : List Hop := [kilnOre, kilnIron, kilnForge, kilnSlag, kilnBell]

def kilnWaiter : Waiter := match manipulate id id id kiln with
  | some (c', _) => ((getWaiter c').ok?).getD Waiter.new
  | none => Waiter.new

/-- The first program copies its input, prints a line of errors and ends with 3; the second one prints how much it has read. -/
def kilnProgs : Str → Program := fun x => if x = "smelt".toList then worker (fun t => t) (fun _ => [9, 10]) (fun _ => some 3) else worker (fun t => [t.length.toUInt8, 10]) (fun _ => []) (fun _ => some 0)
def kilnKnown : Str → Deed → Prop := fun x => if x = "smelt".toList then Deed.By (fun t => t) (fun _ => [9, 10]) (fun _ => some 3) else Deed.By (fun t => [t.length.toUInt8, 10]) (fun _ => []) (fun _ => some 0)
def kilnText : Bytes := [1, 2, 10, 3, 4]

theorem kiln_hops {b i h} (hh : kiln.HopOf b i h) :
    (b = "a".toList ∧ i = 0 ∧ h = kilnOre) ∨ (b = "a".toList ∧ i = 1 ∧ h = kilnIron) ∨ (b = "a".toList ∧ i = 2 ∧ h = kilnForge) ∨ (b = "b".toList ∧ i = 0 ∧ h = kilnSlag) ∨ (b = "c".toList ∧ i = 0 ∧ h = kilnBell) := by
  obtain ⟨d, cs, hm, hd, x, y, hx, hy, e1, e2, e3, e4⟩ := hh
  obtain ⟨s, st, t, inp, dst⟩ := h
  simp only [kiln, List.mem_cons, Prod.mk.injEq, List.not_mem_nil, or_false] at hm
  rcases hm with ⟨rfl, rfl⟩ | ⟨rfl, rfl⟩ | ⟨rfl, rfl⟩
  all_goals
    simp only [DConn.Means] at hd
    subst hd
    rcases i with _ | _ | _ | i <;> simp at hx hy
    all_goals
      subst hx hy
      simp [Connection.out, Connection.into, Connection.setName] at e1 e2 e3 e4
      simp [kilnOre, kilnIron, kilnForge, kilnSlag, kilnBell, ← e1, ← e2, ← e3.1, ← e3.2, ← e4]
theorem kiln_ore : kiln.HopOf "a".toList 0 kilnOre := ⟨_, _, List.mem_cons_self, rfl, _, _, rfl, rfl, rfl, rfl, rfl, rfl⟩
theorem kiln_iron : kiln.HopOf "a".toList 1 kilnIron := ⟨_, _, List.mem_cons_self, rfl, _, _, rfl, rfl, rfl, rfl, rfl, rfl⟩
theorem kiln_forge : kiln.HopOf "a".toList 2 kilnForge := ⟨_, _, List.mem_cons_self, rfl, _, _, rfl, rfl, rfl, rfl, rfl, rfl⟩
theorem kiln_slag : kiln.HopOf "b".toList 0 kilnSlag := ⟨_, _, List.mem_cons_of_mem _ List.mem_cons_self, rfl, _, _, rfl, rfl, rfl, rfl, rfl, rfl⟩
theorem kiln_bell : kiln.HopOf "c".toList 0 kilnBell := ⟨_, _, List.mem_cons_of_mem _ (List.mem_cons_of_mem _ List.mem_cons_self), rfl, _, _, rfl, rfl, rfl, rfl, rfl, rfl⟩

theorem kiln_sound : kiln.Sound kilnHops := by
  refine ⟨by decide +kernel, ?_, ?_, ⟨?_, ?_, ?_, ?_, ?_, ?_⟩, ?_, complete_of (by decide +kernel) (by decide +kernel)⟩
  · intro b d h
    simp only [kiln, List.mem_cons, Prod.mk.injEq, List.not_mem_nil, or_false] at h
    rcases h with ⟨_, rfl⟩ | ⟨_, rfl⟩ | ⟨_, rfl⟩ <;>
    · refine ⟨_, rfl, by simp, ?_, ?_⟩
      · intro i a hi
        rcases i with _ | _ | _ | i <;> simp at hi
        all_goals (subst hi; simp [Connection.into])
      · intro i a b hi hi'
        rcases i with _ | _ | _ | i <;> simp at hi hi'
        all_goals (subst hi; simp [Connection.out])
  · intro b i h hh hd
    rcases kiln_hops hh with ⟨_, _, rfl⟩ | ⟨_, _, rfl⟩ | ⟨_, _, rfl⟩ | ⟨_, _, rfl⟩ | ⟨_, _, rfl⟩ <;> simp [kilnOre, kilnIron, kilnForge, kilnSlag, kilnBell, kiln, Map.keys] at hd ⊢
  · intro b i h hh
    rcases kiln_hops hh with ⟨_, _, rfl⟩ | ⟨_, _, rfl⟩ | ⟨_, _, rfl⟩ | ⟨_, _, rfl⟩ | ⟨_, _, rfl⟩ <;> simp [Config.Runnable, Hop.from, Hop.to, kilnOre, kilnIron, kilnForge, kilnSlag, kilnBell, kiln, Map.get, List.lookup]
  · intro b i h hh
    rcases kiln_hops hh with ⟨_, _, rfl⟩ | ⟨_, _, rfl⟩ | ⟨_, _, rfl⟩ | ⟨_, _, rfl⟩ | ⟨_, _, rfl⟩ <;> simp [kilnOre, kilnIron, kilnForge, kilnSlag, kilnBell]
  · intro b i h hh
    rcases kiln_hops hh with ⟨_, _, rfl⟩ | ⟨_, _, rfl⟩ | ⟨_, _, rfl⟩ | ⟨_, _, rfl⟩ | ⟨_, _, rfl⟩ <;> simp [kilnOre, kilnIron, kilnForge, kilnSlag, kilnBell]
  · intro b i h hh
    rcases kiln_hops hh with ⟨_, _, rfl⟩ | ⟨_, _, rfl⟩ | ⟨_, _, rfl⟩ | ⟨_, _, rfl⟩ | ⟨_, _, rfl⟩ <;> simp [kilnOre, kilnIron, kilnForge, kilnSlag, kilnBell]
  · intro b i h b' i' h' hh hh'
    rcases kiln_hops hh with ⟨_, _, rfl⟩ | ⟨_, _, rfl⟩ | ⟨_, _, rfl⟩ | ⟨_, _, rfl⟩ | ⟨_, _, rfl⟩ <;> rcases kiln_hops hh' with ⟨_, _, rfl⟩ | ⟨_, _, rfl⟩ | ⟨_, _, rfl⟩ | ⟨_, _, rfl⟩ | ⟨_, _, rfl⟩ <;> simp [kilnOre, kilnIron, kilnForge, kilnSlag, kilnBell]
  · intro b i h k hh
    rcases kiln_hops hh with ⟨_, _, rfl⟩ | ⟨_, _, rfl⟩ | ⟨_, _, rfl⟩ | ⟨_, _, rfl⟩ | ⟨_, _, rfl⟩ <;> intros <;> first | rfl | (simp_all [kilnOre, kilnIron, kilnForge, kilnSlag, kilnBell]; done)
  · intro h
    constructor
    · intro hh
      simp only [kilnHops, List.mem_cons, List.not_mem_nil, or_false] at hh
      rcases hh with rfl | rfl | rfl | rfl | rfl
      · exact ⟨_, _, kiln_ore⟩
      · exact ⟨_, _, kiln_iron⟩
      · exact ⟨_, _, kiln_forge⟩
      · exact ⟨_, _, kiln_slag⟩
      · exact ⟨_, _, kiln_bell⟩
    · rintro ⟨b, i, hh⟩
      rcases kiln_hops hh with ⟨_, _, rfl⟩ | ⟨_, _, rfl⟩ | ⟨_, _, rfl⟩ | ⟨_, _, rfl⟩ | ⟨_, _, rfl⟩ <;> simp [kilnHops]

theorem kiln_made : ∃ c' printed, manipulate id id id kiln = some (c', printed) ∧ getWaiter c' = .ok kilnWaiter := by
  cases h : manipulate id id id kiln with
  | none => exact absurd (show (manipulate id id id kiln).isSome = true by decide +kernel) (by simp [h])
  | some x =>
    refine ⟨x.1, x.2, rfl, ?_⟩
    have h1 : kilnWaiter = ((getWaiter x.1).ok?).getD Waiter.new := by simp only [kilnWaiter, h]
    have h2 : ((manipulate id id id kiln).bind fun x => (getWaiter x.1).ok?).isSome = true := by decide +kernel
    rw [h] at h2
    simp only [Option.bind_some] at h2
    rw [h1]
    cases h3 : getWaiter x.1 with
    | ok w => rfl
    | err e => rw [h3] at h2; cases h2
    | panic => rw [h3] at h2; cases h2

def kilnFeed : Feed := fun h => if h = 0 then [[1, 2, 10], [3, 4]] else []
/-- The whole run, in the order in which it goes if everybody tries in turn. Pipes hold two bytes. -/
def kilnAll : List Happening := kilnWaiter.worldDrive [] quernCaps 2 kilnProgs kilnFeed (([0, 12, 0, 7, 12, 0, 7, 12, 42, 0, 7, 12, 42, 0, 7, 12, 0, 7, 12, 7, 12, 42, 7, 12, 7, 12, 7, 12, 7, 12, 42, 12, 42, 8,
  12, 42, 8, 12, 42, 8, 12, 42, 8, 9, 12, 42, 8, 9, 12, 19, 8, 9, 12, 19, 43, 8, 9, 12, 19, 43, 8, 9, 12, 19, 8, 9, 19, 8, 10, 12, 19, 43, 10, 12, 19, 30, 10, 12, 19, 30, 12, 19, 30, 43, 12, 19, 30, 12, 19, 30, 19,
  19, 43, 43, 20, 43, 20, 20, 24, 20, 24, 20, 24, 20, 22, 24, 22, 24, 36, 22, 36, 36] : List Nat).filterMap fun k => (kilnWaiter.everybody [])[k]?)

theorem kiln_runs : kilnWaiter.WorldRun [] quernCaps 2 kilnProgs kilnAll := Waiter.worldDrive_runs _ _
theorem kiln_launches {x : Str} (h : kiln.Launches x) : x = "smelt".toList ∨ x = "forge".toList := by
  obtain ⟨b, i, h, hh, e⟩ := h
  rcases kiln_hops hh with ⟨_, _, rfl⟩ | ⟨_, _, rfl⟩ | ⟨_, _, rfl⟩ | ⟨_, _, rfl⟩ | ⟨_, _, rfl⟩ <;> simp [Hop.from, Hop.to, kilnOre, kilnIron, kilnForge, kilnSlag, kilnBell] at e <;> simp only [eq_comm (a := x)] <;> simp [e]
theorem kiln_over : kilnWaiter.AllOver [] kilnAll := by
  have h : Exited (historyOf "smelt".toList kilnAll) ∧ Exited (historyOf "forge".toList kilnAll) := by decide +kernel
  refine ⟨Waiter.overNow_sound (by decide +kernel), fun x hx => ?_⟩
  obtain ⟨c', printed, h1, h2⟩ := kiln_made
  rcases kiln_launches ((running kiln_sound (fun _ => .refl _) (fun _ => .refl _) (fun _ => .refl _) h1 h2 (order := []) rfl x).mp hx) with rfl | rfl
  · exact h.1
  · exact h.2
theorem kiln_calm : ∀ i, ∀ f ∈ acts (proj i (coreOf kilnAll)), f.trouble = false := kiln_runs.core.calm (by decide +kernel)
theorem kiln_supplies : ∀ b i g, kiln.HopOf b i g → g.src.ty = .faucet → kilnWaiter.Supplies (coreOf kilnAll) g kilnText := by
  intro b i g hh hg
  rcases kiln_hops hh with ⟨_, _, rfl⟩ | ⟨_, _, rfl⟩ | ⟨_, _, rfl⟩ | ⟨_, _, rfl⟩ | ⟨_, _, rfl⟩
  · exact Or.inl ⟨0, [kilnText], by decide +kernel, by decide, by decide +kernel, by unfold ReadsFrom; decide +kernel⟩
  all_goals cases hg
theorem kiln_meets {x : Str} (_ : kiln.Launches x) : (kilnProgs x).Meets (kilnKnown x) := by
  unfold kilnProgs kilnKnown
  split <;> exact worker_meets _ _ _
def kilnRank : CompRef → Nat
  | (.faucet, _) => 0
  | (.drain, _) => 3
  | (_, x) => if x = "smelt".toList then 1 else 2
theorem kiln_free : NoWayBack kilnHops := C85_components (noReturn kilnRank (by
  have : ∀ h ∈ kilnHops, kilnRank h.from < kilnRank h.to := by decide +kernel
  rintro a b ⟨h, hh, rfl, rfl⟩
  exact this h hh))
theorem kiln_fed : ∀ h ∈ kilnHops, h.src.ty = .faucet ∨ h.src.ty = .launch ∨ ∃ g ∈ kilnHops, g.to = h.from := by decide +kernel

theorem only_one {α : Type} {l : List α} {a : α} (hn : l.Nodup) (h : ∀ x, x ∈ l ↔ x = a) : l = [a] := by
  match l with
  | [] => exact absurd ((h a).mpr rfl) (by simp)
  | [x] => rw [(h x).mp (by simp)]
  | x :: y :: l =>
    have h1 := (h x).mp (by simp)
    have h2 := (h y).mp (by simp)
    simp [h1, h2] at hn

theorem Config.Sound.brings_one {c : Config} {hs : List Hop} (hS : c.Sound hs) {b : Str} {i : Nat} {h : Hop} (hh : c.HopOf b i h) (ht : h.src.ty = .faucet ∨ h.src.ty = .launch) {S : List Hop}
    (hB : c.Brings [(b, i)] S) : S = [h] := by
  cases hB with
  | stream h1 _ h3 => cases h3; cases hS.hop_unique h1 hh; rfl
  | through h1 n1 n2 _ _ _ _ => cases hS.hop_unique h1 hh; exact absurd ht (not_or.mpr ⟨n1, n2⟩)

theorem kiln_into {d : InRef} {x : Str × Nat} (h1 : ∃ h, kiln.HopOf x.1 x.2 h ∧ h.dst = d) (h2 : ∀ b i h, kiln.HopOf b i h → h.dst = d → (b, i) = x) {L : List (Str × Nat)} (hI : kiln.Into d L) : L = [x] :=
  only_one hI.1 fun y => ⟨fun hy => (by
    obtain ⟨h, h3, h4⟩ := (hI.2 y.1 y.2).mp hy
    exact h2 _ _ h h3 h4), fun hy => (by subst hy; exact (hI.2 y.1 y.2).mpr h1)⟩

theorem kiln_one {N : Hop} {b : Str} {i : Nat} (hN : kiln.HopOf b i N) (ht : N.src.ty = .faucet ∨ N.src.ty = .launch) (h2 : ∀ b' i' h, kiln.HopOf b' i' h → h.dst = N.dst → (b', i') = (b, i)) {L : List (Str × Nat)}
    {S : List Hop} (hI : kiln.Into N.dst L) (hB : kiln.Brings L S) : S = [N] := by
  rw [kiln_into ⟨N, hN, rfl⟩ h2 hI] at hB
  exact kiln_sound.brings_one hN ht hB

/-- What each of the programs does is settled by the streams it gets: the first one gets one stream only, and for the second one the order of lines does not matter. -/
theorem kiln_settled {x : Str} {L : List (Str × Nat)} {S : List Hop} (hx : kiln.Launches x) (hI : kiln.Into ⟨.launch, x⟩ L) (hB : kiln.Brings L S) : Foregone (kilnKnown x) S.length := by
  rcases kiln_launches hx with rfl | rfl
  · refine foregone_single ?_ ?_
    · rintro d d' h h' e
      have e1 : kilnKnown "smelt".toList = Deed.By (fun t => t) (fun _ => [9, 10]) (fun _ => some 3) := rfl
      rw [e1] at h h'
      exact ⟨h.1.trans (e.trans h'.1.symm), h.2.1.trans h'.2.1.symm, h.2.2.trans h'.2.2.symm⟩
    · rw [kiln_one kiln_ore (Or.inl rfl) (fun b i h hh e => by
        rcases kiln_hops hh with ⟨rfl, rfl, rfl⟩ | ⟨rfl, rfl, rfl⟩ | ⟨rfl, rfl, rfl⟩ | ⟨rfl, rfl, rfl⟩ | ⟨rfl, rfl, rfl⟩ <;> first | rfl | (cases e; done)) hI hB]
      exact Nat.le_refl 1
  · refine foregone_unordered ?_ _
    rintro l l' d d' h h' hp e e'
    have e1 : kilnKnown "forge".toList = Deed.By (fun t => [t.length.toUInt8, 10]) (fun _ => []) (fun _ => some 0) := rfl
    rw [e1] at h h'
    have : d.read.length = d'.read.length := by rw [e, e']; exact hp.flatten.length_eq
    exact ⟨by rw [h.1, h'.1]; simp only [this], h.2.1.trans h'.2.1.symm, h.2.2.trans h'.2.2.symm⟩

/-- What the drains get in this run. -/
def kilnGot : InRef → Bytes := fun d => if d.name = "chest".toList then [7, 10] else [51]
theorem kiln_ends : kiln.Ends kilnHops kilnKnown (fun _ => kilnText) kilnGot := by
  obtain ⟨c', printed, h1, h2⟩ := kiln_made
  refine ⟨⟨id, id, id, c', printed, kilnWaiter, [], [], kilnWaiter, quernCaps, 2, kilnProgs, kilnAll, fun _ => .refl _, fun _ => .refl _, fun _ => .refl _, h1, h2, rfl, kiln_runs, kiln_over, kiln_calm,
    kiln_supplies, fun _ h => kiln_meets h, ?_⟩⟩
  decide +kernel

/-- The second program has got the lines the first one printed, and the line of errors, mixed in the order in which they happened to come. -/
example : ∃ D, kiln.Solves kilnKnown (fun _ => kilnText) D ∧ (D "forge".toList).Of (historyOf "forge".toList kilnAll) ∧ takenIn (historyOf "forge".toList kilnAll) = [1, 2, 10, 9, 10, 3, 4] := by
  obtain ⟨c', printed, h1, h2⟩ := kiln_made
  obtain ⟨D, k1, k2, _⟩ := C90_solved (perm := id) (perm' := id) (spyOrder := id) (order := []) kiln_sound (fun _ => .refl _) (fun _ => .refl _) (fun _ => .refl _) h1 h2 rfl kiln_runs kiln_over kiln_calm
    kiln_supplies fun _ h => kiln_meets h
  exact ⟨D, k2, k1 _ ⟨_, _, _, kiln_iron, Or.inr rfl⟩, by decide +kernel⟩

/-- Whatever the order in which things happen, and whatever the sizes of channels and pipes: in the end the one drain has got how much there was to read, and the other what the first program has ended with. -/
theorem kiln_determined {got : InRef → Bytes} (h : kiln.Ends kilnHops kilnKnown (fun _ => kilnText) got) : got ⟨.drain, "chest".toList⟩ = [7, 10] ∧ got ⟨.drain, "bell".toList⟩ = [51] := by
  have key : ∀ {N : Hop} {b : Str} {i : Nat}, kiln.HopOf b i N → N.src.ty = .launch → N.dst.ty = .drain → (∀ b' i' h, kiln.HopOf b' i' h → h.dst = N.dst → (b', i') = (b, i)) →
      kiln.drain.get N.dst.name ≠ some "/dev/null".toList → got N.dst = kilnGot N.dst := fun {N b i} hN h1 h2 h3 h4 => by
    have hm := (kiln_sound.hops N).mpr ⟨b, i, hN⟩
    obtain ⟨L, S, hI, hB⟩ := C90_brought kiln_sound kiln_free kiln_fed N.dst
    refine (C90_determined kiln_sound kiln_free kiln_fed (fun _ _ _ => kiln_settled) h kiln_ends hm h2 h4).2 L S hI hB ?_
    rw [kiln_one hN (Or.inr h1) h3 hI hB]
    exact Nat.le_refl 1
  exact ⟨key kiln_forge rfl rfl (fun b i h hh e => by rcases kiln_hops hh with ⟨rfl, rfl, rfl⟩ | ⟨rfl, rfl, rfl⟩ | ⟨rfl, rfl, rfl⟩ | ⟨rfl, rfl, rfl⟩ | ⟨rfl, rfl, rfl⟩ <;> first | rfl | (cases e; done)) (by decide +kernel),
    key kiln_bell rfl rfl (fun b i h hh e => by rcases kiln_hops hh with ⟨rfl, rfl, rfl⟩ | ⟨rfl, rfl, rfl⟩ | ⟨rfl, rfl, rfl⟩ | ⟨rfl, rfl, rfl⟩ | ⟨rfl, rfl, rfl⟩ <;> first | rfl | (cases e; done)) (by decide +kernel)⟩

theorem kiln_until (n : Nat) : ∃ u, coreOf kilnAll = coreOf (soFar (fun n => kilnAll[n]?) n) ++ u := by
  refine ⟨coreOf (kilnAll.drop n), ?_⟩
  rw [soFar_list, ← coreOf_append, List.take_append_drop]

/-- It comes to its end having found a solution, whatever the order in which things happen; here, one order that neglects nobody. -/
example : ∃ n D, kilnWaiter.AllOver [] (soFar (fun n => kilnAll[n]?) n) ∧ kiln.Solves kilnKnown (fun _ => kilnText) D := by
  obtain ⟨c', printed, h1, h2⟩ := kiln_made
  obtain ⟨n, D, k1, _, _, k2, _⟩ := C90_computes (perm := id) (perm' := id) (spyOrder := id) (order := []) kiln_sound (fun _ => .refl _) (fun _ => .refl _) (fun _ => .refl _) h1 h2 rfl kiln_free
    (fun k ch => by unfold quernCaps; split <;> simp) (by decide) (kiln_over.fair kiln_runs) (fun x _ => by unfold kilnProgs; split <;> exact worker_finite _ _ _)
    (fun n i _ f hm => kiln_calm i f (by
      obtain ⟨u, hu⟩ := kiln_until n
      rw [hu, proj_append, acts_append]; exact List.mem_append_left _ hm))
    (B := fun _ => kilnText) (fun n b i g hh hg => by
      obtain ⟨u, hu⟩ := kiln_until n
      exact (hu ▸ kiln_supplies b i g hh hg).before) (R := kilnKnown) (fun _ h => kiln_meets h)
  exact ⟨n, D, k1, k2⟩

end Verif
