import Verif.Lemmas.Wirable
import Verif.Props.Settings
/-!
# C41, C43: which configurations work in the end
-/
namespace Verif

/-- What a configuration must be like, in terms of its hops. The hop `i` of the set `b` is handled in the order of the name it gets, `b_i`; the first hop into a component is
the one with the least name. -/
structure Config.Legal (c : Config) : Prop where
  run : ∀ b i h, c.HopOf b i h → c.Runnable h.from ∧ c.Runnable h.to
  notDrain : ∀ b i h, c.HopOf b i h → h.src.ty ≠ .drain
  notFaucet : ∀ b i h, c.HopOf b i h → h.dst.ty ≠ .faucet
  outOnly : ∀ b i h, c.HopOf b i h → h.src.ty = .faucet ∨ h.src.ty = .regulator → h.src.port = .out
  bufferPort : ∀ b i h b' i' h', c.HopOf b i h → c.HopOf b' i' h' → h.src.ty = .buffer → h'.src.ty = .buffer → h.src.name = h'.src.name → h.src.port = h'.src.port
  priority : ∀ b i h k, c.HopOf b i h → Counted b (i + 1) k →
    (∀ b' i' h' k', c.HopOf b' i' h' → h'.dst = h.dst → Counted b' (i' + 1) k' → k = k' ∨ strLt k k' = true) → h.dst.ty ≠ .junction → h.input.priority = 0

theorem counted_exists (b : Str) (i : Nat) : ∃ k, Counted b (i + 1) k := ⟨_, (counted_iff (by omega) _).mpr rfl⟩

theorem legal_iff {c : Config} {M : Map Hop} (hM : ∀ k h, M.get k = some h ↔ ∃ b i, c.HopOf b i h ∧ Counted b (i + 1) k) : LegalHops c M ↔ c.Legal := by
  have all : ∀ {P : Hop → Prop}, (∀ k h, M.get k = some h → P h) ↔ ∀ b i h, c.HopOf b i h → P h := by
    intro P
    constructor
    · intro H b i h hh
      obtain ⟨k, hk⟩ := counted_exists b i
      exact H k h ((hM k h).mpr ⟨b, i, hh, hk⟩)
    · intro H k h hk
      obtain ⟨b, i, hh, _⟩ := (hM k h).mp hk
      exact H b i h hh
  constructor
  · rintro ⟨a1, a2, a3, a4, a5, a6⟩
    refine ⟨all.mp a1, all.mp a2, all.mp a3, all.mp a4, ?_, ?_⟩
    · intro b i h b' i' h' hh hh'
      obtain ⟨k, hk⟩ := counted_exists b i
      obtain ⟨k', hk'⟩ := counted_exists b' i'
      exact a5 k k' h h' ((hM k h).mpr ⟨b, i, hh, hk⟩) ((hM k' h').mpr ⟨b', i', hh', hk'⟩)
    · intro b i h k hh hk hmin hj
      refine a6 h ⟨k, (hM k h).mpr ⟨b, i, hh, hk⟩, rfl, ?_⟩ hj
      intro k' h' hk' hd
      obtain ⟨b', i', hh', hc⟩ := (hM k' h').mp hk'
      rcases hmin b' i' h' k' hh' hd hc with e | e
      · exact Or.inl e
      · exact Or.inr e
  · rintro ⟨a1, a2, a3, a4, a5, a6⟩
    refine ⟨all.mpr a1, all.mpr a2, all.mpr a3, all.mpr a4, ?_, ?_⟩
    · intro k k' h h' hk hk'
      obtain ⟨b, i, hh, _⟩ := (hM k h).mp hk
      obtain ⟨b', i', hh', _⟩ := (hM k' h').mp hk'
      exact a5 b i h b' i' h' hh hh'
    · rintro h ⟨k, hk, _, hmin⟩ hj
      obtain ⟨b, i, hh, hc⟩ := (hM k h).mp hk
      refine a6 b i h k hh hc ?_ hj
      intro b' i' h' k' hh' hd hc'
      exact hmin k' h' ((hM k' h').mpr ⟨b', i', hh', hc'⟩) hd

/-- **C43** For connection sets that are well formed, with all the drains used configured, whatever the hash orders: processing succeeds, and the result
wires up exactly when the configuration is legal; if not, an error is reported. -/
theorem C43_exactly (c : Config) (hn : c.connection.keys.Nodup) (hg : ∀ b d, (b, d) ∈ c.connection → d.Good) {perm perm' spyOrder}
    (hp : ∀ l, (perm l : List OutRef).Perm l) (hp' : ∀ l, (perm' l : List InRef).Perm l) (ho : ∀ l, (spyOrder l : List Str).Perm l)
    (hdrain : ∀ b i h, c.HopOf b i h → h.dst.ty = .drain → h.dst.name ∈ c.drain.keys) :
    ∃ c' printed, manipulate perm perm' spyOrder c = some (c', printed) ∧ (c.Legal → ∃ w, getWaiter c' = .ok w) ∧ (¬ c.Legal → ∃ e, getWaiter c' = .err e) := by
  obtain ⟨M, R', drain', printed, h1, h2, h3, h4, h5⟩ := manipulated c hn hg hp hp' ho hdrain
  rw [legal_iff h3] at h5
  refine ⟨_, printed, h1, ?_, ?_⟩
  · intro hl
    exact (C42_wired _ R' rfl).mpr (h5.mpr hl)
  · intro hl
    rcases wiring { c with drain := drain', connection := conns R' } R' rfl with ⟨q, _⟩ | ⟨_, _, _, e, _, _, _, he, _⟩
    · exact absurd (h5.mp q) hl
    · exact ⟨e, he⟩

/-- **C43** A configuration that lint has nothing to say about, with well formed sets and a command for each launch, works if it is used as the components allow. -/
theorem C43_clean (c : Config) (hn : c.connection.keys.Nodup) (hclean : ∃ c', lint c = some (c', []))
    (hwf : ∀ b d cs, (b, d) ∈ c.connection → d.Means cs → WellFormed cs) (hcmd : ∀ n cfg, (n, cfg) ∈ c.launch → cfg.command ≠ none)
    (notDrain : ∀ b i h, c.HopOf b i h → h.src.ty ≠ .drain) (notFaucet : ∀ b i h, c.HopOf b i h → h.dst.ty ≠ .faucet)
    (outOnly : ∀ b i h, c.HopOf b i h → h.src.ty = .faucet ∨ h.src.ty = .regulator ∨ h.src.ty = .buffer → h.src.port = .out)
    (priority : ∀ b i h, c.HopOf b i h → h.dst.ty ≠ .junction → h.input.priority = 0) {perm perm' spyOrder}
    (hp : ∀ l, (perm l : List OutRef).Perm l) (hp' : ∀ l, (perm' l : List InRef).Perm l) (ho : ∀ l, (spyOrder l : List Str).Perm l) :
    ∃ c' printed w, manipulate perm perm' spyOrder c = some (c', printed) ∧ getWaiter c' = .ok w := by
  obtain ⟨h1, _, _, h4⟩ := (C31_clean c).mp hclean
  have hg : ∀ b d, (b, d) ∈ c.connection → d.Good := by
    intro b d hm
    rcases C30_either d with ⟨cs, h⟩ | h
    · exact ⟨cs, h, hwf b d cs hm h⟩
    · exact absurd h (h1 b d hm)
  have hsrc : ∀ b i h, c.HopOf b i h → c.Uses h.src.ty h.src.name := by
    rintro b i h ⟨d, cs, hm, hd, x, y, hx, hy, e1, _, e3, _⟩
    refine ⟨b, d, cs, x, hm, hd, List.mem_of_getElem? hx, ?_⟩
    cases x <;> simp [Connection.out] at e1 <;> rw [← e1] <;> exact ⟨rfl, rfl⟩
  have hdst : ∀ b i h, c.HopOf b i h → c.Uses h.dst.ty h.dst.name := by
    rintro b i h ⟨d, cs, hm, hd, x, y, hx, hy, e1, _, e3, _⟩
    refine ⟨b, d, cs, y, hm, hd, List.mem_of_getElem? hy, ?_⟩
    cases y <;> simp [Connection.into] at e3 <;> rw [← e3.1] <;> exact ⟨rfl, rfl⟩
  have hrun : ∀ ty n, c.Uses ty n → c.Runnable (ty, n) := by
    rintro ty n hu e
    have e : ty = .launch := e
    subst e
    have hk : n ∈ c.launch.keys := h4 _ n hu (by simp [Configurable])
    obtain ⟨cfg, hcfg⟩ := get_isSome hk
    exact ⟨cfg, hcfg, hcmd n cfg (mem_of_get hcfg)⟩
  obtain ⟨c', printed, q1, q2, _⟩ := C43_exactly c hn hg hp hp' ho (fun b i h hh hd => by
    have := hdst b i h hh
    rw [hd] at this
    exact h4 _ _ this (by simp [Configurable]))
  obtain ⟨w, hw⟩ := q2 ⟨fun b i h hh => ⟨hrun _ _ (hsrc b i h hh), hrun _ _ (hdst b i h hh)⟩, notDrain, notFaucet,
    fun b i h hh he => outOnly b i h hh (he.imp_right Or.inl),
    fun b i h b' i' h' hh hh' e e' _ => by rw [outOnly b i h hh (Or.inr (Or.inr e)), outOnly b' i' h' hh' (Or.inr (Or.inr e'))],
    fun b i h k hh _ _ hj => priority b i h hh hj⟩
  exact ⟨c', printed, w, q1, hw⟩

/-- **C41**, refuted: however many hops go to a component that is not a junction, if the first of them has a priority other than 0 then wiring is refused, though
a junction is put in for them. -/
theorem C41_refuted (c : Config) (hn : c.connection.keys.Nodup) (hg : ∀ b d, (b, d) ∈ c.connection → d.Good) {perm perm' spyOrder}
    (hp : ∀ l, (perm l : List OutRef).Perm l) (hp' : ∀ l, (perm' l : List InRef).Perm l) (ho : ∀ l, (spyOrder l : List Str).Perm l)
    (hdrain : ∀ b i h, c.HopOf b i h → h.dst.ty = .drain → h.dst.name ∈ c.drain.keys)
    {b i h k} (hh : c.HopOf b i h) (hk : Counted b (i + 1) k) (hj : h.dst.ty ≠ .junction)
    (hfirst : ∀ b' i' h' k', c.HopOf b' i' h' → h'.dst = h.dst → Counted b' (i' + 1) k' → k = k' ∨ strLt k k' = true) (hpr : h.input.priority ≠ 0) :
    ∃ c' printed e, manipulate perm perm' spyOrder c = some (c', printed) ∧ getWaiter c' = .err e := by
  obtain ⟨c', printed, q1, _, q3⟩ := C43_exactly c hn hg hp hp' ho hdrain
  obtain ⟨e, he⟩ := q3 fun hl => hpr (hl.priority b i h k hh hk hfirst hj)
  exact ⟨c', printed, e, q1, he⟩

/-- **C41**, the part that is so: if the first has priority 0, and nothing else is wrong, the priorities of the others do not matter.
Missing: the claim when the first has another priority, which is false (`C41_refuted`). -/
theorem C41_others_partial (c : Config) (hn : c.connection.keys.Nodup) (hg : ∀ b d, (b, d) ∈ c.connection → d.Good) {perm perm' spyOrder}
    (hp : ∀ l, (perm l : List OutRef).Perm l) (hp' : ∀ l, (perm' l : List InRef).Perm l) (ho : ∀ l, (spyOrder l : List Str).Perm l)
    (hdrain : ∀ b i h, c.HopOf b i h → h.dst.ty = .drain → h.dst.name ∈ c.drain.keys) (hl : c.Legal) :
    ∃ c' printed w, manipulate perm perm' spyOrder c = some (c', printed) ∧ getWaiter c' = .ok w := by
  obtain ⟨c', printed, q1, q2, _⟩ := C43_exactly c hn hg hp hp' ho hdrain
  obtain ⟨w, hw⟩ := q2 hl
  exact ⟨c', printed, w, q1, hw⟩

/-! ## Instances -/

/-- A faucet into a program over two pipes, the program into a drain. The priorities are of the pipes into the program. -/
def twoPipes (p q : Int) : Config where
  faucet := [("tap".toList, "-".toList)]
  drain := [("tub".toList, "-".toList)]
  regulator := []
  launch := [("x".toList, ⟨some "cat".toList, none, [], []⟩)]
  connection := [("a".toList, .conns [.start .faucet "tap".toList .out none, .middle .launch "x".toList ⟨.terminate, p⟩ .out none, .end .drain "tub".toList ⟨.terminate, 0⟩ none]),
    ("b".toList, .conns [.start .faucet "tap".toList .out none, .end .launch "x".toList ⟨.finish, q⟩ none])]

/-- What became of a configuration: number of components and channels, or the priority complained about. -/
def outcome (c : Config) : Option (Nat × Nat) ⊕ Option (CompRef × Int) :=
  match manipulate id id id c with
  | none => .inl none
  | some (c', _) =>
    match getWaiter c' with
    | .ok w => .inl (some (w.comps.length, w.chans))
    | .err (.addInput r (.unsupportedPriority n)) => .inr (some (r, n))
    | _ => .inr none

-- with priority 0 first: the three components, two junctions and an exit drain, with six channels
example : outcome (twoPipes 0 5) = .inl (some (6, 6)) := by decide +kernel
-- with another priority first it is refused
example : outcome (twoPipes 5 0) = .inr (some ((.launch, "x".toList), 5)) := by decide +kernel

theorem twoPipes_good (p q : Int) : ∀ b d, (b, d) ∈ (twoPipes p q).connection → d.Good := by
  intro b d h
  simp only [twoPipes, List.mem_cons, Prod.mk.injEq, List.not_mem_nil, or_false] at h
  rcases h with ⟨_, rfl⟩ | ⟨_, rfl⟩
  all_goals
    refine ⟨_, rfl, by simp, ?_, ?_⟩
    · intro i a hi
      rcases i with _ | _ | i <;> simp at hi
      all_goals (subst hi; simp [Connection.into])
    · intro i a b hi hi'
      rcases i with _ | _ | i <;> simp at hi hi'
      all_goals (subst hi; simp [Connection.out])

theorem twoPipes_hops {p q : Int} {b i h} (hh : (twoPipes p q).HopOf b i h) :
    (b = "a".toList ∧ i = 0 ∧ h = ⟨⟨.faucet, "tap".toList, .out⟩, none, ⟨.launch, "x".toList⟩, ⟨.terminate, p⟩, none⟩) ∨
    (b = "a".toList ∧ i = 1 ∧ h = ⟨⟨.launch, "x".toList, .out⟩, none, ⟨.drain, "tub".toList⟩, ⟨.terminate, 0⟩, none⟩) ∨
    (b = "b".toList ∧ i = 0 ∧ h = ⟨⟨.faucet, "tap".toList, .out⟩, none, ⟨.launch, "x".toList⟩, ⟨.finish, q⟩, none⟩) := by
  obtain ⟨d, cs, hm, hd, x, y, hx, hy, e1, e2, e3, e4⟩ := hh
  obtain ⟨s, st, t, inp, dst⟩ := h
  simp only [twoPipes, List.mem_cons, Prod.mk.injEq, List.not_mem_nil, or_false] at hm
  rcases hm with ⟨rfl, rfl⟩ | ⟨rfl, rfl⟩ <;> simp only [DConn.Means] at hd <;> subst hd
  · rcases i with _ | _ | i <;> simp at hx hy
    · subst hx hy; simp [Connection.out, Connection.into, Connection.setName] at e1 e2 e3 e4
      simp [← e1, ← e2, ← e3.1, ← e3.2, ← e4]
    · subst hx hy; simp [Connection.out, Connection.into, Connection.setName] at e1 e2 e3 e4
      simp [← e1, ← e2, ← e3.1, ← e3.2, ← e4]
  · rcases i with _ | i <;> simp at hx hy
    subst hx hy; simp [Connection.out, Connection.into, Connection.setName] at e1 e2 e3 e4
    simp [← e1, ← e2, ← e3.1, ← e3.2, ← e4]

/-- All the hypotheses of `C43_clean` are met by this configuration with priorities 0, those of `C41_others_partial` with any priority second, and those of `C41_refuted` with any
other than 0 first. -/
theorem twoPipes_hop (p q : Int) : (twoPipes p q).HopOf "a".toList 0 ⟨⟨.faucet, "tap".toList, .out⟩, none, ⟨.launch, "x".toList⟩, ⟨.terminate, p⟩, none⟩ :=
  ⟨_, _, List.mem_cons_self, rfl, _, _, rfl, rfl, rfl, rfl, rfl, rfl⟩

theorem twoPipes_drain (p q : Int) : ∀ b i h, (twoPipes p q).HopOf b i h → h.dst.ty = .drain → h.dst.name ∈ (twoPipes p q).drain.keys := by
  intro b i h hh hd
  rcases twoPipes_hops hh with ⟨_, _, rfl⟩ | ⟨_, _, rfl⟩ | ⟨_, _, rfl⟩ <;> simp at hd
  simp [twoPipes, Map.keys]

theorem twoPipes_first {p q : Int} {b i h k} (hh : (twoPipes p q).HopOf b i h) (hk : Counted b (i + 1) k) : "a_1".toList = k ∨ strLt "a_1".toList k = true := by
  rw [counted_iff (by omega)] at hk
  subst hk
  rcases twoPipes_hops hh with ⟨rfl, rfl, _⟩ | ⟨rfl, rfl, _⟩ | ⟨rfl, rfl, _⟩ <;> decide +kernel

theorem twoPipes_counted : Counted "a".toList 1 "a_1".toList := ⟨"1".toList, by decide, by decide, by decide, by decide, by decide⟩

theorem twoPipes_legal (q : Int) : (twoPipes 0 q).Legal := by
  refine ⟨?_, ?_, ?_, ?_, ?_, ?_⟩
  · intro b i h hh
    rcases twoPipes_hops hh with ⟨_, _, rfl⟩ | ⟨_, _, rfl⟩ | ⟨_, _, rfl⟩ <;>
      simp [Config.Runnable, Hop.from, Hop.to, twoPipes, Map.get, List.lookup]
  · intro b i h hh
    rcases twoPipes_hops hh with ⟨_, _, rfl⟩ | ⟨_, _, rfl⟩ | ⟨_, _, rfl⟩ <;> simp
  · intro b i h hh
    rcases twoPipes_hops hh with ⟨_, _, rfl⟩ | ⟨_, _, rfl⟩ | ⟨_, _, rfl⟩ <;> simp
  · intro b i h hh
    rcases twoPipes_hops hh with ⟨_, _, rfl⟩ | ⟨_, _, rfl⟩ | ⟨_, _, rfl⟩ <;> simp
  · intro b i h b' i' h' hh
    rcases twoPipes_hops hh with ⟨_, _, rfl⟩ | ⟨_, _, rfl⟩ | ⟨_, _, rfl⟩ <;> simp
  · intro b i h k hh hk hmin hj
    rcases twoPipes_hops hh with ⟨_, _, rfl⟩ | ⟨_, _, rfl⟩ | ⟨rfl, rfl, rfl⟩
    · rfl
    · rfl
    · have hlt := hmin _ _ _ _ (twoPipes_hop 0 q) rfl twoPipes_counted
      rw [counted_iff (by omega)] at hk
      subst hk
      exact absurd hlt (by decide +kernel)

example (p q : Int) (hp : p ≠ 0) : ∃ c' printed e, manipulate id id id (twoPipes p q) = some (c', printed) ∧ getWaiter c' = .err e :=
  C41_refuted (twoPipes p q) (by decide +kernel : ["a".toList, "b".toList].Nodup) (twoPipes_good p q) (fun _ => List.Perm.refl _) (fun _ => List.Perm.refl _) (fun _ => List.Perm.refl _)
    (twoPipes_drain p q) (twoPipes_hop p q) twoPipes_counted (by simp) (fun _ _ _ _ hh _ hk => twoPipes_first hh hk) hp

example (q : Int) : ∃ c' printed w, manipulate id id id (twoPipes 0 q) = some (c', printed) ∧ getWaiter c' = .ok w :=
  C41_others_partial (twoPipes 0 q) (by decide +kernel : ["a".toList, "b".toList].Nodup) (twoPipes_good 0 q) (fun _ => List.Perm.refl _) (fun _ => List.Perm.refl _)
    (fun _ => List.Perm.refl _) (twoPipes_drain 0 q) (twoPipes_legal q)

example : (lint (twoPipes 0 0)).map (·.2) = some [] := by decide +kernel

end Verif
