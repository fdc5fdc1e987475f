import Verif.Props.WorldLines
import Verif.Props.WorldDozeExample
/-!
# C92: examples
-/
namespace Verif

/-! ## Programs that go line by line -/

structure GoesOn (f : Port → Bytes → List Bytes) (l : List PEv) : Prop where
  opened : PEv.shutIn ∉ l ∧ ∀ p, PEv.shut p ∉ l
  due : ∀ p, putOut p l <+: (dueLines f p l).flatten
  ended : ∀ k, .exit k ∈ l → .sawEnd ∈ l ∧ ∀ p, .refused p ∈ l ∨ putOut p l = (dueLines f p l).flatten

theorem due_grows (f : Port → Bytes → List Bytes) (p : Port) (l : List PEv) (e : PEv) : (dueLines f p l).flatten <+: (dueLines f p (l ++ [e])).flatten := by
  unfold dueLines
  rw [takenIn_snoc]
  obtain ⟨t, h⟩ := wholeLines_append (takenIn l) (takenIn [e])
  rw [← h, List.flatMap_append, List.flatten_append]
  exact List.prefix_append _ _

theorem liner_due {f : Port → Bytes → List Bytes} {l : List PEv} (h : ∀ p, putOut p l <+: (dueLines f p l).flatten) (hw : liner f l = .read ∨ ∃ k, liner f l = .exit k) :
    ∀ p, .refused p ∈ l ∨ putOut p l = (dueLines f p l).flatten := by
  have key : ∀ p, ¬ ((putOut p l).length < (dueLines f p l).flatten.length ∧ .refused p ∉ l) → .refused p ∈ l ∨ putOut p l = (dueLines f p l).flatten := by
    intro p hn
    by_cases hr : .refused p ∈ l
    · exact Or.inl hr
    · refine Or.inr ((h p).eq_of_length ?_)
      have := (h p).length_le
      have : ¬ _ := fun h => hn ⟨h, hr⟩
      omega
  by_cases c1 : (putOut .out l).length < (dueLines f .out l).flatten.length ∧ .refused .out ∉ l
  · have : liner f l = .write .out ((dueLines f .out l).flatten.drop (putOut .out l).length) := if_pos c1
    rw [this] at hw
    rcases hw with hw | ⟨k, hw⟩ <;> cases hw
  by_cases c2 : (putOut .err l).length < (dueLines f .err l).flatten.length ∧ .refused .err ∉ l
  · have : liner f l = .write .err ((dueLines f .err l).flatten.drop (putOut .err l).length) := (if_neg c1).trans (if_pos c2)
    rw [this] at hw
    rcases hw with hw | ⟨k, hw⟩ <;> cases hw
  rintro (_ | _)
  · exact key _ c1
  · exact key _ c2

theorem liner_goes {f : Port → Bytes → List Bytes} {l : List PEv} (h : (liner f).Lives l) : GoesOn f l := by
  induction h with
  | start => exact ⟨by simp, fun _ => List.nil_prefix, by simp⟩
  | @next l e h1 h2 h3 ih =>
    obtain ⟨⟨i1, i1'⟩, i2, i3⟩ := ih
    have noexit : ∀ k, PEv.exit k ∉ l := fun k hk => h2 ⟨k, hk⟩
    have write : ∀ p, liner f l = .write p ((dueLines f p l).flatten.drop (putOut p l).length) → GoesOn f (l ++ [e]) := by
      intro p hw
      rcases h3.of_write hw with ⟨m, rfl, hd⟩ | rfl
      · refine ⟨by simpa using ⟨i1, i1'⟩, fun q => ?_, fun k hk => absurd hk (by simp [noexit])⟩
        have t : dueLines f q (l ++ [.put p m]) = dueLines f q l := by simp [dueLines, takenIn]
        rw [t]
        by_cases hq : p = q
        · subst hq
          have : putOut p (l ++ [.put p m]) = putOut p l ++ m := by simp [putOut]
          rw [this]
          exact prefix_grow (i2 p) hd
        · have : putOut q (l ++ [.put p m]) = putOut q l := by simp [putOut, hq]
          rw [this]
          exact i2 q
      · refine ⟨by simpa using ⟨i1, i1'⟩, fun q => ?_, fun k hk => absurd hk (by simp [noexit])⟩
        have t : dueLines f q (l ++ [.refused p]) = dueLines f q l := by simp [dueLines, takenIn]
        have : putOut q (l ++ [.refused p]) = putOut q l := by simp [putOut]
        rw [t, this]
        exact i2 q
    by_cases c1 : (putOut .out l).length < (dueLines f .out l).flatten.length ∧ .refused .out ∉ l
    · exact write .out (if_pos c1)
    by_cases c2 : (putOut .err l).length < (dueLines f .err l).flatten.length ∧ .refused .err ∉ l
    · exact write .err ((if_neg c1).trans (if_pos c2))
    by_cases c3 : .sawEnd ∈ l
    · have hw : liner f l = .exit (some 0) := ((if_neg c1).trans (if_neg c2)).trans (if_pos c3)
      have := h3.of_exit hw
      subst this
      have t : ∀ q, dueLines f q (l ++ [.exit (some 0)]) = dueLines f q l := fun q => by simp [dueLines, takenIn]
      have p : ∀ q, putOut q (l ++ [.exit (some 0)]) = putOut q l := fun q => by simp [putOut]
      refine ⟨by simpa using ⟨i1, i1'⟩, fun q => by rw [t, p]; exact i2 q, fun k _ => ⟨by simp [c3], fun q => ?_⟩⟩
      rw [t, p]
      exact (liner_due i2 (Or.inr ⟨_, hw⟩) q).imp_left (by simp)
    · have hw : liner f l = .read := ((if_neg c1).trans (if_neg c2)).trans (if_neg c3)
      rcases h3.of_read hw with ⟨d, rfl⟩ | rfl
      · refine ⟨by simpa using ⟨i1, i1'⟩, fun q => ?_, fun k hk => absurd hk (by simp [noexit])⟩
        have : putOut q (l ++ [.took d]) = putOut q l := by simp [putOut]
        rw [this]
        exact (i2 q).trans (due_grows f q l _)
      · refine ⟨by simpa using ⟨i1, i1'⟩, fun q => ?_, fun k hk => absurd hk (by simp [noexit])⟩
        have : putOut q (l ++ [.sawEnd]) = putOut q l := by simp [putOut]
        rw [this]
        exact (i2 q).trans (due_grows f q l _)

theorem liner_lineByLine {f : Port → Bytes → List Bytes} (hf : ∀ p l, IsCompleteLine l → ∀ m ∈ f p l, IsCompleteLine m) : (liner f).LineByLine f := by
  have heard : ∀ l, (liner f).Lives l → Regular l → ∀ p, .refused p ∉ l := fun l hl hr p h => by
    obtain ⟨a, b, e⟩ := List.append_of_mem h
    rcases hr.listened a p b e with h | h
    · exact (liner_goes hl).opened.2 p (by rw [e]; exact List.mem_append_left _ h)
    · exact (hl.before e).1 h
  refine ⟨hf, fun l hl hr hs => ?_, fun l hl _ p => (liner_goes hl).opened.2 p, fun l hl _ p => (liner_goes hl).due p, fun l hl hr h p => ?_⟩
  · obtain ⟨k, hk⟩ : Exited l := hs.resolve_left (liner_goes hl).opened.1
    obtain ⟨a, b, e⟩ := List.append_of_mem ((liner_goes hl).ended k hk).1
    refine ⟨a, b, e, ?_⟩
    rintro (h | h)
    · exact (liner_goes hl).opened.1 (by rw [e]; exact List.mem_append_left _ h)
    · exact (hl.before e).1 h
  · rcases h with ⟨k, hk⟩ | h
    · exact (((liner_goes hl).ended k hk).2 p).resolve_left (heard l hl hr p)
    · exact (liner_due (liner_goes hl).due (Or.inl h) p).resolve_left (heard l hl hr p)

/-! ## The loop with a buffer -/

theorem noria_whole : ∀ p l, IsCompleteLine l → ∀ m ∈ noriaStep p l, IsCompleteLine m := by
  rintro p l ⟨d, rfl, hd⟩ m hm
  cases d with
  | nil => cases p <;> simp [noriaStep] at hm
  | cons n d =>
    rw [List.mem_cons, not_or] at hd
    cases p with
    | out =>
      by_cases hn : n = 0
      · subst hn
        simp only [noriaStep, List.cons_append, List.mem_singleton] at hm
        exact ⟨0 :: d, by simp [hm], by simp [hd.2]⟩
      · unfold noriaStep at hm
        split at hm
        · next e => simp at e; exact absurd e.1 hn
        · next e _ => cases e
        · cases hm
    | err =>
      simp only [noriaStep, List.cons_append] at hm
      split at hm
      · next hn =>
        simp only [List.mem_singleton] at hm
        refine ⟨(n - 1) :: d, by simp [hm], ?_⟩
        rw [List.mem_cons, not_or]
        refine ⟨fun h => ?_, hd.2⟩
        have h : n = 11 := by rw [← UInt8.sub_add_cancel n 1, ← h]; decide
        subst h
        exact absurd hn.2 (by decide)
      · cases hm

theorem noria_straight : ∀ b i g, noria.HopOf b i g → ¬ g.isExit := by
  intro b i g hh
  rcases noria_hops hh with ⟨_, _, rfl⟩ | ⟨_, _, rfl⟩ | ⟨_, _, rfl⟩ | ⟨_, _, rfl⟩ | ⟨_, _, rfl⟩ <;> decide
theorem noria_led : ∀ b i h, noria.HopOf b i h → ∃ L S, noria.Into h.dst L ∧ noria.Brings L S := by
  intro b i g hh
  rcases noria_hops hh with ⟨_, _, rfl⟩ | ⟨_, _, rfl⟩ | ⟨_, _, rfl⟩ | ⟨_, _, rfl⟩ | ⟨_, _, rfl⟩
  · exact ⟨_, _, noria_into_fork, .stream noria_tap (Or.inl rfl) (.through noria_back (by decide) (by decide) noria_into_pool (by simp) (.stream noria_pool (Or.inr rfl) .none) .none)⟩
  · exact ⟨_, _, noria_into_wheel, noria_brings⟩
  · exact ⟨_, _, noria_into_sink, noria_brings_sink⟩
  · exact ⟨_, _, noria_into_pool, .stream noria_pool (Or.inr rfl) .none⟩
  · exact ⟨_, _, noria_into_fork, .stream noria_tap (Or.inl rfl) (.through noria_back (by decide) (by decide) noria_into_pool (by simp) (.stream noria_pool (Or.inr rfl) .none) .none)⟩
theorem noria_text : ∀ b i g, noria.HopOf b i g → g.src.ty = .faucet → ∀ l ∈ specLines noriaText, IsCompleteLine l := by
  intro b i g _ _ l hl
  have : specLines noriaText = [[2, 10], [1, 10]] := by decide
  rw [this] at hl
  simp only [List.mem_cons, List.not_mem_nil, or_false] at hl
  rcases hl with rfl | rfl
  · exact ⟨[2], rfl, by decide⟩
  · exact ⟨[1], rfl, by decide⟩
theorem noria_supplied : ∀ b i g, noria.HopOf b i g → g.src.ty = .faucet → noriaWaiter.Supplies (coreOf noriaAll) g noriaText ∧ ∀ l ∈ specLines noriaText, IsCompleteLine l :=
  fun b i g hg e => ⟨noria_supplies b i g hg e, noria_text b i g hg e⟩

/-- What the program should read, of everything: what is in the file, and what it sends back of that. -/
def noriaPlan : Str → List Bytes := fun x => if x = "wheel".toList then [[2, 10], [1, 10], [1, 10], [0, 10], [0, 10]] else []
theorem noria_plan : noria.Grants (fun _ => noriaStep) (fun _ => noriaText) noriaPlan := by
  intro b i h hh ht
  rcases noria_hops hh with ⟨_, _, rfl⟩ | ⟨_, _, rfl⟩ | ⟨_, _, rfl⟩ | ⟨_, _, rfl⟩ | ⟨_, _, rfl⟩
  all_goals first | (cases ht; done) | skip
  exact ⟨_, _, noria_into_wheel, noria_brings, .of_perm (.of_eq (by decide +kernel))⟩

/-- At no time has it read more than that. -/
example (k : Nat) : Among (linesRead (noriaAll.take k) "wheel".toList) [[2, 10], [1, 10], [1, 10], [0, 10], [0, 10]] := by
  have hpre : ∀ k, noriaWaiter.WorldRun [] noriaCaps 3 noriaProgs (noriaAll.take k) := fun k => Waiter.WorldRun.prefix (b := noriaAll.drop k) (by rw [List.take_append_drop]; exact noria_runs)
  have hc : coreOf (noriaAll.take k) <+: coreOf noriaAll := by
    conv => rhs; rw [← List.take_append_drop k noriaAll, coreOf_append]
    exact List.prefix_append _ _
  obtain ⟨printed, h1, h2⟩ := noria_made
  refine C92_bounded noria_sound (fun _ => .refl _) (fun _ => .refl _) (fun _ => .refl _) h1 h2 (order := []) rfl (hpre k) (fun i f hf => ?_) noria_straight
    (fun x _ => liner_lineByLine noria_whole) (B := fun _ => noriaText) (fun b i g hg e => ⟨?_, noria_text b i g hg e⟩) noria_plan "wheel".toList
  · obtain ⟨t, ht⟩ := hc
    refine noria_calm i f ?_
    rw [← ht, proj_append, acts_append]
    exact List.mem_append_left _ hf
  · obtain ⟨t, ht⟩ := hc
    have := noria_supplies b i g hg e
    rw [← ht] at this
    exact this.earlier (noria_straight b i g hg)

/-- In the end it has read just that. -/
example : noria.Balances (fun _ => noriaStep) (fun _ => noriaText) (linesRead noriaAll) ∧ ∀ M, noria.Balances (fun _ => noriaStep) (fun _ => noriaText) M → ∀ x, Among (linesRead noriaAll x) (M x) := by
  obtain ⟨printed, h1, h2⟩ := noria_made
  exact C92_least noria_sound (fun _ => .refl _) (fun _ => .refl _) (fun _ => .refl _) h1 h2 (order := []) rfl noria_buffered noria_caps noria_inner (by decide) noria_runs noria_store noria_calm noria_rest
    noria_straight (fun x _ => liner_lineByLine noria_whole) noria_supplied fun b i h hh _ => noria_led b i h hh

theorem noria_settles : noria.Settles noriaHops (fun _ => noriaStep) (fun _ => noriaText) (fun x => takenIn (historyOf x noriaAll))
    (fun d => bytesIn (3 * noriaWaiter.idOf (d.ty, d.name)) (proj (.part (d.ty, d.name) .main) (coreOf noriaAll))) := by
  obtain ⟨printed, h1, h2⟩ := noria_made
  refine ⟨id, id, id, _, printed, _, [], [], _, noriaCaps, 3, noriaProgs, noriaAll, noriaRest, fun _ => .refl _, fun _ => .refl _, fun _ => .refl _, h1, h2, rfl, noria_caps, noria_inner, by decide, noria_runs, noria_store,
    noria_calm, noria_rest, noria_supplies, fun x _ => liner_lineByLine noria_whole, fun _ => rfl, fun h hh ht => ?_⟩
  simp [Hop.to, Hop.reader, ht]

/-- However else it had gone, with whatever programs of this kind: the drain would have got the same. -/
example {read : Str → Bytes} {got : InRef → Bytes} (h : noria.Settles noriaHops (fun _ => noriaStep) (fun _ => noriaText) read got) :
    specLines (got ⟨.drain, "sink".toList⟩) = [[0, 10], [0, 10]] ∧ (specLines (read "wheel".toList)).Perm [[2, 10], [1, 10], [1, 10], [0, 10], [0, 10]] := by
  obtain ⟨k1, k2⟩ := C92_determined noria_sound noria_buffered noria_straight noria_led noria_text h noria_settles
  constructor
  · have := k2 noriaSink (by decide) rfl (by decide +kernel)
    have e : specLines (bytesIn (3 * noriaWaiter.idOf (.drain, "sink".toList)) (proj (.part (.drain, "sink".toList) .main) (coreOf noriaAll))) = List.replicate 2 [0, 10] := by decide +kernel
    rw [show noriaSink.dst = ⟨.drain, "sink".toList⟩ from rfl] at this
    exact List.perm_replicate.mp (this.trans (.of_eq e))
  · exact (k1 "wheel".toList ⟨_, _, _, noria_fork, Or.inr rfl⟩).trans (.of_eq (by decide +kernel))

end Verif
