import Verif.Props.WorldEnds
import Verif.Props.WorldBytesExample
import Verif.Props.Steering
/-!
# Property C87: examples
-/
namespace Verif

/-- A program that prints a function of its input ends by itself. -/
theorem filterBy_steps {F : Bytes → Bytes} {early : Bool} {l : List PEv} (h : (filterBy F early).Lives l) :
    ∃ a b d : Nat, l.length ≤ (takenIn l).length + (putOut .out l).length + a + b + d ∧ a ≤ 1 ∧ b ≤ 1 ∧ d ≤ 1 ∧ (.sawEnd ∉ l → a = 0) ∧ (.refused .out ∉ l → b = 0) ∧ (¬ Exited l → d = 0) := by
  induction h with
  | start => exact ⟨0, 0, 0, by simp, by omega, by omega, by omega, fun _ => rfl, fun _ => rfl, fun _ => rfl⟩
  | @next l e h1 h2 h3 ih =>
    obtain ⟨a, b, d, i1, i2, i3, i4, i5, i6, i7⟩ := ih
    have hd := i7 h2
    subst hd
    rw [takenIn_snoc, putOut_snoc]
    simp only [List.length_append, List.length_singleton]
    have ends : ∀ c, e = .exit c → _ := fun c (he : e = .exit c) =>
      show ∃ a b d : Nat, l.length + 1 ≤ (takenIn l).length + (takenIn [e]).length + ((putOut .out l).length + (putOut .out [e]).length) + a + b + d ∧ a ≤ 1 ∧ b ≤ 1 ∧ d ≤ 1 ∧
          (.sawEnd ∉ l ++ [e] → a = 0) ∧ (.refused .out ∉ l ++ [e] → b = 0) ∧ (¬ Exited (l ++ [e]) → d = 0) from by
        subst he
        exact ⟨a, b, 1, by omega, i2, i3, by omega, fun h => i5 fun h' => h (by simp [h']), fun h => i6 fun h' => h (by simp [h']), fun h => absurd ⟨c, by simp⟩ h⟩
    by_cases c1 : PEv.refused .out ∈ l
    · exact ends (some 1) (h3.of_exit (by simp only [filterBy, c1, if_true]))
    by_cases c2 : (early = true ∨ .sawEnd ∈ l) ∧ (putOut .out l).length < (F (takenIn l)).length
    · have hw : filterBy F early l = .write .out ((F (takenIn l)).drop (putOut .out l).length) := by simp only [filterBy, c1, c2, if_true, if_false, and_self]
      rw [hw] at h3
      have hne : (F (takenIn l)).drop (putOut .out l).length ≠ [] := by
        intro h
        have := congrArg List.length h
        simp at this
        omega
      cases h3 with
      | @put _ d' _ h4 h5 =>
        have := List.length_pos_iff.mpr (h5 hne)
        have e1 : putOut .out [.put .out d'] = d' := by simp [putOut]
        refine ⟨a, b, 0, by rw [e1]; omega, i2, i3, by omega, fun h => i5 fun h' => h (by simp [h']), fun h => i6 fun h' => h (by simp [h']), fun _ => rfl⟩
      | refused =>
        have hb := i6 c1
        subst hb
        exact ⟨a, 1, 0, by omega, i2, by omega, by omega, fun h => i5 fun h' => h (by simp [h']), fun h => absurd (by simp) h, fun _ => rfl⟩
    by_cases c3 : PEv.sawEnd ∈ l
    · exact ends (some 0) (h3.of_exit (by simp only [filterBy]; rw [if_neg c1, if_neg c2, if_pos c3]))
    · have hw : filterBy F early l = .read := by simp only [filterBy]; rw [if_neg c1, if_neg c2, if_neg c3]
      rw [hw] at h3
      cases h3 with
      | @took d' h4 =>
        have := List.length_pos_iff.mpr h4
        have e1 : takenIn [.took d'] = d' := by simp [takenIn]
        exact ⟨a, b, 0, by rw [e1]; omega, i2, i3, by omega, fun h => i5 fun h' => h (by simp [h']), fun h => i6 fun h' => h (by simp [h']), fun _ => rfl⟩
      | sawEnd =>
        have ha := i5 c3
        subst ha
        exact ⟨1, b, 0, by omega, by omega, i3, by omega, fun h => absurd (by simp) h, fun h => i6 fun h' => h (by simp [h']), fun _ => rfl⟩

/-- A program that, having read what it has read, can only do so much, does not go on for ever. -/
theorem Program.finite_of {p : Program} (K : Bytes → Nat) (h : ∀ l, p.Lives l → l.length ≤ K (takenIn l)) : p.Finite := by
  intro ρ hl N
  refine Classical.byContradiction fun hno => ?_
  have hb : ∀ n, (takenIn ((List.range n).map ρ)).length ≤ N := fun n => Nat.le_of_not_lt fun h => hno ⟨n, h⟩
  have hch : ∀ n, takenIn ((List.range n).map ρ) <+: takenIn ((List.range (n + 1)).map ρ) := fun n => takenIn_prefix (by rw [List.range_succ, List.map_append]; exact List.prefix_append _ _)
  obtain ⟨n0, hn0⟩ := settles (fun n => (hch n).length_le) hb
  have same : ∀ m, n0 ≤ m → takenIn ((List.range m).map ρ) = takenIn ((List.range n0).map ρ) := fun m hm => ((chain_le hch hm).eq_of_length (hn0 m hm).symm).symm
  have h1 := h _ (hl (n0 + K (takenIn ((List.range n0).map ρ)) + 1))
  rw [same (n0 + K (takenIn ((List.range n0).map ρ)) + 1) (by omega), List.length_map, List.length_range] at h1
  omega

theorem filterBy_finite {F : Bytes → Bytes} {early : Bool} (hF : early = true → ∀ x y, x <+: y → F x <+: F y) : (filterBy F early).Finite := by
  refine Program.finite_of (fun t => t.length + (F t).length + 3) fun l hl => ?_
  obtain ⟨a, b, d, h1, h2, h3, h4, _⟩ := filterBy_steps hl
  have h5 := (filterBy_lives hF hl).1.length_le
  omega

/-- A run to the end is a schedule that neglects nobody. -/
theorem soFar_list (T : List Happening) (n : Nat) : soFar (fun n => T[n]?) n = T.take n := by
  induction n with
  | zero => simp [soFar]
  | succ n ih => rw [soFar, ih, List.take_add_one]

theorem Waiter.AllOver.fair {w : Waiter} {cs : List Capture} {cap : Caps} {room : Nat} {prog : Str → Program} {T : List Happening} (hT : w.WorldRun cs cap room prog T) (h : w.AllOver cs T) :
    w.FairWorld cs cap room prog fun n => T[n]? := by
  refine ⟨fun n => ?_, fun g n hg => ?_⟩
  · rw [soFar_list]
    rw [← List.take_append_drop n T] at hT
    exact hT.prefix
  · obtain ⟨a, _, ha⟩ := hg (max n T.length) (by omega)
    rw [soFar_list, List.take_of_length_le (by omega)] at ha
    exact absurd ha h.still

theorem ReadsFrom.before {h : Nat} {chunks : List Bytes} {a b : List Ev} (hc : ∀ x ∈ chunks, x ≠ []) (hr : ReadsFrom h chunks (a ++ b)) : ReadsFrom h chunks a := by
  rw [readsFrom_at hc] at hr ⊢
  intro k hk
  rw [answers_append] at hr
  have := hr k (by simp; omega)
  rwa [List.getElem?_append_left hk] at this

theorem Waiter.Supplies.before {w : Waiter} {a b : List (Who × Ev)} {g : Hop} {bs : Bytes} (h : w.Supplies (a ++ b) g bs) : w.Supplies a g bs := by
  rcases h with ⟨s, chunks, g1, g2, g3, g4⟩ | ⟨h1, h2⟩
  · rw [proj_append] at g4
    exact Or.inl ⟨s, chunks, g1, g2, g3, g4.before g2⟩
  · refine Or.inr ⟨h1, fun s hs => h2 s ?_⟩
    rw [proj_append, statuses, List.filterMap_append]
    exact List.mem_append_left _ hs

theorem straw_fair : strawWaiter.FairWorld [] quernCaps 2 strawProgs fun n => strawAll[n]? := straw_over.fair straw_runs
theorem straw_finite : ∀ x, strawWaiter.comps.get (.launch, x) ≠ none → (strawProgs x).Finite := by
  intro x hx
  rcases straw_launches x hx with rfl | rfl
  · exact filterBy_finite fun _ => raised_mono
  · exact filterBy_finite (early := false) (by intro h; cases h)
theorem straw_until (n : Nat) : ∃ u, coreOf strawAll = coreOf (soFar (fun n => strawAll[n]?) n) ++ u := by
  refine ⟨coreOf (strawAll.drop n), ?_⟩
  rw [soFar_list, ← coreOf_append, List.take_append_drop]

/-- The pipeline comes to its end having computed what its programs compute, whatever the order in which things happen; here, one order that neglects nobody. -/
example : ∃ n, bytesIn 15 (proj (.part (.drain, "sack".toList) .main) (coreOf (soFar (fun n => strawAll[n]?) n))) = List.reverse (raised strawText) := by
  obtain ⟨c', printed, h1, h2⟩ := straw_made
  have e1 : 15 = 3 * strawWaiter.idOf strawSieve.to := by decide +kernel
  obtain ⟨n, _, _, h⟩ := C87_computes (perm := id) (perm' := id) (spyOrder := id) (order := []) straw_sound (fun _ => .refl _) (fun _ => .refl _) (fun _ => .refl _) h1 h2 rfl straw_free
    (fun k ch => by unfold quernCaps; split <;> simp) (by decide) straw_fair straw_patient straw_finite
    (fun n i _ f hm => straw_calm i f (by
      obtain ⟨u, hu⟩ := straw_until n
      rw [hu, proj_append, acts_append]; exact List.mem_append_left _ hm))
    (B := fun _ => strawText) (fun n b i g hh hg => by
      obtain ⟨u, hu⟩ := straw_until n
      exact (hu ▸ straw_supplies b i g hh hg).before)
  refine ⟨n, ?_⟩
  rw [e1]
  exact h (h := strawSieve) straw_sieve rfl (by decide +kernel) (straw_into (by simp)) (.stream straw_sieve (Or.inr rfl) .none) straw_gives

/-! ## Two programs that copy -/

theorem copier_steps {both : Bool} {l : List PEv} (h : (copier both).Lives l) :
    putOut .out l <+: takenIn l ∧ putOut .err l <+: takenIn l ∧
    ∃ a b d : Nat, l.length ≤ (takenIn l).length + (putOut .out l).length + (putOut .err l).length + a + b + d ∧ a ≤ 1 ∧ b ≤ 1 ∧ d ≤ 1 ∧ (.sawEnd ∉ l → a = 0) ∧
      (¬ (.refused .out ∈ l ∨ .refused .err ∈ l) → b = 0) ∧ (¬ Exited l → d = 0) := by
  induction h with
  | start => exact ⟨List.nil_prefix, List.nil_prefix, 0, 0, 0, by simp, by omega, by omega, by omega, fun _ => rfl, fun _ => rfl, fun _ => rfl⟩
  | @next l e h1 h2 h3 ih =>
    obtain ⟨j1, j2, a, b, d, i1, i2, i3, i4, i5, i6, i7⟩ := ih
    have hd := i7 h2
    subst hd
    rw [takenIn_snoc, putOut_snoc, putOut_snoc]
    simp only [List.length_append, List.length_singleton]
    have mono5 : .sawEnd ∉ l ++ [e] → a = 0 := fun h => i5 fun h' => h (by simp [h'])
    have mono6 : ¬ (.refused .out ∈ l ++ [e] ∨ .refused .err ∈ l ++ [e]) → b = 0 := fun h => i6 fun h' => h (h'.imp (fun g => by simp [g]) (fun g => by simp [g]))
    by_cases c1 : PEv.refused .out ∈ l ∨ .refused .err ∈ l
    · have := h3.of_exit (c := some 1) (by simp only [copier, c1, if_true])
      subst this
      refine ⟨by simpa [putOut, takenIn] using j1, by simpa [putOut, takenIn] using j2, a, b, 1, by omega, i2, i3, by omega, mono5, mono6, fun h => absurd ⟨some 1, by simp⟩ h⟩
    have write : ∀ p, (putOut p l).length < (takenIn l).length → putOut p l <+: takenIn l → copier both l = .write p ((takenIn l).drop (putOut p l).length) →
        (∃ d', e = .put p d' ∧ d' ≠ [] ∧ putOut p l ++ d' <+: takenIn l) ∨ e = .refused p := by
      intro p hlt hpre hw
      rw [hw] at h3
      have hne : (takenIn l).drop (putOut p l).length ≠ [] := by
        intro h
        have := congrArg List.length h
        simp at this
        omega
      cases h3 with
      | put h4 h5 => exact Or.inl ⟨_, rfl, h5 hne, prefix_grow hpre h4⟩
      | refused => exact Or.inr rfl
    by_cases c2 : (putOut .out l).length < (takenIn l).length
    · rcases write .out c2 j1 (by simp only [copier, c1, c2, if_true, if_false]) with ⟨d', rfl, h4, h5⟩ | rfl
      · have := List.length_pos_iff.mpr h4
        have e1 : putOut .out [.put .out d'] = d' := by simp [putOut]
        have e2 : putOut .err [.put .out d'] = [] := by simp [putOut]
        have e3 : takenIn [.put .out d'] = [] := by simp [takenIn]
        rw [e1, e2, e3, List.append_nil, List.append_nil]
        exact ⟨h5, j2, a, b, 0, by simp; omega, i2, i3, by omega, mono5, mono6, fun _ => rfl⟩
      · have hb := i6 c1
        subst hb
        exact ⟨by simpa [putOut, takenIn] using j1, by simpa [putOut, takenIn] using j2, a, 1, 0, by omega, i2, by omega, by omega, mono5, fun h => absurd (Or.inl (by simp)) h, fun _ => rfl⟩
    by_cases c3 : both = true ∧ (putOut .err l).length < (takenIn l).length
    · rcases write .err c3.2 j2 (by simp only [copier, c1, c2, c3, if_true, if_false, and_self]) with ⟨d', rfl, h4, h5⟩ | rfl
      · have := List.length_pos_iff.mpr h4
        have e1 : putOut .err [.put .err d'] = d' := by simp [putOut]
        have e2 : putOut .out [.put .err d'] = [] := by simp [putOut]
        have e3 : takenIn [.put .err d'] = [] := by simp [takenIn]
        rw [e1, e2, e3, List.append_nil, List.append_nil]
        exact ⟨j1, h5, a, b, 0, by simp; omega, i2, i3, by omega, mono5, mono6, fun _ => rfl⟩
      · have hb := i6 c1
        subst hb
        exact ⟨by simpa [putOut, takenIn] using j1, by simpa [putOut, takenIn] using j2, a, 1, 0, by omega, i2, by omega, by omega, mono5, fun h => absurd (Or.inr (by simp)) h, fun _ => rfl⟩
    by_cases c4 : PEv.sawEnd ∈ l
    · have := h3.of_exit (c := some 0) (by simp only [copier]; rw [if_neg c1, if_neg c2, if_neg c3, if_pos c4])
      subst this
      refine ⟨by simpa [putOut, takenIn] using j1, by simpa [putOut, takenIn] using j2, a, b, 1, by omega, i2, i3, by omega, mono5, mono6, fun h => absurd ⟨some 0, by simp⟩ h⟩
    · have hw : copier both l = .read := by simp only [copier]; rw [if_neg c1, if_neg c2, if_neg c3, if_neg c4]
      rw [hw] at h3
      cases h3 with
      | @took d' h4 =>
        have := List.length_pos_iff.mpr h4
        have e1 : takenIn [.took d'] = d' := by simp [takenIn]
        have e2 : ∀ p, putOut p [.took d'] = [] := by simp [putOut]
        rw [e1, e2, e2, List.append_nil, List.append_nil]
        exact ⟨j1.trans (List.prefix_append _ _), j2.trans (List.prefix_append _ _), a, b, 0, by simp; omega, i2, i3, by omega, mono5, mono6, fun _ => rfl⟩
      | sawEnd =>
        have ha := i5 c4
        subst ha
        exact ⟨by simpa [putOut, takenIn] using j1, by simpa [putOut, takenIn] using j2, 1, b, 0, by omega, by omega, i3, by omega, fun h => absurd (by simp) h, mono6, fun _ => rfl⟩

theorem copier_finite (both : Bool) : (copier both).Finite := by
  refine Program.finite_of (fun t => 3 * t.length + 3) fun l hl => ?_
  obtain ⟨j1, j2, a, b, d, h1, h2, h3, h4, _⟩ := copier_steps hl
  have := j1.length_le
  have := j2.length_le
  omega

theorem quern_runs : quernWaiter.WorldRun [] quernCaps 2 quernProgs quernAll := Waiter.worldDrive_runs _ _

/-- With errors and an exit status. -/
example : ∃ n, quernWaiter.AllOver [] (soFar (fun n => quernAll[n]?) n) ∧ ∀ m, n ≤ m → quernAll[m]? = none := by
  have A := assembled (order := []) rfl quern_built rfl
  have F := quern_over.fair quern_runs
  obtain ⟨E, U⟩ := A.run quern_complete quern_runs.core
  have nf := C55_no_failures (A.wired quern_complete) E U (A.inside quern_complete quern_runs.core (quern_runs.core.calm (by decide +kernel)))
  have before : ∀ n, ∃ u, coreOf quernAll = coreOf (soFar (fun n => quernAll[n]?) n) ++ u := fun n =>
    ⟨coreOf (quernAll.drop n), by rw [soFar_list, ← coreOf_append, List.take_append_drop]⟩
  exact C87_ends (order := []) rfl quern_built rfl quern_complete quern_free (fun k ch => by unfold quernCaps; split <;> simp) (by decide) F (fun x _ => copier_finite _)
    (fun x h => ⟨(receivedFrom (.handle h) (proj (.part (.faucet, x) .main) (coreOf quernAll))).length, fun n => by
      obtain ⟨u, hu⟩ := before n
      rw [hu, proj_append, receivedFrom_append, List.length_append]
      omega⟩)
    (fun n i inputs pushs spy hi f hm => not_ruins <| nf i _ f hi (by
      obtain ⟨u, hu⟩ := before n
      rw [hu, proj_append, acts_append]; exact List.mem_append_left _ hm))

/-! ## A regulator, a buffer and a manager -/

/-- Where there are no programs, the activities are all there is. -/
theorem Waiter.Run.world {w : Waiter} {cs : List Capture} {cap : Caps} {room : Nat} {prog : Str → Program} (hl : ∀ x, w.comps.get (.launch, x) = none) {τ : List (Who × Ev)} (h : w.Run cs cap τ) :
    w.WorldRun cs cap room prog (τ.map fun x => .core x.1 x.2) := by
  have key : ∀ n, w.WorldRun cs cap room prog ((τ.take n).map fun x => .core x.1 x.2) := by
    intro n
    induction n with
    | zero => exact .start
    | succ n ih =>
      rw [List.take_add_one, List.map_append]
      cases hn : τ[n]? with
      | none => simpa using ih
      | some x =>
        obtain ⟨i, e⟩ := x
        have e1 : ∀ l : List (Who × Ev), coreOf (l.map fun x => .core x.1 x.2) = l := by
          intro l
          induction l with
          | nil => rfl
          | cons x l ih => simpa [coreOf] using ih
        have hr := h.take (n + 1)
        rw [List.take_add_one, hn] at hr
        have hi : ∀ x p, i ≠ .part (.launch, x) p := by
          rintro x p rfl
          exact hr.known (.part (.launch, x) p, e) (by simp) (by simp [Waiter.sys, hl])
        refine .next ih (.core (by rw [e1]; exact hr) ⟨?_, ?_, ?_, ?_⟩)
        · intro y k d r g; exact absurd g (hi _ _)
        · intro y k r g; exact absurd g (hi _ _)
        · intro y p k r g; exact absurd g (hi _ _)
        · intro y r g; exact absurd g (hi _ _)
  have := key τ.length
  rwa [List.take_length] at this

def weirHappenings : List Happening := weirAll.map fun x => .core x.1 x.2
theorem weir_noLaunch : ∀ x, weirReady.2.comps.get (.launch, x) = none := by
  intro x
  have hk : ∀ z ∈ weirReady.2.comps, z.1.1 ≠ .launch := by decide +kernel
  cases h : weirReady.2.comps.get (.launch, x) with
  | none => rfl
  | some y => exact absurd rfl (hk _ (Table.get_mem h))
theorem weir_core : coreOf weirHappenings = weirAll := by
  have e1 : ∀ l : List (Who × Ev), coreOf (l.map fun x => .core x.1 x.2) = l := by
    intro l
    induction l with
    | nil => rfl
    | cons x l ih => simpa [coreOf] using ih
  exact e1 _

example : ∃ n st, execAll weirWide Store.init ((coreOf (soFar (fun n => weirHappenings[n]?) n)).map Prod.snd) = some st ∧
    (weirReady.2.AllOver weirReady.1 (soFar (fun n => weirHappenings[n]?) n) ∨ (∃ r, weirReady.2.Unheard weirReady.1 weirWide st (coreOf (soFar (fun n => weirHappenings[n]?) n)) r) ∨
      ∃ r, weirReady.2.Paused weirReady.1 st (coreOf (soFar (fun n => weirHappenings[n]?) n)) r) := by
  have hT : weirReady.2.WorldRun weirReady.1 weirWide 2 quernProgs weirHappenings := weirAll_runs.world weir_noLaunch
  have ho : weirReady.2.AllOver weirReady.1 weirHappenings := ⟨by rw [weir_core]; exact weirAll_over, fun x hx => absurd (weir_noLaunch x) hx⟩
  have A := assembled rfl weir_built weir_prepared
  obtain ⟨E, U⟩ := A.run weir_complete weirAll_runs
  have nf := C55_no_failures (A.wired weir_complete) E U (A.inside weir_complete weirAll_runs weirAll_calm)
  have before : ∀ n, ∃ u, weirAll = coreOf (soFar (fun n => weirHappenings[n]?) n) ++ u := fun n =>
    ⟨coreOf (weirHappenings.drop n), by rw [soFar_list, ← coreOf_append, List.take_append_drop, weir_core]⟩
  have hfree : NoWayBack (weir.map (·.2)) := by
    refine C85_components (noReturn (fun r => weirRank (.part r .output)) ?_)
    have : ∀ h ∈ weir.map (·.2), weirRank (.part h.from .output) < weirRank (.part h.to .output) := by decide +kernel
    rintro a b ⟨h, hm, rfl, rfl⟩
    exact this h hm
  refine C87_managed rfl weir_built weir_prepared weir_complete hfree (by
      have : weirReady.1 = [⟨0, 1, "gate".toList, ["tank".toList]⟩] := by decide +kernel
      rw [this]; simp) (fun k ch => by
      unfold weirWide
      split
      · simp
      · exact realCaps_room _ _ _) (room := 2) (by decide) (ho.fair hT) (fun x hx => absurd (weir_noLaunch x) hx)
    (fun x h => ⟨(receivedFrom (.handle h) (proj (.part (.faucet, x) .main) weirAll)).length, fun n => by
      obtain ⟨u, hu⟩ := before n
      rw [hu, proj_append, receivedFrom_append, List.length_append]
      omega⟩)
    (fun n i inputs pushs spy hi f hm => not_ruins <| nf i _ f hi (by
      obtain ⟨u, hu⟩ := before n
      rw [hu, proj_append, acts_append]; exact List.mem_append_left _ hm))

end Verif
