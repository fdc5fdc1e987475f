import Verif.Lemmas.Blame
import Verif.Props.RuntimeExample
/-!
# Property C66: without circles and managers, what runs after `start` never comes to a standstill

`Waiter.Run` is everything `start` runs, in any order. Programs and files answer sooner or later, with whatever they like.
-/
namespace Verif
section
variable {c : Config} {hs : List Hop} {w : Waiter} {cap : Caps} {τ : List (Who × Ev)} {st : Store}

/-- The reason behind C66. -/
theorem Rigged.progress (A : Rigged c hs w) (hC : Complete hs) (hu : w.Unmanaged) (hcf : CircleFree hs) (hr : w.Run [] cap τ)
    (hst : execAll cap Store.init (τ.map Prod.snd) = some st) (hcap : ∀ k ch, cap k ch ≠ some 0)
    (hj : ∀ i inputs pushs spy, w.node i = some (.junction inputs pushs spy) → ∀ f ∈ acts (proj i τ), f.ruins pushs = false) (ho : ¬ w.Over [] τ) :
    ∃ i t, w.sys [] i = some t ∧ ¬ t.Done (proj i τ) ∧ ¬ w.Idle st τ i ∧ w.CanStep [] cap τ i := by
  rcases A.standstill hC (attended_none hu) hcf hr hst hcap hj ho with ⟨i, t, h1, h2, h3, h4⟩ | ⟨r, ⟨t, h1, _⟩, _⟩ | ⟨r, ⟨t, h1, h2⟩, _⟩
  · exact ⟨i, t, h1, h2, fun h => h3 (Or.inl h), h4⟩
  · cases h1
  · exfalso
    have hn : w.node (.part (.regulator, r) .main) ≠ none := by
      intro hn
      rcases A.others hC h1 hn with ⟨_, _, _, _, he, _⟩ | ⟨_, _, he, _⟩ | ⟨_, _, he, _⟩ | ⟨_, _, he, hd, _⟩ <;> cases he
      cases hd
    obtain ⟨n, hn⟩ := Option.ne_none_iff_exists'.mp hn
    rw [sys_node hn] at h1
    cases h1
    rcases A.kinds hC hu hn (h2.step none) (e := ⟨.recv .ctl (w.idOf (.regulator, r)), none⟩) (by simp) rfl with h | ⟨h, _⟩ <;> cases h

variable {R : Map Hop} {w' : Waiter} {order : List (Str × Watch)}

/-- **C66** In a runtime without managers in which nothing leads back to where it started, and no channel of which has capacity zero: as long as not everything has ended, some
activity that has not ended can make a step, and is neither a junction nor a count merely looking again. It does not matter in which order the activities have run, what programs and
files have done, what has failed; but junctions are assumed to have met nothing they cannot get over: a refused write to an output with `T`, a report refused. -/
theorem C66_progress (hc : c.connection = hopSets R) (hw : getWaiter c = .ok w) (hp : w.regulatorSettings order = .ok ([], w')) (hC : Complete (R.map (·.2)))
    (hcf : CircleFree (R.map (·.2))) (hcap : ∀ k ch, cap k ch ≠ some 0) (hr : w'.Run [] cap τ) (hst : execAll cap Store.init (τ.map Prod.snd) = some st)
    (hj : ∀ i inputs pushs spy, w'.node i = some (.junction inputs pushs spy) → ∀ f ∈ acts (proj i τ), f.ruins pushs = false) (ho : ¬ w'.Over [] τ) :
    ∃ i t, w'.sys [] i = some t ∧ ¬ t.Done (proj i τ) ∧ ¬ w'.Idle st τ i ∧ w'.CanStep [] cap τ i := by
  have A := assembled hc hw hp
  rw [regulatorSettings_none hp] at A hr hj ho ⊢
  exact A.progress hC (unmanaged hc hw) hcf hr hst hcap hj ho

/-- **C66** When no activity of such a runtime can make another step, but for junctions and counts looking again, and no file, stream or notification has failed, everything has ended
and every hop has delivered everything. -/
theorem C66_stops (hc : c.connection = hopSets R) (hw : getWaiter c = .ok w) (hp : w.regulatorSettings order = .ok ([], w')) (hC : Complete (R.map (·.2)))
    (hcf : CircleFree (R.map (·.2))) (hcap : ∀ k ch, cap k ch ≠ some 0) (hr : w'.Run [] cap τ) (hst : execAll cap Store.init (τ.map Prod.snd) = some st)
    (hf : ∀ i, ∀ f ∈ acts (proj i τ), f.trouble = false) (hmax : ∀ i, ¬ w'.Idle st τ i → ¬ w'.CanStep [] cap τ i) :
    w'.Over [] τ ∧ ∀ i h, (R.map (·.2))[i]? = some h → ¬ h.isExit → receivedFrom (.chan i) (proj h.reader τ) = received (proj h.writer τ) := by
  have A := assembled hc hw hp
  obtain ⟨E, U⟩ := A.run hC hr
  have nf := C55_no_failures (A.wired hC) E U (A.inside hC hr hf)
  have ho : w'.Over [] τ := by
    refine Classical.byContradiction fun ho => ?_
    obtain ⟨i, _, _, _, h1, h2⟩ := C66_progress hc hw hp hC hcf hcap hr hst (fun i inputs pushs spy hn f hm => not_ruins (nf i _ f hn hm)) ho
    exact hmax i h1 h2
  exact ⟨ho, (C65_complete hc hw hp hC hr ho hf).1⟩

/-- **C66** It is enough that following the connections one never returns to the same component. -/
theorem C66_components {hs : List Hop} (h : ∀ r, ¬ Relation.TransGen (fun a b : CompRef => ∃ h ∈ hs, h.from = a ∧ h.to = b) r r) : CircleFree hs := by
  have one : ∀ {i j}, Leads hs i j → ∃ a p b q, i = .part a p ∧ j = .part b q ∧ ((∃ h ∈ hs, h.from = a ∧ h.to = b) ∨ a = b ∧ p = .input ∧ q = .output) := by
    intro i j hl
    cases hl with
    | hop h1 _ => exact ⟨_, _, _, _, rfl, rfl, Or.inl ⟨_, h1, rfl, rfl⟩⟩
    | exit h1 _ _ => exact ⟨_, _, _, _, rfl, rfl, Or.inl ⟨_, h1, rfl, rfl⟩⟩
    | buffer _ => exact ⟨_, _, _, _, rfl, rfl, Or.inr ⟨rfl, rfl, rfl⟩⟩
  have many : ∀ {i j}, Relation.TransGen (Leads hs) i j → ∃ a p b q, i = .part a p ∧ j = .part b q ∧
      (Relation.TransGen (fun a b : CompRef => ∃ h ∈ hs, h.from = a ∧ h.to = b) a b ∨ a = b ∧ p = .input ∧ q = .output) := by
    intro i j hl
    induction hl with
    | single h1 =>
      obtain ⟨a, p, b, q, rfl, rfl, h2⟩ := one h1
      exact ⟨a, p, b, q, rfl, rfl, h2.imp .single id⟩
    | tail _ h1 ih =>
      obtain ⟨a, p, b, q, rfl, rfl, h2⟩ := ih
      obtain ⟨b', q', d, s, e, rfl, h3⟩ := one h1
      cases e
      refine ⟨a, p, d, s, rfl, rfl, ?_⟩
      rcases h2 with h2 | ⟨rfl, rfl, rfl⟩
      · rcases h3 with h3 | ⟨rfl, _, rfl⟩
        · exact Or.inl (.tail h2 h3)
        · exact Or.inl h2
      · rcases h3 with h3 | ⟨_, h3, _⟩
        · exact Or.inl (.single h3)
        · cases h3
  intro i hl
  obtain ⟨a, p, b, q, rfl, e, h1⟩ := many hl
  cases e
  rcases h1 with h1 | ⟨_, rfl, h1⟩
  · exact h a h1
  · cases h1

/-- Ranks show that there is no way back. -/
theorem noReturn {α : Type} {r : α → α → Prop} (rank : α → Nat) (h : ∀ a b, r a b → rank a < rank b) (a : α) : ¬ Relation.TransGen r a a := by
  have : ∀ {a b}, Relation.TransGen r a b → rank a < rank b := by
    intro a b hab
    induction hab with
    | single h1 => exact h _ _ h1
    | tail _ h1 ih => exact Nat.lt_trans ih (h _ _ h1)
  exact fun h => Nat.lt_irrefl _ (this h)

/-! ## An example -/

theorem circleFree_of {hs : List Hop} (rank : Who → Nat) (h1 : ∀ h ∈ hs, ¬ h.isExit → rank h.writer < rank h.reader)
    (h2 : ∀ h ∈ hs, h.isExit → ∀ p ∈ relayPieces, rank (.part h.from p) < rank h.reader) (h3 : ∀ x, rank (.part (.buffer, x) .input) < rank (.part (.buffer, x) .output)) :
    CircleFree hs := by
  refine noReturn rank ?_
  intro a b h
  cases h with
  | hop g1 g2 => exact h1 _ g1 g2
  | exit g1 g2 g3 => exact h2 _ g1 g2 _ g3
  | buffer _ => exact h3 _

/-- A file into a junction, from there into a drain and through a buffer and a program into others. The way through the program may lead back: here what it prints as errors enters the
junction again. -/
def brook : List (Str × Hop) :=
  [("m_1".toList, ⟨⟨.faucet, "spring".toList, .out⟩, none, ⟨.junction, "fork".toList⟩, ⟨.terminate, 0⟩, none⟩),
   ("m_2".toList, ⟨⟨.junction, "fork".toList, .out⟩, none, ⟨.buffer, "pond".toList⟩, ⟨.terminate, 0⟩, none⟩),
   ("m_3".toList, ⟨⟨.buffer, "pond".toList, .out⟩, none, ⟨.launch, "wheel".toList⟩, ⟨.terminate, 0⟩, none⟩),
   ("m_4".toList, ⟨⟨.launch, "wheel".toList, .out⟩, none, ⟨.drain, "lake".toList⟩, ⟨.terminate, 0⟩, none⟩),
   ("m_5".toList, ⟨⟨.launch, "wheel".toList, .err⟩, none, ⟨.junction, "fork".toList⟩, ⟨.terminate, 0⟩, none⟩),
   ("n_1".toList, ⟨⟨.junction, "fork".toList, .out⟩, none, ⟨.drain, "field".toList⟩, ⟨.terminate, 0⟩, none⟩),
   ("n_2".toList, ⟨⟨.launch, "wheel".toList, .exit⟩, none, ⟨.drain, "code".toList⟩, ⟨.terminate, 0⟩, none⟩)]
def brookConfig : Config where
  faucet := [("spring".toList, "-".toList)]
  regulator := []
  drain := []
  launch := [("wheel".toList, ⟨some "cat".toList, none, [], []⟩)]
  connection := hopSets brook
def brookWaiter : Waiter := ((getWaiter brookConfig).ok?).getD Waiter.new
def brookCaps : Caps := fun k _ => if k = .data then some 1 else some 8
def brookFeed : Feed := fun h => if h = 0 then [[1, 10], [2, 10], [3, 10]] else []
/-- Nine rounds: not everything has ended by then. -/
def brookTrace := brookWaiter.drive [] brookCaps brookFeed (.code 3) (List.replicate 9 (brookWaiter.everyone [])).flatten

theorem brook_built : getWaiter brookConfig = .ok brookWaiter := by decide +kernel
theorem brook_runs : brookWaiter.Run [] brookCaps brookTrace := Waiter.runs_sound (by decide +kernel)
theorem brook_complete : Complete (brook.map (·.2)) := complete_of (by decide +kernel) (by decide +kernel)
def brookRank : Who → Nat
  | .part (.junction, _) _ => 1
  | .part (.buffer, _) .input => 2
  | .part (.buffer, _) .output => 3
  | .part (.launch, _) .input => 4
  | .part (.drain, _) _ => 5
  | _ => 0
theorem brook_free : CircleFree (brook.map (·.2)) := circleFree_of brookRank (by decide +kernel) (by decide +kernel) (fun _ => Nat.lt_succ_self 2)
theorem brook_calm : ∀ i, ∀ f ∈ acts (proj i brookTrace), f.trouble = false := brook_runs.calm (by decide +kernel)

theorem brook_unended : ¬ brookWaiter.Over [] brookTrace := by
  intro h
  have hs : ∃ t, brookWaiter.sys [] (.part (.drain, "field".toList) .main) = some t ∧ (Kind.data, 5) ∈ t.drops := by
    cases hs : brookWaiter.sys [] (.part (.drain, "field".toList) .main) with
    | none => exact absurd hs (by decide +kernel)
    | some t =>
      refine ⟨t, rfl, ?_⟩
      have : ((brookWaiter.sys [] (.part (.drain, "field".toList) .main)).map Task.drops) = some [(.data, 5)] := by decide +kernel
      rw [hs] at this; simp at this; rw [this]; simp
  obtain ⟨t, h1, h2⟩ := hs
  have h3 := done_drops (h _ t h1) h2
  exact absurd h3 (by decide +kernel)

/-- Nine rounds later there is something to do. -/
example : ∃ st i t, brookWaiter.sys [] i = some t ∧ ¬ t.Done (proj i brookTrace) ∧ ¬ brookWaiter.Idle st brookTrace i ∧ brookWaiter.CanStep [] brookCaps brookTrace i := by
  have A := assembled (order := []) rfl brook_built rfl
  obtain ⟨E, U⟩ := A.run brook_complete brook_runs
  have nf := C55_no_failures (A.wired brook_complete) E U (A.inside brook_complete brook_runs brook_calm)
  obtain ⟨st, hst⟩ := Option.isSome_iff_exists.mp brook_runs.exec.chans
  exact ⟨st, C66_progress (order := []) rfl brook_built rfl brook_complete brook_free (fun k ch => by unfold brookCaps; split <;> simp) brook_runs hst
    (fun i inputs pushs spy hn f hm => not_ruins (nf i _ f hn hm)) brook_unended⟩

end
end Verif
