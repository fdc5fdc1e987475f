import Verif.Lemmas.WorldProgress
import Verif.Lemmas.WorldDrive
import Verif.Props.RuntimeProgress
import Verif.Props.FlowControl
/-!
# Property C85: with programs as processes and pipes of limited size, a pipeline nothing of which leads back never comes to a standstill

In C66 programs answer sooner or later. Here they are processes: they may wait for input before they write, wait for what they have written to be taken before they read, close streams, end when they like.
-/
namespace Verif
section
variable {c : Config} {R : Map Hop} {w w' : Waiter} {order : List (Str × Watch)} {cs : List Capture} {cap : Caps} {room : Nat} {prog : Str → Program} {T : List Happening} {st : Store}

/-- **C85** In a runtime without managers in which nothing leads back to where it started, be it through programs; whatever the programs are, provided pipes and channels hold something: as long as not
everything has ended, programs included, something can happen that is not merely a junction or count looking again. -/
theorem C85_progress (hc : c.connection = hopSets R) (hw : getWaiter c = .ok w) (hp : w.regulatorSettings order = .ok ([], w')) (hC : Complete (R.map (·.2)))
    (hcf : NoWayBack (R.map (·.2))) (hcap : ∀ k ch, cap k ch ≠ some 0) (hroom : 0 < room) (hT : w'.WorldRun [] cap room prog T)
    (hst : execAll cap Store.init ((coreOf T).map Prod.snd) = some st)
    (hj : ∀ i inputs pushs spy, w'.node i = some (.junction inputs pushs spy) → ∀ f ∈ acts (proj i (coreOf T)), f.ruins pushs = false) (ho : ¬ w'.AllOver [] T) :
    w'.Lively [] cap room prog st T := by
  have A := assembled hc hw hp
  have M := attended hc hw hp
  refine Classical.byContradiction fun hno => ho (A.all_over hC M hcf hT hroom hst hcap hj hno ?_ ?_)
  · rintro r ⟨⟨t, h1, _⟩, _⟩; cases h1
  · rintro r ⟨⟨t, h1, h2⟩, _⟩
    have hu : w'.Unmanaged := by rw [regulatorSettings_none hp]; exact unmanaged hc hw
    have hn : w'.node (.part (.regulator, r) .main) ≠ none := by
      intro hn
      rcases A.toRigged.others hC h1 hn with ⟨_, _, _, _, he, _⟩ | ⟨_, _, he, _⟩ | ⟨_, _, he, _⟩ | ⟨_, _, he, hd, _⟩ <;> cases he
      cases hd
    obtain ⟨n, hn⟩ := Option.ne_none_iff_exists'.mp hn
    rw [sys_node hn] at h1
    cases h1
    rcases A.kinds hC hu hn (h2.step none) (e := ⟨.recv .ctl (w'.idOf (.regulator, r)), none⟩) (by simp) rfl with h | ⟨h, _⟩ <;> cases h

/-- **C85** With managers: something can happen, or a manager waits for room for a request, or a regulator waits to be told to resume. -/
theorem C85_managed (hc : c.connection = hopSets R) (hw : getWaiter c = .ok w) (hp : w.regulatorSettings order = .ok (cs, w')) (hC : Complete (R.map (·.2)))
    (hcf : NoWayBack (R.map (·.2))) (hcap : ∀ k ch, cap k ch ≠ some 0) (hroom : 0 < room) (hT : w'.WorldRun cs cap room prog T)
    (hst : execAll cap Store.init ((coreOf T).map Prod.snd) = some st)
    (hj : ∀ i inputs pushs spy, w'.node i = some (.junction inputs pushs spy) → ∀ f ∈ acts (proj i (coreOf T)), f.ruins pushs = false) (ho : ¬ w'.AllOver cs T) :
    w'.Lively cs cap room prog st T ∨ (∃ r, w'.Unheard cs cap st (coreOf T) r) ∨ ∃ r, w'.Paused cs st (coreOf T) r := by
  refine Classical.byContradiction fun hno => ?_
  rw [not_or, not_or, not_exists, not_exists] at hno
  exact ho ((assembled hc hw hp).all_over hC (attended hc hw hp) hcf hT hroom hst hcap hj hno.1 hno.2.1 hno.2.2)

/-- **C85** When nothing more can happen, and no file, stream or notification has failed, everything has ended, programs included, and every hop has delivered everything. -/
theorem C85_stops (hc : c.connection = hopSets R) (hw : getWaiter c = .ok w) (hp : w.regulatorSettings order = .ok ([], w')) (hC : Complete (R.map (·.2)))
    (hcf : NoWayBack (R.map (·.2))) (hcap : ∀ k ch, cap k ch ≠ some 0) (hroom : 0 < room) (hT : w'.WorldRun [] cap room prog T)
    (hst : execAll cap Store.init ((coreOf T).map Prod.snd) = some st) (hf : ∀ i, ∀ f ∈ acts (proj i (coreOf T)), f.trouble = false)
    (hmax : ¬ w'.Lively [] cap room prog st T) :
    w'.AllOver [] T ∧ ∀ i h, (R.map (·.2))[i]? = some h → ¬ h.isExit → receivedFrom (.chan i) (proj h.reader (coreOf T)) = received (proj h.writer (coreOf T)) := by
  have A := assembled hc hw hp
  obtain ⟨E, U⟩ := A.run hC hT.core
  have nf := C55_no_failures (A.wired hC) E U (A.inside hC hT.core hf)
  have ho : w'.AllOver [] T := Classical.byContradiction fun ho =>
    hmax (C85_progress hc hw hp hC hcf hcap hroom hT hst (fun i inputs pushs spy hn f hm => not_ruins (nf i _ f hn hm)) ho)
  exact ⟨ho, (C65_complete hc hw hp hC hT.core ho.1 hf).1⟩

/-- **C85** It is enough that following the connections one never returns to the same component. -/
theorem C85_components {hs : List Hop} (h : ∀ r, ¬ Relation.TransGen (fun a b : CompRef => ∃ h ∈ hs, h.from = a ∧ h.to = b) r r) : NoWayBack hs := by
  have one : ∀ {i j}, LeadsOn hs (fun _ => True) i j → ∃ a p b q, i = .part a p ∧ j = .part b q ∧ ((∃ h ∈ hs, h.from = a ∧ h.to = b) ∨ a = b ∧ p = .input ∧ q ≠ .input) := by
    intro i j hl
    cases hl with
    | inside hl =>
      cases hl with
      | hop h1 _ => exact ⟨_, _, _, _, rfl, rfl, Or.inl ⟨_, h1, rfl, rfl⟩⟩
      | exit h1 _ _ => exact ⟨_, _, _, _, rfl, rfl, Or.inl ⟨_, h1, rfl, rfl⟩⟩
      | buffer _ => exact ⟨_, _, _, _, rfl, rfl, Or.inr ⟨rfl, rfl, by simp⟩⟩
    | @program g h1 h2 h3 _ =>
      cases hg : g.writer with
      | manager r => simp [Hop.writer] at hg
      | part r p =>
        have := Hop.writer_iff.mp hg
        refine ⟨_, _, _, _, rfl, rfl, Or.inr ⟨this.1, rfl, ?_⟩⟩
        rintro rfl
        have h4 := this.2
        have hr : r.1 = .launch := by rw [← this.1]; exact h2
        rw [hr] at h4
        revert h4
        cases g.src.port <;> simp
  have many : ∀ {i j}, Relation.TransGen (LeadsOn hs fun _ => True) i j → ∃ a p b q, i = .part a p ∧ j = .part b q ∧
      (Relation.TransGen (fun a b : CompRef => ∃ h ∈ hs, h.from = a ∧ h.to = b) a b ∨ a = b ∧ p = .input ∧ q ≠ .input) := by
    intro i j hl
    induction hl with
    | single h1 =>
      obtain ⟨a, p, b, q, rfl, rfl, h2⟩ := one h1
      exact ⟨a, p, b, q, rfl, rfl, h2.imp .single fun g => g⟩
    | tail _ h1 ih =>
      obtain ⟨a, p, b, q, rfl, rfl, h2⟩ := ih
      obtain ⟨b', q', d, s, e, rfl, h3⟩ := one h1
      cases e
      refine ⟨a, p, d, s, rfl, rfl, ?_⟩
      rcases h2 with h2 | ⟨rfl, rfl, hq⟩
      · rcases h3 with h3 | ⟨rfl, _, _⟩
        · exact Or.inl (.tail h2 h3)
        · exact Or.inl h2
      · rcases h3 with h3 | ⟨_, h3, _⟩
        · exact Or.inl (.single h3)
        · exact absurd h3 hq
  intro i hl
  obtain ⟨a, p, b, q, rfl, e, h1⟩ := many hl
  cases e
  rcases h1 with h1 | ⟨_, h1, h2⟩
  · exact h a h1
  · exact h2 h1

/-! ## An example -/

/-- A file through two programs into a file. What the first prints as errors and its exit status go into others. -/
def quern : List (Str × Hop) :=
  [("m_1".toList, ⟨⟨.faucet, "field".toList, .out⟩, none, ⟨.launch, "grind".toList⟩, ⟨.terminate, 0⟩, none⟩),
   ("m_2".toList, ⟨⟨.launch, "grind".toList, .out⟩, none, ⟨.launch, "sieve".toList⟩, ⟨.terminate, 0⟩, none⟩),
   ("m_3".toList, ⟨⟨.launch, "sieve".toList, .out⟩, none, ⟨.drain, "sack".toList⟩, ⟨.terminate, 0⟩, none⟩),
   ("n_1".toList, ⟨⟨.launch, "grind".toList, .err⟩, none, ⟨.drain, "dust".toList⟩, ⟨.terminate, 0⟩, none⟩),
   ("n_2".toList, ⟨⟨.launch, "grind".toList, .exit⟩, none, ⟨.drain, "code".toList⟩, ⟨.terminate, 0⟩, none⟩)]
def quernConfig : Config where
  faucet := [("field".toList, "-".toList)]
  regulator := []
  drain := []
  launch := [("grind".toList, ⟨some "tee".toList, none, [], []⟩), ("sieve".toList, ⟨some "cat".toList, none, [], []⟩)]
  connection := hopSets quern
def quernWaiter : Waiter := ((getWaiter quernConfig).ok?).getD Waiter.new
def quernCaps : Caps := fun k _ => if k = .data then some 1 else some 8
def quernFeed : Feed := fun h => if h = 0 then [[1, 2, 10], [3, 4, 5, 6, 10]] else []

/-- Copies its input to its output, and to its error output if so told. -/
def copier (both : Bool) : Program := fun l =>
  if .refused .out ∈ l ∨ .refused .err ∈ l then .exit (some 1)
  else if (putOut .out l).length < (takenIn l).length then .write .out ((takenIn l).drop (putOut .out l).length)
  else if both ∧ (putOut .err l).length < (takenIn l).length then .write .err ((takenIn l).drop (putOut .err l).length)
  else if .sawEnd ∈ l then .exit (some 0) else .read
def quernProgs : Str → Program := fun x => copier (x = "grind".toList)
/-- Pipes hold two bytes, so no line fits in. -/
def quernTrace (n : Nat) : List Happening := quernWaiter.worldDrive [] quernCaps 2 quernProgs quernFeed (List.replicate n (quernWaiter.everybody [])).flatten

theorem quern_built : getWaiter quernConfig = .ok quernWaiter := by decide +kernel
theorem quern_complete : Complete (quern.map (·.2)) := complete_of (by decide +kernel) (by decide +kernel)
def quernRank : CompRef → Nat
  | (.launch, x) => if x = "grind".toList then 1 else 2
  | (.drain, _) => 3
  | _ => 0
theorem quern_free : NoWayBack (quern.map (·.2)) := C85_components (noReturn quernRank (by
  have : ∀ h ∈ quern.map (·.2), quernRank h.from < quernRank h.to := by decide +kernel
  rintro a b ⟨h, hm, rfl, rfl⟩
  exact this h hm))

/-- Programs wait for pipes and pipes for programs; eight rounds later there is something to do. -/
example : ∃ st, quernWaiter.Lively [] quernCaps 2 quernProgs st (quernTrace 8) := by
  have hT : quernWaiter.WorldRun [] quernCaps 2 quernProgs (quernTrace 8) := Waiter.worldDrive_runs _ _
  have A := assembled (order := []) rfl quern_built rfl
  obtain ⟨E, U⟩ := A.run quern_complete hT.core
  have nf := C55_no_failures (A.wired quern_complete) E U (A.inside quern_complete hT.core (hT.core.calm (by decide +kernel)))
  obtain ⟨st, hst⟩ := Option.isSome_iff_exists.mp hT.core.exec.chans
  refine ⟨st, C85_progress (order := []) rfl quern_built rfl quern_complete quern_free (fun k ch => by unfold quernCaps; split <;> simp) (by decide) hT hst
    (fun i inputs pushs spy hn f hm => not_ruins (nf i _ f hn hm)) ?_⟩
  rintro ⟨_, h⟩
  exact absurd (h "sieve".toList (by decide +kernel)) (by decide +kernel)

/-- The whole run, in the order in which it goes if everybody tries in turn. -/
def quernAll : List Happening := quernWaiter.worldDrive [] quernCaps 2 quernProgs quernFeed (([0, 0, 7, 0, 7, 36, 0, 7, 36, 0, 7, 8, 36, 0, 7, 9, 36, 7, 36, 8, 36, 8, 9, 36, 7, 8, 9, 13, 36, 8, 9, 13, 24,
  36, 37, 9, 13, 24, 36, 37, 7, 13, 14, 36, 37, 7, 8, 36, 37, 7, 9, 14, 36, 7, 14, 36, 7, 8, 14, 18, 36, 8, 9, 18, 36, 8, 9, 13, 36, 8, 9, 13, 24, 37, 8, 9, 13, 24, 37, 8, 9, 14, 24, 37, 9, 10, 13, 24, 37, 10, 13,
  14, 24, 30, 37, 10, 13, 30, 37, 13, 14, 30, 13, 14, 30, 37, 14, 18, 30, 37, 14, 18, 14, 18, 14, 18, 18] : List Nat).filterMap fun k => (quernWaiter.everybody [])[k]?)

/-- In the end everything has ended; the second program has read and written all there was, bit by bit. -/
theorem quern_over : quernWaiter.AllOver [] quernAll := by
  have h : Exited (historyOf "grind".toList quernAll) ∧ Exited (historyOf "sieve".toList quernAll) := by decide +kernel
  refine ⟨Waiter.overNow_sound (by decide +kernel), fun x hx => ?_⟩
  have hk : ∀ h ∈ quern.map (·.2), ∀ r, (r = h.from ∨ r = h.to) → r.1 = .launch → r.2 = "grind".toList ∨ r.2 = "sieve".toList := by
    have : ∀ h ∈ quern.map (·.2), ∀ r ∈ [h.from, h.to], r.1 = .launch → r.2 = "grind".toList ∨ r.2 = "sieve".toList := by decide +kernel
    exact fun h hm r hr => this h hm r (by simpa using hr)
  obtain ⟨y, hy⟩ := Option.ne_none_iff_exists'.mp hx
  obtain ⟨g, hg, hr⟩ := (assembled (order := []) rfl quern_built rfl).mentioned hy
  rcases hk g hg (.launch, x) (hr.imp Eq.symm Eq.symm) rfl with h' | h' <;> cases h'
  · exact h.1
  · exact h.2
example : putOut .out (historyOf "sieve".toList quernAll) = [1, 2, 10, 3, 4, 5, 6, 10] := by decide +kernel

end
end Verif
