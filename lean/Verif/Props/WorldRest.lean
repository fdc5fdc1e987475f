import Verif.Lemmas.WorldRest
import Verif.Props.Jam
import Verif.Props.World
/-!
# C88: Programs on loops
-/
namespace Verif
section
variable {c : Config} {R : Map Hop} {w w' : Waiter} {cs : List Capture} {order : List (Str × Watch)} {cap : Caps} {room : Nat} {prog : Str → Program} {T : List Happening} {st : Store}

/-- **C88** Programs being processes and pipes limited, whatever the programs are: if there is a buffer on every loop, also through programs, then when nothing more can happen, and no regulator is paused and no
manager waits for room, everything has been used up: no channel whose reader has not closed it holds anything, nor does a buffer; each program that has not ended wants to read and the pipe to it is empty, and
what it has printed has been taken. Junctions are assumed to have met nothing they cannot get over. -/
theorem C88_rest (hc : c.connection = hopSets R) (hw : getWaiter c = .ok w) (hp : w.regulatorSettings order = .ok (cs, w')) (hC : Complete (R.map (·.2)))
    (hb : LoopsBuffered (R.map (·.2))) (hcap : ∀ k ch, cap k ch ≠ some 0) (hun : ∀ ch, (R.map (·.2)).length ≤ ch → cap .data ch = none) (hroom : 0 < room)
    (hT : w'.WorldRun cs cap room prog T) (hst : execAll cap Store.init ((coreOf T).map Prod.snd) = some st)
    (hj : ∀ i inputs pushs spy, w'.node i = some (.junction inputs pushs spy) → ∀ f ∈ acts (proj i (coreOf T)), f.ruins pushs = false)
    (hu : ∀ r, ¬ w'.Unheard cs cap st (coreOf T) r) (hpa : ∀ r, ¬ w'.Paused cs st (coreOf T) r) (hno : ¬ w'.Lively cs cap room prog st T) :
    (∀ ch h, (R.map (·.2))[ch]? = some h → (Kind.data, ch) ∉ closings (proj h.reader (coreOf T)) → (st .data ch).q = []) ∧
    (∀ x, Mentioned (R.map (·.2)) (.buffer, x) → (Kind.data, (R.map (·.2)).length + w'.idOf (.buffer, x)) ∉ closings (proj (.part (.buffer, x) .output) (coreOf T)) →
      (st .data ((R.map (·.2)).length + w'.idOf (.buffer, x))).q = []) ∧
    (∀ x, w'.comps.get (.launch, x) ≠ none → ¬ Exited (historyOf x T) → prog x (historyOf x T) = .read ∧ inPipe x T = []) ∧
    ∀ x p t, w'.sys cs (.part (.launch, x) (Port.piece p)) = some t → ¬ t.Done (proj (.part (.launch, x) p.piece) (coreOf T)) → outPipe x p T = [] := by
  have A := assembled hc hw hp
  have hm := A.motionless hC hT hroom hst hno
  obtain ⟨h1, h2, _⟩ := C82_unjammed hc hw hp hC hb hcap hun hT.core hst hj hu hpa hm
  have hungry : ∀ {i n}, w'.node i = some n → ¬ n.task.Done (proj i (coreOf T)) → w'.Hungry st (coreOf T) i := fun hn hnd =>
    A.unjammed hC (attended hc hw hp) hb hT.core hst hcap hun hj hu hpa hm hn hnd
  refine ⟨h1, h2, fun x hk hx => ?_, fun x p t ht hd => ?_⟩
  · rcases program_stuck hno hk hx with ⟨h3, _, h4, _⟩ | ⟨q, _, _, h3, h4⟩
    · exact ⟨h3, h4⟩
    · obtain ⟨k, hk, hkd⟩ := relayOver_node A.toRigged hC q.relays h3
      rw [A.port_hungry hC hT hst hno hk (hungry hk hkd)] at h4
      simp at h4; omega
  · obtain ⟨k, hk, rfl⟩ := A.launchNode hC p.relays ht
    exact A.port_hungry hC hT hst hno hk (hungry hk hd)

/-- **C88** And then whatever has not ended is on a loop or behind one: activities, and programs. -/
theorem C88_loops (hc : c.connection = hopSets R) (hw : getWaiter c = .ok w) (hp : w.regulatorSettings order = .ok (cs, w')) (hC : Complete (R.map (·.2)))
    (hb : LoopsBuffered (R.map (·.2))) (hcap : ∀ k ch, cap k ch ≠ some 0) (hun : ∀ ch, (R.map (·.2)).length ≤ ch → cap .data ch = none) (hroom : 0 < room)
    (hT : w'.WorldRun cs cap room prog T) (hst : execAll cap Store.init ((coreOf T).map Prod.snd) = some st)
    (hj : ∀ i inputs pushs spy, w'.node i = some (.junction inputs pushs spy) → ∀ f ∈ acts (proj i (coreOf T)), f.ruins pushs = false)
    (hu : ∀ r, ¬ w'.Unheard cs cap st (coreOf T) r) (hpa : ∀ r, ¬ w'.Paused cs st (coreOf T) r) (hno : ¬ w'.Lively cs cap room prog st T) :
    (∀ i n, w'.node i = some n → ¬ n.task.Done (proj i (coreOf T)) →
      ∃ j, Relation.TransGen (LeadsOn (R.map (·.2)) fun _ => True) j j ∧ (j = i ∨ Relation.TransGen (LeadsOn (R.map (·.2)) fun _ => True) j i)) ∧
    ∀ x, w'.comps.get (.launch, x) ≠ none → ¬ Exited (historyOf x T) →
      ∃ j, Relation.TransGen (LeadsOn (R.map (·.2)) fun _ => True) j j ∧
        (j = .part (.launch, x) .input ∨ Relation.TransGen (LeadsOn (R.map (·.2)) fun _ => True) j (.part (.launch, x) .input)) := by
  have A := assembled hc hw hp
  have nodes : ∀ i n, w'.node i = some n → ¬ n.task.Done (proj i (coreOf T)) →
      ∃ j, Relation.TransGen (LeadsOn (R.map (·.2)) fun _ => True) j j ∧ (j = i ∨ Relation.TransGen (LeadsOn (R.map (·.2)) fun _ => True) j i) := by
    intro i n hn hd
    refine circle_before (S := fun i => ∃ n, w'.node i = some n ∧ ¬ n.task.Done (proj i (coreOf T))) (w'.everyone cs) ?_ ?_ ⟨n, hn, hd⟩
    · rintro a ⟨m, hm, _⟩
      exact sys_everyone (by rw [sys_node hm]; simp)
    · rintro b ⟨m, hm, hmd⟩
      obtain ⟨a, k, h1, h2, h3⟩ := A.starved hC (attended hc hw hp) hb hT hroom hst hcap hun hj hu hpa hno hm hmd
      exact ⟨a, ⟨k, h1, h3⟩, h2⟩
  refine ⟨nodes, fun x hk hx => ?_⟩
  rcases program_stuck hno hk hx with ⟨_, _, _, h3⟩ | ⟨q, _, _, h3, h4⟩
  · obtain ⟨k, hk, hkd⟩ := relayOver_node A.toRigged hC (by simp [relayPieces]) h3
    exact nodes _ k hk hkd
  · obtain ⟨k, hk, hkd⟩ := relayOver_node A.toRigged hC q.relays h3
    rw [A.port_hungry hC hT hst hno hk (A.unjammed hC (attended hc hw hp) hb hT.core hst hcap hun hj hu hpa (A.motionless hC hT hroom hst hno) hk hkd)] at h4
    simp at h4; omega

/-- **C88** In particular, with the channels of the code, no regulators managed and nothing but programs failing: in the end all channels are empty, programs on loops only wait for input, which does not come, and
everything else has ended. -/
theorem C88_plain (hc : c.connection = hopSets R) (hw : getWaiter c = .ok w) (hp : w.regulatorSettings order = .ok ([], w')) (hC : Complete (R.map (·.2)))
    (hb : LoopsBuffered (R.map (·.2))) (hroom : 0 < room) (hT : w'.WorldRun [] (realCaps (R.map (·.2))) room prog T)
    (hst : execAll (realCaps (R.map (·.2))) Store.init ((coreOf T).map Prod.snd) = some st) (hf : ∀ i, ∀ f ∈ acts (proj i (coreOf T)), f.trouble = false)
    (hno : ¬ w'.Lively [] (realCaps (R.map (·.2))) room prog st T) :
    (∀ ch h, (R.map (·.2))[ch]? = some h → (st .data ch).q = []) ∧
    ∀ x, w'.comps.get (.launch, x) ≠ none → ¬ Exited (historyOf x T) → prog x (historyOf x T) = .read ∧ inPipe x T = [] ∧
      ∃ j, Relation.TransGen (LeadsOn (R.map (·.2)) fun _ => True) j j ∧
        (j = .part (.launch, x) .input ∨ Relation.TransGen (LeadsOn (R.map (·.2)) fun _ => True) j (.part (.launch, x) .input)) := by
  have A := assembled hc hw hp
  obtain ⟨E, U⟩ := A.run hC hT.core
  have nf := C55_no_failures (A.wired hC) E U (A.inside hC hT.core hf)
  have hj : ∀ i inputs pushs spy, w'.node i = some (.junction inputs pushs spy) → ∀ f ∈ acts (proj i (coreOf T)), f.ruins pushs = false := fun i inputs pushs spy hn f hm => not_ruins (nf i _ f hn hm)
  have hu : ∀ r, ¬ w'.Unheard [] (realCaps (R.map (·.2))) st (coreOf T) r := by rintro r ⟨⟨t, h1, _⟩, _⟩; cases h1
  have hpa : ∀ r, ¬ w'.Paused [] st (coreOf T) r := by
    rw [regulatorSettings_none hp] at A ⊢
    exact A.toRigged.unpaused hC (unmanaged hc hw)
  have h1 : ∀ ch h, (R.map (·.2))[ch]? = some h → (st .data ch).q = [] := fun _ _ => C82_plain hc hw hp hC hb hT.core hst hf (A.motionless hC hT hroom hst hno)
  obtain ⟨_, _, h3, _⟩ := C88_rest hc hw hp hC hb (realCaps_room _) (realCaps_buffers _) hroom hT hst hj hu hpa hno
  refine ⟨h1, fun x hk hx => ⟨(h3 x hk hx).1, (h3 x hk hx).2, (C88_loops hc hw hp hC hb (realCaps_room _) (realCaps_buffers _) hroom hT hst hj hu hpa hno).2 x hk hx⟩⟩

end
end Verif
