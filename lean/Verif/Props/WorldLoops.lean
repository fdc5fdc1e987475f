import Verif.Lemmas.LoopsWritten
import Verif.Props.WorldDozeExample
/-!
# C88: programs on loops, by the configuration as it is written
-/
namespace Verif

section
variable {c c' : Config} {hs : List Hop} {perm : List OutRef → List OutRef} {perm' : List InRef → List InRef} {spyOrder : List Str → List Str} {printed : List Str}
  {w w' : Waiter} {order : List (Str × Watch)} {cs : List Capture} {cap : Caps} {room : Nat} {prog : Str → Program} {T : List Happening} {st : Store}

/-- **C88** In terms of the configuration as it is written: when nothing is going on any more, each of its programs that has not exited waits for input, has got everything that was written to it, and is on a
loop of the configuration or behind one. -/
theorem C88_written (hS : c.Sound hs) (hp : ∀ l, (perm l).Perm l) (hp' : ∀ l, (perm' l).Perm l) (ho : ∀ l, (spyOrder l).Perm l)
    (hm : manipulate perm perm' spyOrder c = some (c', printed)) (hw : getWaiter c' = .ok w) (hq : w.regulatorSettings order = .ok (cs, w')) (hb : LoopsBuffered hs)
    (hcap : ∀ k ch, cap k ch ≠ some 0) (hun : ∀ ch, c'.connection.length ≤ ch → cap .data ch = none) (hroom : 0 < room)
    (hT : w'.WorldRun cs cap room prog T) (hst : execAll cap Store.init ((coreOf T).map Prod.snd) = some st)
    (hj : ∀ i inputs pushs spy, w'.node i = some (.junction inputs pushs spy) → ∀ f ∈ acts (proj i (coreOf T)), f.ruins pushs = false)
    (hu : ∀ r, ¬ w'.Unheard cs cap st (coreOf T) r) (hpa : ∀ r, ¬ w'.Paused cs st (coreOf T) r) (hno : ¬ w'.Lively cs cap room prog st T)
    {x : Str} (hL : c.Launches x) (hx : ¬ Exited (historyOf x T)) :
    prog x (historyOf x T) = .read ∧ inPipe x T = [] ∧
      ∃ j, Relation.TransGen (LeadsOn hs fun _ => True) j j ∧ (j = .part (.launch, x) .input ∨ Relation.TransGen (LeadsOn hs fun _ => True) j (.part (.launch, x) .input)) := by
  have hk := (running hS hp hp' ho hm hw hq x).mpr hL
  obtain ⟨M, R, R', S', E, T', drain', printed', h1, P, h3⟩ := hS.laid hp hp' ho
  rw [hm] at h1
  cases h1
  have hC := P.complete hS.hops hS.complete
  have hb' := P.loopsBuffered hS.hops hb
  rw [connection_length (R := R') rfl] at hun
  obtain ⟨k1, k2⟩ := (C88_rest rfl hw hq hC hb' hcap hun hroom hT hst hj hu hpa hno).2.2.1 x hk hx
  obtain ⟨j, k3, k4⟩ := (C88_loops rfl hw hq hC hb' hcap hun hroom hT hst hj hu hpa hno).2 x hk hx
  refine ⟨k1, k2, P.loop hS.hops hS.legal.notDrain k3 k4 ?_ (by simp)⟩
  rintro (⟨y, _, e⟩ | ⟨y, _, e⟩) <;> simp [atJunction] at e

end

namespace Example

/-- The program of the example is on the loop of its configuration. -/
example : noriaProgs "wheel".toList (historyOf "wheel".toList noriaAll) = .read ∧ inPipe "wheel".toList noriaAll = [] ∧
    ∃ j, Relation.TransGen (LeadsOn noriaHops fun _ => True) j j ∧
      (j = .part (.launch, "wheel".toList) .input ∨ Relation.TransGen (LeadsOn noriaHops fun _ => True) j (.part (.launch, "wheel".toList) .input)) := by
  obtain ⟨printed, h1, h2⟩ := noria_made
  refine C88_written noria_sound (fun _ => .refl _) (fun _ => .refl _) (fun _ => .refl _) h1 h2 (order := []) rfl noria_buffered noria_caps noria_inner (by decide) noria_runs noria_store ?_
    noria_rest.heard noria_rest.open' noria_asleep ⟨_, _, _, noria_fork, Or.inr rfl⟩ (by decide +kernel)
  have all : ∀ i ∈ noriaWaiter.everyone [], ∀ f ∈ acts (proj i (coreOf noriaAll)), f.fails = false := by decide +kernel
  exact fun i inputs pushs spy hn f hf => not_ruins (all i (sys_everyone (by rw [sys_node hn]; simp)) f hf)

end Example
end Verif
