import Verif.Lemmas.WorldEnds
import Verif.Lemmas.Drive
/-!
# Any course of events can be continued so that nobody is neglected
-/
namespace Verif
section
variable {w : Waiter} {cs : List Capture} {cap : Caps} {room : Nat} {prog : Str → Program} {T : List Happening}

/-- Who may ever make something happen. -/
def Waiter.agents (w : Waiter) (cs : List Capture) : List Agent :=
  ((w.everyone cs).flatMap fun i => .core i :: match i with
    | .part r _ => [.feed r.2, .draw r.2 .out, .draw r.2 .err]
    | .manager _ => []) ++ w.comps.map fun x => .prog x.1.2

theorem Waiter.Next.agents {a : Happening} (h : w.Next cs cap room prog T a) : a.agent ∈ w.agents cs := by
  unfold Waiter.agents
  cases h with
  | @core i e hr _ =>
    refine List.mem_append_left _ (List.mem_flatMap.mpr ⟨i, sys_everyone (hr.known (i, e) (by simp)), ?_⟩)
    simp [Happening.agent]
  | @feed x d m t h h1 =>
    exact List.mem_append_left _ (List.mem_flatMap.mpr ⟨_, sys_everyone (by rw [h1]; simp), by simp [Happening.agent]⟩)
  | @draw x p d t h h1 =>
    refine List.mem_append_left _ (List.mem_flatMap.mpr ⟨_, sys_everyone (by rw [h1]; simp), ?_⟩)
    cases p <;> simp [Happening.agent]
  | @prog x e h1 =>
    refine List.mem_append_right _ ?_
    obtain ⟨k, hk⟩ := Option.ne_none_iff_exists'.mp h1
    exact List.mem_map.mpr ⟨((.launch, x), k), Table.get_mem hk, rfl⟩

open Classical in
/-- What an agent does now, if it can do anything. -/
noncomputable def Waiter.pick (w : Waiter) (cs : List Capture) (cap : Caps) (room : Nat) (prog : Str → Program) (T : List Happening) (g : Option Agent) : Option Happening :=
  if h : ∃ a, some a.agent = g ∧ w.Next cs cap room prog T a then some h.choose else none

/-- Going on from `T`, everybody in turn. -/
noncomputable def Waiter.carried (w : Waiter) (cs : List Capture) (cap : Caps) (room : Nat) (prog : Str → Program) (T : List Happening) : Nat → List Happening
  | 0 => T
  | k + 1 => w.carried cs cap room prog T k ++ (w.pick cs cap room prog (w.carried cs cap room prog T k) ((w.agents cs)[k % (w.agents cs).length]?)).toList

theorem Waiter.pick_next {g : Option Agent} {a : Happening} (h : w.pick cs cap room prog T g = some a) : some a.agent = g ∧ w.Next cs cap room prog T a := by
  unfold Waiter.pick at h
  split at h
  · next hh => cases h; exact hh.choose_spec
  · cases h

theorem Waiter.carried_runs (hT : w.WorldRun cs cap room prog T) (k : Nat) : w.WorldRun cs cap room prog (w.carried cs cap room prog T k) := by
  induction k with
  | zero => exact hT
  | succ k ih =>
    rw [Waiter.carried]
    cases hp : w.pick cs cap room prog (w.carried cs cap room prog T k) ((w.agents cs)[k % (w.agents cs).length]?) with
    | none => simpa using ih
    | some a => exact .next ih (Waiter.pick_next hp).2

/-- The schedule: `T`, and then everybody in turn. -/
noncomputable def Waiter.schedule (w : Waiter) (cs : List Capture) (cap : Caps) (room : Nat) (prog : Str → Program) (T : List Happening) (n : Nat) : Option Happening :=
  if n < T.length then T[n]? else
    w.pick cs cap room prog (w.carried cs cap room prog T (n - T.length)) ((w.agents cs)[(n - T.length) % (w.agents cs).length]?)

theorem Waiter.schedule_before {n : Nat} (h : n ≤ T.length) : soFar (w.schedule cs cap room prog T) n = T.take n := by
  induction n with
  | zero => simp [soFar]
  | succ n ih =>
    have hn : n < T.length := h
    rw [soFar, ih (by omega)]
    rw [List.take_succ, Waiter.schedule, if_pos hn]

theorem Waiter.schedule_after (k : Nat) : soFar (w.schedule cs cap room prog T) (T.length + k) = w.carried cs cap room prog T k := by
  induction k with
  | zero => rw [Nat.add_zero, Waiter.schedule_before (Nat.le_refl _)]; simp [Waiter.carried]
  | succ k ih =>
    rw [← Nat.add_assoc, soFar, ih]
    rw [Waiter.carried, Waiter.schedule, if_neg (by omega), Nat.add_sub_cancel_left]

/-- Any course of events can be continued so that whoever can make something happen does so sooner or later. -/
theorem Waiter.schedule_fair (hT : w.WorldRun cs cap room prog T) : w.FairWorld cs cap room prog (w.schedule cs cap room prog T) := by
  refine ⟨fun n => ?_, fun g n hg => ?_⟩
  · by_cases hn : n ≤ T.length
    · rw [Waiter.schedule_before hn]
      have : w.WorldRun cs cap room prog (T.take n ++ T.drop n) := by rw [List.take_append_drop]; exact hT
      exact this.prefix
    · obtain ⟨k, rfl⟩ := Nat.exists_eq_add_of_le (Nat.le_of_not_le hn)
      rw [Waiter.schedule_after]
      exact Waiter.carried_runs hT k
  · obtain ⟨a, rfl, ha⟩ := hg n (Nat.le_refl _)
    obtain ⟨j, hj, hj2⟩ := List.getElem_of_mem ha.agents
    -- the next time it is this one's turn
    have hm : (j + n * (w.agents cs).length) % (w.agents cs).length = j := by rw [Nat.add_mul_mod_self_right, Nat.mod_eq_of_lt hj]
    have hle : n ≤ T.length + (j + n * (w.agents cs).length) := by
      have : n * 1 ≤ n * (w.agents cs).length := Nat.mul_le_mul_left n (by omega)
      omega
    have hex := hg _ hle
    have hp : ∃ b, w.pick cs cap room prog (w.carried cs cap room prog T (j + n * (w.agents cs).length)) (some a.agent) = some b := by
      unfold Waiter.pick
      rw [← Waiter.schedule_after, dif_pos (by obtain ⟨b, h1, h2⟩ := hex; exact ⟨b, by rw [h1], h2⟩)]
      exact ⟨_, rfl⟩
    obtain ⟨b, hb⟩ := hp
    refine ⟨T.length + (j + n * (w.agents cs).length), b, hle, ?_, by simpa using (Waiter.pick_next hb).1⟩
    unfold Waiter.schedule
    rw [if_neg (by omega), Nat.add_sub_cancel_left, hm, List.getElem?_eq_getElem hj, hj2]
    exact hb

end
end Verif
