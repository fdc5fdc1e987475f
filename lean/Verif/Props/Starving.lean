import Verif.Lemmas.Periodic
import Verif.Props.PriorityExample
/-!
# C105: with different numbers something can be held up for ever
-/
namespace Verif
namespace Example

def estuaryCalm : Who := .part (.faucet, "calm".toList) .main
def estuaryRush : Who := .part (.faucet, "rush".toList) .main
def estuaryLake : Who := .part (.drain, "lake".toList) .main

/-- `calm` reads nine lines, and cannot get rid of the last. -/
def dammed : List (Who × Ev) := over [(estuaryCalm, ⟨.streamRead 0, .line [2, 10]⟩), (estuaryCalm, ⟨.send .data 0 [2, 10], true⟩)] 8 ++ [(estuaryCalm, ⟨.streamRead 0, .line [2, 10]⟩)]

/-- A line of `rush` is read, merged and written. -/
def torrent : List (Who × Ev) :=
  [(estuaryRush, ⟨.streamRead 6, .line [1, 10]⟩), (estuaryRush, ⟨.send .data 1 [1, 10], true⟩), (estuaryJoin, ⟨.tryRecv .data 1, .got [1, 10]⟩), (estuaryJoin, ⟨.send .data 2 [1, 10], true⟩),
   (estuaryLake, ⟨.recv .data 2, some [1, 10]⟩), (estuaryLake, ⟨.ioWrite 9 [1, 10], .ok⟩)]

def calmNode : Node := .regulator (.stream ⟨0, 1⟩ 0) (.sender ⟨0, some .out, 1, .terminate⟩ 0) none none
def rushNode : Node := .regulator (.stream ⟨2, 1⟩ 6) (.sender ⟨2, some .out, 1, .terminate⟩ 1) none none
def joinNode : Node := .junction [(.receiver ⟨0, 1⟩ 0, 5), (.receiver ⟨2, 1⟩ 1, 1)] [.sender ⟨1, some .out, 3, .terminate⟩ 2] none
def lakeNode : Node := .relay (.receiver ⟨1, 3⟩ 2) {} none (.io ⟨1, none, 3, .terminate⟩ 9)

theorem calm_node : estuaryWaiter.node estuaryCalm = some calmNode := by rfl
theorem rush_node : estuaryWaiter.node estuaryRush = some rushNode := by rfl
theorem join_node : estuaryWaiter.node estuaryJoin = some joinNode := by rfl
theorem lake_node : estuaryWaiter.node estuaryLake = some lakeNode := by rfl

theorem rush_round (n : Nat) : (rushNode.task.body n).Runs (proj estuaryRush torrent) (.inl (n + 1)) := ⟨_, _, rfl, _, _, rfl, rfl, rfl⟩
theorem lake_round (n : Nat) : (lakeNode.task.body n).Runs (proj estuaryLake torrent) (.inl (n + 1)) := ⟨_, _, rfl, _, _, rfl, rfl, rfl⟩

def joinState (n : Nat) : JState := ⟨[[.receiver ⟨2, 1⟩ 1], [.receiver ⟨0, 1⟩ 0]], BackOff.new, n⟩
theorem join_round (n : Nat) : (junctionBody [.sender ⟨1, some .out, 3, .terminate⟩ 2] none (joinState n)).Runs (proj estuaryJoin torrent) (.inl (joinState (n + 1))) := ⟨_, _, rfl, _, _, rfl, rfl, rfl⟩
theorem join_init : joinNode.task.init = joinState 0 := by rfl

theorem estuary_all {i : Who} (h : estuaryWaiter.sys [] i ≠ none) : i = estuaryCalm ∨ i = estuaryRush ∨ i = estuaryJoin ∨ i = estuaryLake := by
  have : ∀ i ∈ estuaryWaiter.everyone [], (estuaryWaiter.sys [] i).isSome = true → i = estuaryCalm ∨ i = estuaryRush ∨ i = estuaryJoin ∨ i = estuaryLake := by decide +kernel
  exact this i (sys_everyone h) (Option.isSome_iff_ne_none.mpr h)

/-- The channels each time. -/
theorem torrent_store (n : Nat) : ∃ st, execAll estuaryCaps Store.init ((dammed ++ over torrent n).map Prod.snd) = some st ∧ (st .data 0).q.length = 8 ∧ (st .data 0).closed = false ∧
    st .data 1 = ⟨[], false⟩ ∧ st .data 2 = ⟨[], false⟩ := by
  induction n with
  | zero => exact ⟨_, rfl, rfl, rfl, rfl, rfl⟩
  | succ n ih =>
    obtain ⟨st, h1, h2, h3, h4, h5⟩ := ih
    rw [over_succ, ← List.append_assoc, List.map_append, execAll_append, h1]
    simp only [Option.bind_some]
    simp [torrent, execAll, Verif.exec, h2, h3, h4, h5, estuaryCaps, hasRoom, Store.set]

theorem dammed_run : estuaryWaiter.Run [] estuaryCaps dammed := Waiter.runs_sound (by decide +kernel)

theorem torrent_runs (n : Nat) : estuaryWaiter.Run [] estuaryCaps (dammed ++ over torrent n) := by
  obtain ⟨st, hst, _⟩ := torrent_store n
  refine ⟨⟨by rw [hst]; rfl, fun i t ht => ?_⟩, fun x hx => ?_, fun τ₁ τ₂ r e he => ?_⟩
  · rw [proj_append, proj_over]
    rcases estuary_all (i := i) (by rw [ht]; simp) with rfl | rfl | rfl | rfl
    · have h1 := dammed_run.exec.tasks _ _ ht
      rw [show proj estuaryCalm torrent = [] by rfl, show over ([] : List Ev) n = [] by simp [over], List.append_nil]
      exact h1
    · rw [sys_node rush_node] at ht
      cases ht
      exact Or.inl ⟨n, _, [], rounds_over (S := fun n => n) rush_round n, Prog.partial_nil _, by rw [show proj estuaryRush dammed = [] by rfl]; simp⟩
    · rw [sys_node join_node] at ht
      cases ht
      exact Or.inl ⟨joinState n, _, [], rounds_over (S := joinState) join_round n, Prog.partial_nil _, by rw [show proj estuaryJoin dammed = [] by rfl]; simp⟩
    · rw [sys_node lake_node] at ht
      cases ht
      exact Or.inl ⟨n, _, [], rounds_over (S := fun n => n) lake_round n, Prog.partial_nil _, by rw [show proj estuaryLake dammed = [] by rfl]; simp⟩
  · rcases List.mem_append.mp hx with hx | hx
    · exact dammed_run.known x hx
    · have : ∀ x ∈ torrent, estuaryWaiter.sys [] x.1 ≠ none := by
        intro x hx
        simp only [torrent, List.mem_cons, List.not_mem_nil, or_false] at hx
        rcases hx with rfl | rfl | rfl | rfl | rfl | rfl
        · rw [sys_node rush_node]; simp
        · rw [sys_node rush_node]; simp
        · rw [sys_node join_node]; simp
        · rw [sys_node join_node]; simp
        · rw [sys_node lake_node]; simp
        · rw [sys_node lake_node]; simp
      exact this x (mem_over hx)
  · exfalso
    have h1 : (Who.part r .exit, e) ∈ dammed ++ over torrent n := by rw [he]; simp
    have h2 : ∀ x ∈ dammed ++ torrent, x.1 = estuaryCalm ∨ x.1 = estuaryRush ∨ x.1 = estuaryJoin ∨ x.1 = estuaryLake := by decide +kernel
    rcases h2 _ (by rcases List.mem_append.mp h1 with h | h; exact List.mem_append_left _ h; exact List.mem_append_right _ (mem_over h)) with h | h | h | h <;> cases h

theorem calm_stuck : calmNode.task.Awaits (proj estuaryCalm dammed) (.send .data 0 [2, 10]) := by
  have calm_round : ∀ n : Nat, (calmNode.task.body n).Runs [⟨.streamRead 0, .line [2, 10]⟩, ⟨.send .data 0 [2, 10], true⟩] (.inl (n + 1)) := fun n => ⟨_, _, rfl, _, _, rfl, rfl, rfl⟩
  refine ⟨(8 : Nat), over [⟨.streamRead 0, .line [2, 10]⟩, ⟨.send .data 0 [2, 10], true⟩] 8, [⟨.streamRead 0, .line [2, 10]⟩], rounds_over (S := fun n => n) calm_round 8, ⟨_, rfl, rfl⟩, rfl⟩

/-- Nobody but `calm`, which is held up, is left out. -/
theorem torrent_fair (i : Who) : (∃ e, (i, e) ∈ torrent) ∨ ∀ n, ¬ estuaryWaiter.CanStep [] estuaryCaps (dammed ++ over torrent n) i := by
  by_cases hs : estuaryWaiter.sys [] i = none
  · right
    rintro n ⟨e, he⟩
    exact he.known (i, e) (by simp) hs
  rcases estuary_all hs with rfl | rfl | rfl | rfl
  · right
    rintro n ⟨e, he⟩
    obtain ⟨st, hst, h8, hcl, _⟩ := torrent_store n
    have h1 := he.exec.tasks _ _ (sys_node calm_node)
    rw [proj_append, proj_append, proj_over, show proj estuaryCalm torrent = [] by rfl, show over ([] : List Ev) n = [] by simp [over], List.append_nil,
      show proj estuaryCalm [(estuaryCalm, e)] = [e] by simp [proj]] at h1
    have h2 := calm_stuck.next h1
    have h3 := he.exec.chans
    rw [List.map_append, execAll_append, hst] at h3
    obtain ⟨q, r⟩ := e
    simp only at h2
    subst h2
    simp only [List.map_cons, List.map_nil, Option.bind_some, execAll] at h3
    split at h3
    · cases h3
    · next h4 =>
      cases r <;> simp [Verif.exec, hcl, estuaryCaps, hasRoom, h8] at h4
  · left; exact ⟨_, List.mem_cons_self⟩
  · left; exact ⟨⟨.tryRecv .data 1, .got [1, 10]⟩, by simp [torrent]⟩
  · left; exact ⟨⟨.ioWrite 9 [1, 10], .ok⟩, by simp [torrent]⟩

theorem estuary_free : CircleFree (estuary.map (·.2)) := circleFree_of evenRank (by decide +kernel) (by decide +kernel) (fun _ => Nat.lt_succ_self 1)

end Example

open Example in
/-- **C105** It is false where connections to a junction have different numbers: here is a fair schedule without end, in which nothing fails or ends, and yet a line that was read never arrives, and a stream is not
read any more. -/
theorem C105_uneven_refuted : ∃ (c : Config) (R : Map Hop) (w : Waiter) (cap : Caps) (σ : Nat → Option (Who × Ev)),
    c.connection = hopSets R ∧ getWaiter c = .ok w ∧ w.regulatorSettings [] = .ok ([], w) ∧ Complete (R.map (·.2)) ∧ CircleFree (R.map (·.2)) ∧ (∀ k ch, cap k ch ≠ some 0) ∧ w.Fair [] cap σ ∧
    (∀ n i, ∀ f ∈ acts (proj i (upTo σ n)), f.trouble = false) ∧ (∀ n i h, Act.ended (.handle h) ∉ acts (proj i (upTo σ n))) ∧
    (∃ a z d n, Relation.TransGen (Feeds (R.map (·.2))) a z ∧ d ∈ received (proj a (upTo σ n)) ∧ ∀ m, d ∉ received (proj z (upTo σ m))) ∧
    ∃ i v h k, w.node i = some v ∧ .handle h ∈ v.sources ∧ ∀ m, (receivedFrom (.handle h) (proj i (upTo σ m))).length ≤ k := by
  obtain ⟨σ, hσ, h1, h2⟩ := fair_periodic (τ := dammed) (l := torrent) (by simp [torrent]) torrent_runs torrent_fair
  have only : ∀ {m x}, x ∈ upTo σ m → x ∈ dammed ++ torrent := by
    intro m x hx
    obtain ⟨n, hn⟩ := h1 m
    rcases List.mem_append.mp (hn.subset hx) with h | h
    · exact List.mem_append_left _ h
    · exact List.mem_append_right _ (mem_over h)
  have calm : ∀ x ∈ dammed ++ torrent, (act x.2).trouble = false ∧ ∀ h, act x.2 ≠ .ended (.handle h) := lasting_sound (by decide +kernel)
  have event : ∀ {n i f}, f ∈ acts (proj i (upTo σ n)) → ∃ x ∈ dammed ++ torrent, x.1 = i ∧ f = act x.2 := by
    intro n i f hf
    obtain ⟨e, he, rfl⟩ := List.mem_map.mp hf
    exact ⟨_, only (mem_proj.mp he), rfl, rfl⟩
  refine ⟨estuaryConfig, estuary, estuaryWaiter, estuaryCaps, σ, rfl, estuary_built, rfl, estuary_complete, estuary_free, fun _ _ => by simp [estuaryCaps], hσ, ?_, ?_, ?_, ?_⟩
  · intro n i f hf
    obtain ⟨x, hx, _, rfl⟩ := event hf
    exact (calm x hx).1
  · intro n i h hf
    obtain ⟨x, hx, _, e⟩ := event hf
    exact (calm x hx).2 h e.symm
  · refine ⟨estuaryCalm, estuaryLake, [2, 10], dammed.length + 0 * torrent.length, ?_, ?_, fun m hm => ?_⟩
    · exact .tail (.single (b := estuaryJoin) (.hop (h := (estuary.map (·.2))[0]) (List.getElem_mem _) (by decide +kernel))) (.hop (h := (estuary.map (·.2))[2]) (List.getElem_mem _) (by decide +kernel))
    · rw [h2]
      decide +kernel
    · obtain ⟨f, hf, e⟩ := List.mem_filterMap.mp hm
      obtain ⟨x, hx, h3, rfl⟩ := event hf
      have : ∀ x ∈ dammed ++ torrent, x.1 = estuaryLake → ∀ s, act x.2 ≠ .got s [2, 10] := by
        intro x hx hl s
        rcases List.mem_append.mp hx with h | h
        · have : ∀ x ∈ dammed, x.1 = estuaryCalm := by decide +kernel
          rw [this x h] at hl
          cases hl
        · simp only [torrent, List.mem_cons, List.not_mem_nil, or_false] at h
          rcases h with rfl | rfl | rfl | rfl | rfl | rfl <;> simp [act]
      split at e
      · next h4 =>
        cases e
        exact this x hx h3 _ h4
      · cases e
  · refine ⟨estuaryCalm, calmNode, 0, 9, calm_node, by simp [calmNode, Node.sources, Pull.source], fun m => ?_⟩
    obtain ⟨n, t, ht⟩ := h1 m
    have h3 : proj estuaryCalm (dammed ++ over torrent n) = proj estuaryCalm dammed := by
      rw [proj_append, proj_over, show proj estuaryCalm torrent = [] by rfl]; simp [over]
    rw [← ht, proj_append] at h3
    have h4 := congrArg (fun l => (receivedFrom (.handle 0) l).length) h3
    simp only [receivedFrom_append, List.length_append] at h4
    rw [show (receivedFrom (.handle 0) (proj estuaryCalm dammed)).length = 9 by decide +kernel] at h4
    omega

namespace Example

theorem rush_favoured : Favoured (estuary.map (·.2)) estuaryRush := by
  intro h hh _ hj hp f hf e
  have least : h.writer = estuaryRush → h.input.priority ≤ f.input.priority := by
    have : ∀ h ∈ estuary.map (·.2), h.writer = estuaryRush → ∀ f ∈ estuary.map (·.2), f.to = h.to → h.input.priority ≤ f.input.priority := by decide +kernel
    exact fun h1 => this h hh h1 f hf e
  rcases hp with h1 | h1
  · exact least h1.symm
  · exfalso
    have key : ∀ {x}, Relation.TransGen (Feeds (estuary.map (·.2))) estuaryRush x → x = estuaryJoin ∨ x = estuaryLake := by
      intro x hx
      have one : ∀ {a b}, Feeds (estuary.map (·.2)) a b → b = estuaryJoin ∨ b = estuaryLake := by
        intro a b hab
        cases hab with
        | hop h2 _ => exact (by decide +kernel : ∀ h ∈ estuary.map (·.2), h.reader = estuaryJoin ∨ h.reader = estuaryLake) _ h2
        | buffer h2 =>
          exfalso
          obtain ⟨g, h3, h4⟩ := h2
          have : ∀ h ∈ estuary.map (·.2), h.from.1 ≠ .buffer ∧ h.to.1 ≠ .buffer := by decide +kernel
          rcases h4 with h4 | h4
          · exact (this g h3).1 (by rw [h4])
          · exact (this g h3).2 (by rw [h4])
      cases hx with
      | single h => exact one h
      | tail _ h => exact one h
    have : ∀ h ∈ estuary.map (·.2), h.to.1 = .junction → h.writer ≠ estuaryJoin ∧ h.writer ≠ estuaryLake := by decide +kernel
    rcases key h1 with h2 | h2
    · exact (this h hh hj).1 h2
    · exact (this h hh hj).2 h2

/-- The numbers are different. What the connection of the least number brings arrives nevertheless in any fair schedule in which nothing fails, such as that of `C105_uneven_refuted`, in which the other starves. -/
example : ¬ SameNumbers (estuary.map (·.2)) ∧ ∃ σ, estuaryWaiter.Fair [] estuaryCaps σ ∧ upTo σ dammed.length = dammed ∧
    (∀ k, ∃ m, k ≤ (received (proj estuaryRush (upTo σ m))).length) ∧
    ∀ n, ∃ m, n ≤ m ∧ (received (proj estuaryRush (upTo σ n))).Sublist (received (proj estuaryLake (upTo σ m))) := by
  refine ⟨fun h => absurd (h (estuary.map (·.2))[0] (List.getElem_mem _) (estuary.map (·.2))[1] (List.getElem_mem _) (by decide +kernel) (by decide +kernel)) (by decide +kernel), ?_⟩
  obtain ⟨σ, hσ, h1, h2⟩ := fair_periodic (τ := dammed) (l := torrent) (by simp [torrent]) torrent_runs torrent_fair
  have calm : ∀ x ∈ dammed ++ torrent, (act x.2).trouble = false ∧ ∀ h, act x.2 ≠ .ended (.handle h) := lasting_sound (by decide +kernel)
  have only : ∀ {m x}, x ∈ upTo σ m → x ∈ dammed ++ torrent := by
    intro m x hx
    obtain ⟨n, hn⟩ := h1 m
    rcases List.mem_append.mp (hn.subset hx) with h | h
    · exact List.mem_append_left _ h
    · exact List.mem_append_right _ (mem_over h)
  have hf : ∀ n i, ∀ f ∈ acts (proj i (upTo σ n)), f.trouble = false := by
    intro n i f hf
    obtain ⟨e, he, rfl⟩ := List.mem_map.mp hf
    exact (calm _ (only (mem_proj.mp he))).1
  refine ⟨σ, hσ, by simpa [over] using h2 0, fun k => ?_, fun n => ?_⟩
  · rcases C105_favoured_reads (c := estuaryConfig) (R := estuary) (order := []) rfl estuary_built rfl estuary_complete estuary_free (fun _ _ => by simp [estuaryCaps]) hσ hf rush_node
      (show .handle 6 ∈ rushNode.sources by simp [rushNode, Node.sources, Pull.source]) rush_favoured with ⟨m, h3⟩ | h3
    · obtain ⟨e, he, h4⟩ := List.mem_map.mp h3
      exact absurd h4 ((calm _ (only (mem_proj.mp he))).2 _)
    · obtain ⟨m, hm⟩ := h3 k
      exact ⟨m, Nat.le_trans hm (receivedFrom_sublist _ _).length_le⟩
  · refine C105_favoured_reaches (c := estuaryConfig) (R := estuary) (order := []) rfl estuary_built rfl estuary_complete estuary_free (fun _ _ => by simp [estuaryCaps]) hσ hf rush_favoured
      (.tail (.single (b := estuaryJoin) (.hop (h := (estuary.map (·.2))[1]) (List.getElem_mem _) (by decide +kernel))) (.hop (h := (estuary.map (·.2))[2]) (List.getElem_mem _) (by decide +kernel))) n

end Example
end Verif
