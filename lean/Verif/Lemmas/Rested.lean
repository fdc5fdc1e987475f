import Verif.Lemmas.ManagerRest
/-!
# During a lull everybody is stuck or at rest
-/
namespace Verif
section
variable {c : Config} {hs : List Hop} {w : Waiter} {cs : List Capture} {cap : Caps} {σ : Nat → Option (Who × Ev)} {n : Nat} {st : Store}

/-- What was found closed and empty stays so. -/
theorem found_over {τ : List (Who × Ev)} (hst : execAll cap Store.init (τ.map Prod.snd) = some st) {i : Who} {k : Kind} {ch : Nat}
    (h : (i, (⟨.tryRecv k ch, .closed⟩ : Ev)) ∈ τ) : (st k ch).q = [] ∧ (st k ch).closed = true := by
  obtain ⟨a, b, rfl⟩ := List.append_of_mem h
  rw [List.map_append, execAll_append] at hst
  cases h1 : execAll cap Store.init (a.map Prod.snd) with
  | none => rw [h1] at hst; cases hst
  | some s1 =>
    rw [h1] at hst
    simp only [Option.bind_some, List.map_cons, execAll] at hst
    split at hst
    · cases hst
    · next s2 h2 =>
      obtain ⟨h3, h4, rfl⟩ := exec_try_closed h2
      exact ⟨over_empty hst h3 h4, (closed_iff hst _ _).mpr (Or.inl h4)⟩

theorem ended_over {τ : List (Who × Ev)} (hst : execAll cap Store.init (τ.map Prod.snd) = some st) {i : Who} {ch : Nat} (h : ended ch (proj i τ) = true) :
    (st .size ch).q = [] ∧ (st .size ch).closed = true := by
  unfold ended at h
  rw [List.any_eq_true] at h
  obtain ⟨e, he, hc⟩ := h
  obtain ⟨q, r⟩ := e
  cases q with
  | tryRecv k' c' =>
    cases k' <;> cases r <;> simp [tellsEnd] at hc
    subst hc
    exact found_over hst (mem_proj.mp he)
  | _ => simp [tellsEnd] at hc

/-- Who goes on for ever without getting anything forward is at rest. -/
theorem Rigged.resting (A : Rigged c hs w) (hC : Complete hs) (T : Attended cs w) {τ : List (Who × Ev)} (hst : execAll cap Store.init (τ.map Prod.snd) = some st)
    (hj : ∀ i inputs pushs spy, w.node i = some (.junction inputs pushs spy) → ∀ f ∈ acts (proj i τ), f.ruins pushs = false) {i : Who} {t : Task} (ht : w.sys cs i = some t)
    {g : Nat → Ev} (h1 : ∀ k, t.Partial (proj i τ ++ first g k)) (h2 : ∀ j, w.moves i (g j) = false ∧ Verif.exec cap st (g j) = some st) : w.Resting cs st τ i := by
  have W := A.wired hC
  have mover : (∀ e, w.moves i e = true) → False := by
    intro h
    have := (h2 0).1
    rw [h] at this; cases this
  cases hn : w.node i with
  | some nd =>
    have ht' := sys_node (cs := cs) hn
    rw [ht] at ht'; cases ht'
    have hok : nd.Ok := W.ok i nd hn
    cases nd with
    | junction inputs pushs spy =>
      have J := junction_rest hok h1 (fun j => by simpa [Waiter.moves, hn] using (h2 j).1)
      refine Or.inl (Or.inl ⟨inputs, pushs, spy, hn, J.1, fun ch h3 h4 => ?_⟩)
      obtain ⟨j, hgj⟩ := J.2 ch h3 h4
      have := (h2 j).2
      rw [hgj] at this
      exact ⟨(exec_try_empty this).1, (exec_try_empty this).2.1⟩
    | _ => exact (mover (by intro e; simp [Waiter.moves, hn])).elim
  | none =>
    rcases A.others hC ht hn with ⟨r, e, ch, g', rfl, hrl, rfl, rfl, hg, hx, hfr⟩ | ⟨r, m, rfl, hrb, hm, rfl, a, b, hk⟩ | ⟨r, a, rfl, ha, rfl, rfl⟩ | ⟨r, x, rfl, hd, _, ⟨m, hm⟩, _⟩
    rotate_right
    · exact (mover (by intro e; simp [Waiter.moves, hn])).elim
    · exact (mover (by intro e; simp [Waiter.moves, hn])).elim
    · have J := count_rest h1 (cap := cap) (st := st) (fun j => by simpa [Waiter.moves, hn] using (h2 j).1) (fun j => (h2 j).2)
      exact Or.inl (Or.inr ⟨r, rfl, J⟩)
    · have J := manager_rest (A.chans_nodup T ha) h1 (cap := cap) (st := st) (fun j => by simpa [Waiter.moves, hn] using (h2 j).1) (fun j => (h2 j).2)
      refine Or.inr ⟨a, ha, rfl, fun b hb => ?_, ?_⟩
      · rcases J.1 _ (List.mem_map.mpr ⟨b, hb, rfl⟩) with h | h
        · exact (ended_over hst h).1
        · exact h
      · obtain ⟨ch, hch, ho⟩ := J.2.1
        obtain ⟨b, hb, rfl⟩ := List.mem_map.mp hch
        exact ⟨b, hb, ho⟩

theorem Rigged.rested (A : Rigged c hs w) (hC : Complete hs) (T : Attended cs w) (L : w.Lull cs cap σ n st)
    (hj : ∀ i inputs pushs spy, w.node i = some (.junction inputs pushs spy) → ∀ f ∈ acts (proj i (upTo σ n)), f.ruins pushs = false) {i : Who} {t : Task} (ht : w.sys cs i = some t) :
    ¬ w.CanStep cs cap (upTo σ n) i ∨ w.Resting cs st (upTo σ n) i := by
  rcases L.each i t ht with h | ⟨g, h1, h2⟩
  · exact Or.inl h.2
  · exact Or.inr (A.resting hC T (L.quiet n (Nat.le_refl _)) hj ht h1 h2)

end
end Verif
