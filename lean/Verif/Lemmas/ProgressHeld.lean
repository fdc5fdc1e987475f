import Verif.Props.Progress
/-!
# Progress of networks some of whose components are held by the surroundings
-/
namespace Verif
section
variable {ι : Type} [DecidableEq ι] {N : Network ι} {cap : Caps} {τ : List (ι × Ev)} {st : Store}

/-- Like `progress_core`, but some components can be kept by the surroundings (`Blk`) from a step that the channels would allow: they wait for a component of lower rank that has not ended, or for one of
higher rank that reads from no channel and can only be waiting for room. -/
theorem progress_held {Can Blk : ι → Prop} (hw : N.Wired) (hx : Execution cap N.sys τ) (hu : N.Undisturbed τ)
    (hst : execAll cap Store.init (τ.map Prod.snd) = some st) {rank : ι → Nat} {R : Nat} (hr : ∀ a c b, N.Edge a c b → rank a < rank b)
    (hR : ∀ i n, N.node i = some n → rank i ≤ R)
    (hcap : ∀ a c b, N.Edge a c b → cap .data c ≠ some 0)
    (hreq : ∀ i n q, N.node i = some n → n.task.Awaits (proj i τ) q → (∀ a c b, N.Edge a c b → q.on ≠ some (.data, c)) → Impossible cap st q →
      ∃ c, q = .recv .data c ∧ ∃ a m, N.node a = some m ∧ rank a < rank i ∧ ¬ m.task.Done (proj a τ))
    (hin : ∀ i n c, N.node i = some n → .chan c ∈ n.sources → (∀ a, ¬ N.Edge a c i) → Act.ended (.chan c) ∉ acts (proj i τ) →
      (st .data c).q ≠ [] ∨ (st .data c).closed = true ∨ ∃ a m, N.node a = some m ∧ rank a < rank i ∧ ¬ m.task.Done (proj a τ))
    (hj : ∀ i inputs pushs spy, N.node i = some (.junction inputs pushs spy) → ∀ f ∈ acts (proj i τ), f.ruins pushs = false)
    (hcan : ∀ j m, N.node j = some m → ¬ m.task.Done (proj j τ) → ¬ N.Idle st τ j → N.CanStep cap τ j → Can j ∨ Blk j)
    (hblk : ∀ j m, N.node j = some m → ¬ m.task.Done (proj j τ) → Blk j →
      ((∃ h, m.sources = [.handle h]) ∧ ∃ a k, N.node a = some k ∧ rank a < rank j ∧ ¬ k.task.Done (proj a τ)) ∨
      ∃ b k, N.node b = some k ∧ ((∀ h, m.sources ≠ [.handle h]) → rank j < rank b) ∧ ¬ k.task.Done (proj b τ) ∧ ¬ N.Idle st τ b ∧ ¬ Blk b ∧ ∃ h, k.sources = [.handle h])
    {i : ι} {n : Node} (hi : N.node i = some n) (hnd : ¬ n.task.Done (proj i τ)) :
    ∃ j m, N.node j = some m ∧ ¬ m.task.Done (proj j τ) ∧ ¬ N.Idle st τ j ∧ Can j := by
  refine Classical.byContradiction fun hno => ?_
  have part : ∀ {j m}, N.node j = some m → m.task.Partial (proj j τ) := fun {j m} hm => hx.tasks j m.task (by simp [Network.sys, hm])
  have done : ∀ {j m}, N.node j = some m → m.task.Done (proj j τ) → ∀ c,
      (.chan c ∈ m.targets → (st .data c).closed = true) ∧ (∀ a, N.Edge a c j → (st .data c).closed = true) := by
    intro j m hm hd c
    have D := node_done (hw.ok j m hm) hd (by rintro inputs pushs spy rfl; exact hj j inputs pushs spy hm) c
    refine ⟨fun ht => closing_closed hst (D.1 ht), fun a he => ?_⟩
    have F := N.facts hw hx hu he
    obtain ⟨k, m', hk, hm', ht, hs⟩ := he
    rw [hm] at hm'; simp at hm'; subst hm'
    exact closing_closed hst (D.2 hs)
  have stuck : ∀ {j m}, N.node j = some m → ¬ m.task.Done (proj j τ) →
      N.Idle st τ j ∨ Blk j ∨ ∃ q, m.task.Awaits (proj j τ) q ∧ Impossible cap st q := by
    intro j m hm hd
    by_cases hid : N.Idle st τ j
    · exact Or.inl hid
    · right
      by_cases hB : Blk j
      · exact Or.inl hB
      right
      have hcan : N.CanStep cap τ j → False := fun h => hno ⟨j, m, hm, hd, hid, (hcan j m hm hd hid h).resolve_right hB⟩
      rcases (part hm).now (node_speaks (hw.ok j m hm)) with h | ⟨q, hq⟩ | ⟨k, c, h⟩
      · exact absurd h hd
      · refine ⟨q, hq, fun r => ?_⟩
        cases he : exec cap st ⟨q, r⟩ with
        | none => rfl
        | some st' => exact (hcan (canStep hx hst hm (hq.step r) he)).elim
      · exact (hcan (canStep hx hst hm h (by simp [exec]; rfl))).elim
  have wait : ∀ {j m}, N.node j = some m → ¬ m.task.Done (proj j τ) → ¬ N.Idle st τ j →
      (∃ c, m.sources = [.chan c] ∧ (st .data c).q = [] ∧ (st .data c).closed = false ∧
        ((∃ a, N.Edge a c j) ∨ ∃ a k, N.node a = some k ∧ rank a < rank j ∧ ¬ k.task.Done (proj a τ))) ∨
      (∃ c b, N.Edge j c b ∧ (st .data c).closed = false ∧ ¬ hasRoom (cap .data c) (st .data c).q.length) ∨ Blk j := by
    intro j m hm hd hid
    rcases stuck hm hd with h | h | ⟨q, hq, himp⟩
    · exact absurd h hid
    · exact Or.inr (Or.inr h)
    · by_cases hedge : ∃ a c b, N.Edge a c b ∧ q.on = some (.data, c)
      · obtain ⟨a, c, b, he, hon⟩ := hedge
        have he' := he
        obtain ⟨k, m', hk, hm', ht, hs⟩ := he'
        rcases node_awaits (hw.ok j m hm) hq himp hon with ⟨h1, h2, h3, _⟩ | ⟨h1, h2, h3, _⟩
        · left
          have : b = j := hw.reader b j m' m c hm' hm hs (by rw [h1]; simp)
          subst this
          exact ⟨c, h1, h2, h3, Or.inl ⟨a, he⟩⟩
        · right; left
          have : a = j := hw.writer a j k m c hk hm ht h1
          subst this
          exact ⟨c, b, he, h2, h3⟩
      · obtain ⟨c, rfl, hlow⟩ := hreq j m q hm hq (fun a c b he hon => hedge ⟨a, c, b, he, hon⟩) himp
        rcases node_awaits (hw.ok j m hm) hq himp rfl with ⟨h1, h2, h3, _⟩ | ⟨_, _, _, d, hd⟩
        · exact Or.inl ⟨c, h1, h2, h3, Or.inr hlow⟩
        · cases hd
  have full : ∀ k j c b, N.Edge j c b → R - rank j = k → (st .data c).closed = false →
      ¬ hasRoom (cap .data c) (st .data c).q.length → False := by
    intro k
    induction k using Nat.strongRecOn with
    | _ k ih =>
      intro j c b he hk h1 h2
      have hne : (st .data c).q ≠ [] := by
        intro h0
        apply h2
        have := hcap j c b he
        unfold hasRoom
        rw [h0]
        cases hc : cap .data c with
        | none => trivial
        | some x => rw [hc] at this; simp at this; simp; omega
      have he' := he
      obtain ⟨_, m, _, hm, _, hs⟩ := he'
      have hd : ¬ m.task.Done (proj b τ) := by
        intro hd
        have := (done hm hd c).2 j he
        rw [h1] at this; simp at this
      have hid : ¬ N.Idle st τ b := by
        rintro ⟨inputs, pushs, spy, hn, _, hall⟩
        rw [hm] at hn; simp at hn; subst hn
        by_cases hend : Act.ended (.chan c) ∈ acts (proj b τ)
        · have F := N.facts hw hx hu he
          have := closing_closed hst (edge_complete hst F.on F.writer F.reader F.sent F.got hend).2.2
          rw [h1] at this; simp at this
        · exact hne (hall c hs (inUse_open hst hend h1)).1
      rcases wait hm hd hid with ⟨c', h3, h4, _⟩ | ⟨c', b', he2, h3, h4⟩ | hB
      · rw [h3] at hs; simp at hs; subst hs; exact hne h4
      · have r1 := hr _ _ _ he
        have r2 := hr _ _ _ he2
        obtain ⟨_, m2, _, hm2, _, _⟩ := id he2
        have r3 := hR b' m2 hm2
        exact ih (R - rank b) (by omega) b c' b' he2 rfl h3 h4
      · rcases hblk b m hm hd hB with ⟨⟨h, h3⟩, _⟩ | ⟨b', k', hk', hlt, hd', hid', hB', h, h3⟩
        · rw [h3] at hs; simp at hs
        · rcases wait hk' hd' hid' with ⟨c', h4, _⟩ | ⟨c', b2, he2, h4, h5⟩ | h4
          · rw [h3] at h4; simp at h4
          · have hlt := hlt (fun h e => by rw [e] at hs; simp at hs)
            have r1 := hr _ _ _ he
            have r3 := hR b' k' hk'
            exact ih (R - rank b') (by omega) b' c' b2 he2 rfl h4 h5
          · exact hB' h4
  have low : ∀ k j m, rank j = k → N.node j = some m → m.task.Done (proj j τ) := by
    intro k
    induction k using Nat.strongRecOn with
    | _ k ih =>
      intro j m hk hm
      refine Classical.byContradiction fun hd => ?_
      have above : ∀ a c, N.Edge a c j → (st .data c).closed = true := by
        intro a c he
        have := hr _ _ _ he
        obtain ⟨p, _, hp, _, ht, _⟩ := he
        exact (done hp (ih (rank a) (by omega) a p rfl hp) c).1 ht
      by_cases hid : N.Idle st τ j
      · obtain ⟨inputs, pushs, spy, hn, ⟨s, hs, hse⟩, hall⟩ := hid
        rw [hm] at hn; simp at hn; subst hn
        have hok := hw.ok j _ hm
        obtain ⟨x, hxi, hxs⟩ := List.mem_filterMap.mp hs
        obtain ⟨jj, c, hp⟩ := hok.2.1 x hxi
        rw [hp] at hxs; simp [Pull.source] at hxs; subst hxs
        obtain ⟨h1, h2⟩ := hall c hs hse
        by_cases hint : ∃ a, N.Edge a c j
        · obtain ⟨a, he⟩ := hint
          rw [above a c he] at h2; simp at h2
        · rcases hin j _ c hm hs (fun a he => hint ⟨a, he⟩) hse.1 with h | h | ⟨a, p, hp, hlt, hnd'⟩
          · exact h h1
          · rw [h] at h2; simp at h2
          · exact hnd' (ih (rank a) (by omega) a p rfl hp)
      · rcases wait hm hd hid with ⟨c, _, _, h2, ⟨a, he⟩ | ⟨a, p, hp, hlt, hnd'⟩⟩ | ⟨c, b, he, h1, h2⟩ | hB
        · rw [above a c he] at h2; simp at h2
        · exact hnd' (ih (rank a) (by omega) a p rfl hp)
        · exact full _ j c b he rfl h1 h2
        · rcases hblk j m hm hd hB with ⟨_, a, p, hp, hlt, hnd'⟩ | ⟨b', k', hk', _, hd', hid', hB', h, h3⟩
          · exact hnd' (ih (rank a) (by omega) a p rfl hp)
          · rcases wait hk' hd' hid' with ⟨c', h4, _⟩ | ⟨c', b2, he2, h4, h5⟩ | h4
            · rw [h3] at h4; simp at h4
            · exact full _ b' c' b2 he2 rfl h4 h5
            · exact hB' h4
  exact hnd (low _ i n rfl hi)

end
end Verif
