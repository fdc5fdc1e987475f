import Verif.Lemmas.Jam
import Verif.Lemmas.WorldProgress
/-!
# When nothing happens any more, programs and pipes included, what is left waits for what is before it
-/
namespace Verif
/-- If whoever is left has somebody left before them, there is a circle before each of them. -/
theorem circle_before {α : Type} {r : α → α → Prop} {S : α → Prop} (l : List α) (hl : ∀ a, S a → a ∈ l) (h : ∀ b, S b → ∃ a, S a ∧ r a b) {i : α} (hi : S i) :
    ∃ j, Relation.TransGen r j j ∧ (j = i ∨ Relation.TransGen r j i) := by
  refine Classical.byContradiction fun hno => ?_
  have hno : ∀ j, (j = i ∨ Relation.TransGen r j i) → ¬ Relation.TransGen r j j := fun j h1 h2 => hno ⟨j, h2, h1⟩
  let r' : α → α → Prop := fun a b => r a b ∧ (b = i ∨ Relation.TransGen r b i)
  have up : ∀ {a b}, Relation.TransGen r' a b → Relation.TransGen r a b ∧ (b = i ∨ Relation.TransGen r b i) := by
    intro a b h
    induction h with
    | single h => exact ⟨.single h.1, h.2⟩
    | tail _ h ih => exact ⟨.tail ih.1 h.1, h.2⟩
  have free : ∀ j, ¬ Relation.TransGen r' j j := fun j h => hno j (up h).2 (up h).1
  have none : ∀ n b, rankIn r' l b = n → S b → (b = i ∨ Relation.TransGen r b i) → False := by
    intro n
    induction n using Nat.strongRecOn with
    | _ n ih =>
      intro b hb hS hbi
      obtain ⟨a, ha, hab⟩ := h b hS
      refine ih _ (by rw [← hb]; exact rankIn_lt free (hl a ha) (show r' a b from ⟨hab, hbi⟩)) a rfl ha (Or.inr ?_)
      rcases hbi with rfl | hbi
      · exact .single hab
      · exact Relation.TransGen.trans (.single hab) hbi
  exact none _ i rfl hi (Or.inl rfl)

section
variable {c : Config} {hs : List Hop} {w : Waiter} {cs : List Capture} {cap : Caps} {room : Nat} {prog : Str → Program} {T : List Happening} {st : Store}

/-- Whoever waits for a line can go on as far as the other activities are concerned. -/
theorem Waiter.WorldRun.reading_steps (hT : w.WorldRun cs cap room prog T) (hst : execAll cap Store.init ((coreOf T).map Prod.snd) = some st) {i : Who} (h : w.Reading (coreOf T) i) :
    w.CanStep cs cap (coreOf T) i := by
  obtain ⟨n, hd, hn, hq⟩ := h
  refine ⟨_, hT.core.step hst (sys_node hn) (hq.step (.line [])) (st' := st) (by simp [Verif.exec]) ?_⟩
  rintro r rfl
  rw [node_no_exit] at hn; cases hn

/-- When nothing happens any more, nothing goes on inside in the sense of C82. -/
theorem Rigged.motionless (A : Rigged c hs w) (hC : Complete hs) (hT : w.WorldRun cs cap room prog T) (hroom : 0 < room) (hst : execAll cap Store.init ((coreOf T).map Prod.snd) = some st)
    (hno : ¬ w.Lively cs cap room prog st T) : w.Motionless cs cap st (coreOf T) := by
  intro i t ht hd hc
  by_cases hrest : w.Resting cs st (coreOf T) i
  · exact Or.inl hrest
  right
  by_cases hx : ∃ r, i = .part r .exit
  · exact Or.inr (Or.inl hx)
  rw [not_exists] at hx
  by_cases hin : ∃ x, i = .part (.launch, x) .input
  · right; right
    obtain ⟨x, rfl⟩ := hin
    obtain ⟨n, hn, rfl⟩ := A.launchNode hC (by simp [relayPieces]) ht
    obtain ⟨h1, h2, h, d, h3⟩ := A.input_waits hC hT hst hno hn hc
    refine ⟨x, rfl, ⟨_, h, ht, Or.inr ⟨d, h3⟩⟩, ?_⟩
    have hk : w.comps.get (.launch, x) ≠ none := by
      intro h; simp [Waiter.node, h] at hn
    rcases program_waits hno hk (fun h => h1 (Or.inr h)) with ⟨h3, _⟩ | ⟨p, h3, h4⟩
    · rw [h3] at h2; simp at h2; omega
    · obtain ⟨k, hk, hkd⟩ := relayOver_node A hC p.relays h3
      refine ⟨p.piece, by cases p <;> simp [Port.piece], _, sys_node hk, hkd, fun hrd => ?_⟩
      rw [(A.port_waits hC hT hst hno hk (hT.reading_steps hst hrd)).2.1] at h4
      simp at h4; omega
  by_cases hport : ∃ x p, i = .part (.launch, x) (Port.piece p)
  · left
    obtain ⟨x, p, rfl⟩ := hport
    obtain ⟨n, hn, rfl⟩ := A.launchNode hC p.relays ht
    obtain ⟨_, _, h, h3⟩ := A.port_waits hC hT hst hno hn hc
    exact ⟨n, h, hn, h3⟩
  · exfalso
    rw [not_exists] at hin
    obtain ⟨e, hc⟩ := hc
    refine core_stops hno hrest hc ⟨?_, ?_, ?_, ?_⟩
    · intro y _ d r g; exact absurd g (hin _)
    · intro y _ r g; exact absurd g (hin _)
    · intro y p _ r g; exact absurd ⟨y, p, g⟩ hport
    · intro y r g; exact absurd g (hx _)

/-- A relay from a program that waits for something to come has taken everything. -/
theorem Rigged.port_hungry (A : Rigged c hs w) (hC : Complete hs) (hT : w.WorldRun cs cap room prog T) (hst : execAll cap Store.init ((coreOf T).map Prod.snd) = some st)
    (hno : ¬ w.Lively cs cap room prog st T) {x : Str} {p : Port} {k : Node} (hk : w.node (.part (.launch, x) p.piece) = some k) (h : w.Hungry st (coreOf T) (.part (.launch, x) p.piece)) :
    outPipe x p T = [] := by
  rcases h with ⟨inputs, pushs, spy, hn', _⟩ | hrd | ⟨n', ch, hn', h1, _⟩
  · have hn' : w.node (.part (.launch, x) p.piece) = _ := hn'
    obtain ⟨_, _, _, rfl⟩ := A.portNode hk
    rw [hk] at hn'; cases hn'
  · exact (A.port_waits hC hT hst hno hk (hT.reading_steps hst hrd)).2.1
  · rw [hk] at hn'; cases hn'
    obtain ⟨_, _, _, rfl⟩ := A.portNode hk
    simp [Node.sources, Pull.source] at h1

/-- A source that stays open belongs to somebody who has not ended. -/
theorem Rigged.supplier (A : Rigged c hs w) (hC : Complete hs) (hT : w.WorldRun cs cap room prog T) (hst : execAll cap Store.init ((coreOf T).map Prod.snd) = some st)
    (hcap : ∀ k ch, cap k ch ≠ some 0)
    (hj : ∀ i inputs pushs spy, w.node i = some (.junction inputs pushs spy) → ∀ f ∈ acts (proj i (coreOf T)), f.ruins pushs = false)
    (hno : ¬ w.Lively cs cap room prog st T) {i : Who} {n : Node} (hn : w.node i = some n) {ch : Nat} (hs' : .chan ch ∈ n.sources) (hq : (st .data ch).q = [])
    (hcl : (st .data ch).closed = false) : ∃ a m, w.node a = some m ∧ Leads hs a i ∧ ¬ m.task.Done (proj a (coreOf T)) := by
  by_cases he : ∃ a, w.net.Edge a ch i
  · obtain ⟨a, he⟩ := he
    have hl : Leads hs a i := by
      rcases (A.edges hC a ch i).mp he with ⟨h, h1, h2, rfl, rfl, _⟩ | ⟨x, h1, _, rfl, rfl⟩
      · exact .hop (List.mem_of_getElem? h1) h2
      · exact .buffer h1
    obtain ⟨m, _, hm, _, ht, _⟩ := he
    refine ⟨a, m, hm, hl, fun hd => ?_⟩
    have D := node_done ((A.wired hC).ok a m hm) hd (by rintro inputs pushs spy rfl; exact hj _ inputs pushs spy hm) ch
    rw [closing_closed_kind hst (D.1 ht)] at hcl
    cases hcl
  · exact A.below_exit hC hst hcap (fun r e => A.exit_stops hC hT hst hno) hn hs' (fun a h => he ⟨a, h⟩) hq hcl

/-- Whoever waits for something to come waits for somebody who has not ended. -/
theorem Rigged.starved (A : Rigged c hs w) (hC : Complete hs) (M : Attended cs w) (hb : LoopsBuffered hs) (hT : w.WorldRun cs cap room prog T) (hroom : 0 < room)
    (hst : execAll cap Store.init ((coreOf T).map Prod.snd) = some st) (hcap : ∀ k ch, cap k ch ≠ some 0) (hun : ∀ ch, hs.length ≤ ch → cap .data ch = none)
    (hj : ∀ i inputs pushs spy, w.node i = some (.junction inputs pushs spy) → ∀ f ∈ acts (proj i (coreOf T)), f.ruins pushs = false)
    (hu : ∀ r, ¬ w.Unheard cs cap st (coreOf T) r) (hp : ∀ r, ¬ w.Paused cs st (coreOf T) r) (hno : ¬ w.Lively cs cap room prog st T) {i : Who} {n : Node} (hn : w.node i = some n)
    (hnd : ¬ n.task.Done (proj i (coreOf T))) : ∃ a m, w.node a = some m ∧ LeadsOn hs (fun _ => True) a i ∧ ¬ m.task.Done (proj a (coreOf T)) := by
  have hungry : ∀ {i n}, w.node i = some n → ¬ n.task.Done (proj i (coreOf T)) → w.Hungry st (coreOf T) i := fun hn hnd =>
    A.unjammed hC M hb hT.core hst hcap hun hj hu hp (A.motionless hC hT hroom hst hno) hn hnd
  have supplied : ∀ {ch}, .chan ch ∈ n.sources → (st .data ch).q = [] → (st .data ch).closed = false →
      ∃ a m, w.node a = some m ∧ LeadsOn hs (fun _ => True) a i ∧ ¬ m.task.Done (proj a (coreOf T)) := fun h1 h2 h3 =>
    have ⟨a, m, g1, g2, g3⟩ := A.supplier hC hT hst hcap hj hno hn h1 h2 h3
    ⟨a, m, g1, .inside g2, g3⟩
  rcases hungry hn hnd with ⟨inputs, pushs, spy, hn', ⟨s, hs', hse⟩, hall⟩ | hrd | ⟨n', ch, hn', h1, h2, h3⟩
  · have hn' : w.node i = some (.junction inputs pushs spy) := hn'
    rw [hn] at hn'; cases hn'
    obtain ⟨x, hxi, hxs⟩ := List.mem_filterMap.mp hs'
    obtain ⟨jj, ch, hpull⟩ := ((A.wired hC).ok i _ hn).2.1 x hxi
    rw [hpull] at hxs; simp [Pull.source] at hxs; subst hxs
    obtain ⟨h1, h2⟩ := hall ch hs' hse
    exact supplied hs' h1 h2
  · have hc := hT.reading_steps hst hrd
    obtain ⟨n', hd, hn', hq⟩ := hrd
    rw [hn] at hn'; cases hn'
    have hsrc := reading_sources ((A.wired hC).ok i n hn) hq
    by_cases hport : ∃ x p, i = .part (.launch, x) (Port.piece p)
    case neg =>
      exfalso
      have hid : ¬ w.net.Idle st (coreOf T) i := by
        rintro ⟨inputs, pushs, spy, hn', ⟨s, hs', _⟩, _⟩
        have hn' : w.node i = some (.junction inputs pushs spy) := hn'
        rw [hn] at hn'; cases hn'
        obtain ⟨x, hxi, hxs⟩ := List.mem_filterMap.mp hs'
        obtain ⟨jj, ch, hpull⟩ := ((A.wired hC).ok i _ hn).2.1 x hxi
        rw [hpull] at hxs; simp [Pull.source] at hxs; subst hxs
        rw [hsrc] at hs'
        simp at hs'
      refine core_stops hno (node_unrested hn hid) (hT.core.step hst (sys_node hn) (hq.step (.line [])) (st' := st) (by simp [Verif.exec]) ?_) ⟨?_, ?_, ?_, ?_⟩
      · rintro r rfl; rw [node_no_exit] at hn; cases hn
      · intro y _ d r _ g; have := congrArg Ev.q g; cases this
      · intro y _ r _ g; have := congrArg Ev.q g; cases this
      · intro y p _ r g; exact absurd ⟨y, p, g⟩ hport
      · intro y r _ g; have := congrArg Ev.q g; cases this
    obtain ⟨x, p, rfl⟩ := hport
    have hk : w.comps.get (.launch, x) ≠ none := by
      intro h; simp [Waiter.node, h] at hn
    have h1 := (A.port_waits hC hT hst hno hn hc).1
    rcases program_stuck hno hk (fun h => h1 (Or.inr h)) with ⟨_, _, _, h3⟩ | ⟨q, _, _, h3, h4⟩
    · obtain ⟨k, hk, hkd⟩ := relayOver_node A hC (by simp [relayPieces]) h3
      refine ⟨_, k, hk, ?_, hkd⟩
      obtain ⟨_, h, hh, hx, hf, hwr⟩ := A.launch_stream hn (by cases p <;> simp [Port.piece])
      have := LeadsOn.program (via := fun _ => True) hh (congrArg Prod.fst hf) hx trivial
      rwa [hf, hwr] at this
    · exfalso
      obtain ⟨k, hk, hkd⟩ := relayOver_node A hC q.relays h3
      have hq := A.port_hungry hC hT hst hno hk (hungry hk hkd)
      rw [hq] at h4
      simp at h4; omega
  · rw [hn] at hn'; cases hn'
    exact supplied (by rw [h1]; simp) h2 h3

end
end Verif
