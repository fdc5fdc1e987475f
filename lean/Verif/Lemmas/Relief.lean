import Verif.Lemmas.WorldSteer
import Verif.Lemmas.WorldProgress
import Verif.Lemmas.Collected
import Verif.Spec.Relief
/-!
# Where the requests of managers get through
-/
namespace Verif

theorem HoldsUp.leads {hs : List Hop} {a b : Who} (h : HoldsUp hs a b) : LeadsOn hs (fun _ => True) a b := by
  cases h with
  | hop h1 h2 => exact .inside (.hop h1 h2)
  | program h1 h2 h3 => exact .program h1 h2 h3 trivial

/-- Whatever leads to the input of a buffer is a hop to it. -/
theorem LeadsOn.toBuffer {hs : List Hop} {a : Who} {x : Str} (h : LeadsOn hs (fun _ => True) a (.part (.buffer, x) .input)) : Mentioned hs (.buffer, x) := by
  generalize hb : Who.part (.buffer, x) .input = b at h
  cases h with
  | inside h =>
    cases h with
    | hop hh _ => exact ⟨_, hh, Or.inr (Hop.reader_iff.mp hb.symm).1⟩
    | exit hh _ _ => exact ⟨_, hh, Or.inr (Hop.reader_iff.mp hb.symm).1⟩
    | buffer _ => simp at hb
  | program hh hl _ _ =>
    have := (Hop.writer_iff.mp hb.symm).2
    cases this

/-- What leads to an output of a program is its input. -/
theorem LeadsOn.toPort {hs : List Hop} {a : Who} {x : Str} {p : Port} (h : LeadsOn hs (fun _ => True) a (.part (.launch, x) p.piece)) : a = .part (.launch, x) .input := by
  generalize hb : Who.part (.launch, x) p.piece = b at h
  cases h with
  | inside h =>
    cases h with
    | hop hh _ => have := (Hop.reader_iff.mp hb.symm).2; cases p <;> cases this
    | exit hh _ _ => have := (Hop.reader_iff.mp hb.symm).2; cases p <;> cases this
    | buffer _ => simp at hb
  | program hh hl _ _ => rw [(Hop.writer_iff.mp hb.symm).1]

theorem Below.toInput {hs : List Hop} {r x : Str} {q p : Piece} {o : Port} (hp : p = o.piece) (h : Below hs (.part (.regulator, r) q) (.part (.launch, x) p)) :
    Below hs (.part (.regulator, r) q) (.part (.launch, x) .input) := by
  subst hp
  generalize hb : Who.part (.launch, x) o.piece = b at h
  cases h with
  | single h => subst hb; have := h.toPort; simp at this
  | tail h1 h2 => subst hb; rw [h2.toPort] at h1; exact h1

/-- Nobody can hold up themselves. -/
theorem Relieved.unbraided {hs : List Hop} {cs : List Capture} (h : Relieved hs cs) (hcf : NoWayBack hs) : Unbraided hs cs := by
  have one : ∀ {a b}, Backs hs cs a b → Below hs a b := by
    intro a b hb
    cases hb with
    | holds hb => exact .single hb.leads
    | steer ha hx =>
      have h1 := h.below _ ha _ hx _ (Or.inl rfl)
      refine .tail h1 (.inside (.buffer ?_))
      cases h1 with
      | single h2 => exact h2.toBuffer
      | tail _ h2 => exact h2.toBuffer
  have : ∀ {a b}, Relation.TransGen (Backs hs cs) a b → Below hs a b := by
    intro a b hb
    induction hb with
    | single h1 => exact one h1
    | tail _ h1 ih => exact .trans ih (one h1)
  exact fun i hi => hcf i (this hi)

theorem rankIn_lt_trans {α : Type} {r : α → α → Prop} (hr : ∀ i, ¬ Relation.TransGen r i i) {l : List α} {a b : α} (ha : a ∈ l) (h : Relation.TransGen r a b) : rankIn r l a < rankIn r l b := by
  classical
  unfold rankIn
  refine countP_lt (y := a) ?_ ha (by simpa using hr a) (by simpa using h)
  intro x _ hx
  simp only [decide_eq_true_eq] at hx ⊢
  exact .trans hx h

/-- A regulator that has met nothing fatal and has ended takes no more requests. -/
theorem regulator_lets_go {S : End → Prop} {pull : Pull} {push : Push} {spy : Option Nat} {c : Nat} {tr : List Ev} (h : (regulatorTask pull push spy (some c)).Done tr) (hp : push.Fits S)
    (hf : ¬ Failed S tr) : (Kind.ctl, c) ∈ closings tr := by
  obtain ⟨r, t1, hr, rfl⟩ := h
  rw [failed_append] at hf
  cases r with
  | error e => exact absurd (Or.inl (((regulator_honest hp).runs trivial hr).mp ⟨e, rfl⟩)) hf
  | ok n =>
    obtain ⟨n0, u1, u2, rfl, h1, h2⟩ := hr.rounds
    obtain ⟨r, v1, v2, rfl, hw, h2⟩ := regulatorBody_inv h2
    rcases h2 with ⟨res, rfl, hfin, hc, h0⟩ | ⟨res, rfl, _, hc, h0⟩ | ⟨e, rfl, rfl, h0⟩
    · rw [closings_append, closings_append, closings_append, (closeControl_idle hc).2]
      simp
    all_goals cases h0

/-- What is no failure is not fatal. -/
theorem not_fatal {S : End → Prop} {f : Act} (h : f.fails = false) : ¬ f.fatal S := by
  cases f with
  | offer t d r => cases r <;> simp_all [Act.fails, Act.fatal]
  | _ => simp_all [Act.fails, Act.fatal]

section
variable {c : Config} {hs : List Hop} {w : Waiter} {cs : List Capture} {cap : Caps} {room : Nat} {prog : Str → Program} {T : List Happening} {st : Store}

/-- When nothing happens but looking and nobody is paused, whoever has not ended lies downstream of a regulator whose manager waits for room. -/
theorem Rigged.undone (A : Rigged c hs w) (hC : Complete hs) (M : Attended cs w) (hcf : NoWayBack hs) (hR : Relieved hs cs) (hT : w.WorldRun cs cap room prog T) (hroom : 0 < room)
    (hst : execAll cap Store.init ((coreOf T).map Prod.snd) = some st) (hcap : ∀ k ch, cap k ch ≠ some 0) (hun : ∀ ch, hs.length ≤ ch → cap .data ch = none)
    (hj : ∀ i inputs pushs spy, w.node i = some (.junction inputs pushs spy) → ∀ f ∈ acts (proj i (coreOf T)), f.ruins pushs = false)
    (hno : ¬ w.Lively cs cap room prog st T) (hpa : ∀ r, ¬ w.Paused cs st (coreOf T) r) :
    (∀ {i n}, w.node i = some n → ¬ n.task.Done (proj i (coreOf T)) → ∃ a ∈ cs, w.Unheard cs cap st (coreOf T) a.regulator ∧ Below hs (.part (.regulator, a.regulator) .main) i) ∧
    (∀ {i ch b}, w.net.Edge i ch b → (st .data ch).closed = false → ¬ hasRoom (cap .data ch) (st .data ch).q.length →
      ∃ a ∈ cs, w.Unheard cs cap st (coreOf T) a.regulator ∧ Below hs (.part (.regulator, a.regulator) .main) i) := by
  have hr := hT.core
  obtain ⟨E, U⟩ := A.run hC hr
  have W := A.wired hC
  have S := A.stillBut hC hno
  let L := LeadsOn hs fun _ => True
  let rank := rankIn L (w.everyone cs)
  have known : ∀ {i}, w.node i ≠ none → i ∈ w.everyone cs := by
    intro i hn
    obtain ⟨k, hk⟩ := Option.ne_none_iff_exists'.mp hn
    exact sys_everyone (by rw [sys_node hk]; simp)
  have launched : ∀ {x p n}, w.node (.part (.launch, x) p) = some n → w.comps.get (.launch, x) ≠ none := by
    intro x p n hn h
    simp [Waiter.node, h] at hn
  have full : ∀ {i ch b}, w.net.Edge i ch b → (st .data ch).closed = false → ¬ hasRoom (cap .data ch) (st .data ch).q.length →
      ∃ a ∈ cs, w.Unheard cs cap st (coreOf T) a.regulator ∧ Below hs (.part (.regulator, a.regulator) .main) i := by
    intro i ch b he h1 h2
    rcases A.worldDammedOr hC M hT hroom hst hcap hun hj hno S (rank := rank) (R := (w.everyone cs).length) (fun h hh hx hn => rankIn_lt hcf (known hn) (.inside (.hop hh hx))) (fun i => rankIn_le)
      (fun h hh hx hl hn => rankIn_lt hcf (known hn) (.program hh hl hx trivial)) he h1 h2 with ⟨y, hy, _⟩ | ⟨x, ⟨a, ha, hx, hu⟩, hup⟩
    · exact absurd hy (hpa y)
    · exact ⟨a, ha, hu, hR.below a ha x hx i (Or.inr hup)⟩
  have leads : ∀ {x} {p : Port} {n}, w.node (.part (.launch, x) p.piece) = some n → L (.part (.launch, x) .input) (.part (.launch, x) p.piece) := by
    intro x p n hn
    obtain ⟨_, h, hh, hx, hf, hwr⟩ := A.launch_stream hn (by cases p <;> simp [Port.piece])
    have := LeadsOn.program (via := fun _ => True) hh (congrArg Prod.fst hf) hx trivial
    rwa [hf, hwr] at this
  -- a program that does not get rid of what it prints
  have blocked : ∀ {x} {p : Port}, ¬ w.RelayOver cs (coreOf T) x p.piece → room ≤ (outPipe x p T).length →
      ∃ a ∈ cs, w.Unheard cs cap st (coreOf T) a.regulator ∧ Below hs (.part (.regulator, a.regulator) .main) (.part (.launch, x) .input) := by
    intro x p h5 h6
    obtain ⟨k', hk', hkd⟩ := relayOver_node A hC p.relays h5
    have hkc : ¬ w.CanStep cs cap (coreOf T) (.part (.launch, x) p.piece) := by
      intro hb
      rw [(A.port_waits hC hT hst hno hk' hb).2.1] at h6
      simp at h6; omega
    obtain ⟨q, hq, himp⟩ := A.halts hC hr hst hk' hkd hkc
    rcases A.asksOr hC M hr hst hcap S hk' hq himp with ⟨c', _, h7, _⟩ | ⟨c', d, b', _, h7, h8, h9⟩ | ⟨y, h7, _⟩ | ⟨y, h7, _⟩
    · obtain ⟨_, _, _, rfl⟩ := A.portNode hk'
      simp [Node.sources, Pull.source] at h7
    · obtain ⟨a, ha, hu, hb⟩ := full h7 h8 h9
      exact ⟨a, ha, hu, hb.toInput rfl⟩
    · simp at h7
    · simp at h7
  refine ⟨?_, full⟩
  intro i n hn hd
  generalize hk : rank i = k
  induction k using Nat.strongRecOn generalizing i n with
  | _ k ih =>
    have up : ∀ {a m}, w.node a = some m → L a i → ¬ m.task.Done (proj a (coreOf T)) →
        ∃ a ∈ cs, w.Unheard cs cap st (coreOf T) a.regulator ∧ Below hs (.part (.regulator, a.regulator) .main) i := by
      intro a m hm hl hnd
      have : rank a < rank i := rankIn_lt hcf (known (by rw [hm]; simp)) hl
      obtain ⟨b, hb, hu, h1⟩ := ih (rank a) (by omega) hm hnd rfl
      exact ⟨b, hb, hu, .tail h1 hl⟩
    -- somebody who could still write here has not ended
    have starved : ∀ {ch}, .chan ch ∈ n.sources → (st .data ch).q = [] → (st .data ch).closed = false →
        ∃ a ∈ cs, w.Unheard cs cap st (coreOf T) a.regulator ∧ Below hs (.part (.regulator, a.regulator) .main) i := by
      intro ch hs' h1 h2
      by_cases he : ∃ a, w.net.Edge a ch i
      · obtain ⟨a, he⟩ := he
        have hl : L a i := by
          rcases (A.edges hC a ch i).mp he with ⟨h, h3, h4, rfl, rfl, _⟩ | ⟨x, h3, _, rfl, rfl⟩
          · exact .inside (.hop (List.mem_of_getElem? h3) h4)
          · exact .inside (.buffer h3)
        obtain ⟨m, _, hm, _, ht, _⟩ := he
        have hm : w.node a = some m := hm
        refine up hm hl fun hdn => ?_
        have := closing_closed hst ((node_done (W.ok a m hm) hdn (by rintro inputs pushs spy rfl; exact hj a inputs pushs spy hm) ch).1 ht)
        rw [h2] at this; cases this
      · obtain ⟨a, m, h4, h5, h6⟩ := A.below_exit hC hst hcap (fun r e => A.exit_stops hC hT hst hno) hn hs' (fun a h => he ⟨a, h⟩) h1 h2
        exact up h4 (.inside h5) h6
    by_cases hid : w.net.Idle st (coreOf T) i
    · obtain ⟨inputs, pushs, spy, hn', ⟨s, hs', hse⟩, hall⟩ := hid
      have hn' : w.node i = some (.junction inputs pushs spy) := hn'
      rw [hn] at hn'; cases hn'
      obtain ⟨x, hxi, hxs⟩ := List.mem_filterMap.mp hs'
      obtain ⟨jj, ch, hp⟩ := (W.ok i _ hn).2.1 x hxi
      rw [hp] at hxs; simp [Pull.source] at hxs; subst hxs
      obtain ⟨h1, h2⟩ := hall ch hs' hse
      exact starved hs' h1 h2
    · by_cases hc : w.CanStep cs cap (coreOf T) i
      · rcases Waiter.outsideOnly hno hn hid hc with ⟨x, rfl⟩ | ⟨x, p, rfl⟩
        · obtain ⟨h1, h2, _⟩ := A.input_waits hC hT hst hno hn hc
          rcases program_waits hno (launched hn) (fun h => h1 (Or.inr h)) with ⟨h3, _⟩ | ⟨p, h3, h4⟩
          · rw [h3] at h2; simp at h2; omega
          · exact blocked h3 h4
        · obtain ⟨h1, h2, _⟩ := A.port_waits hC hT hst hno hn hc
          rcases program_waits hno (launched hn) (fun h => h1 (Or.inr h)) with ⟨_, h3⟩ | ⟨q, h3, h4⟩
          · obtain ⟨m, hm, hmd⟩ := relayOver_node A hC (by simp [relayPieces]) h3
            exact up hm (leads hn) hmd
          · obtain ⟨a, ha, hu, hb⟩ := blocked h3 h4
            exact ⟨a, ha, hu, .tail hb (leads hn)⟩
      · obtain ⟨q, hq, himp⟩ := A.halts hC hr hst hn hd hc
        rcases A.asksOr hC M hr hst hcap S hn hq himp with ⟨ch, _, h3, h4, h5⟩ | ⟨ch, d, b', _, h3, h4, h5⟩ | ⟨x, rfl, h3⟩ | ⟨x, hx, a, ha, hxa, hu⟩
        · exact starved (by rw [h3]; simp) h4 h5
        · exact full h3 h4 h5
        · exact absurd h3 (hpa x)
        · have hb := hR.below a ha x hxa _ (Or.inl rfl)
          rcases hx with rfl | rfl
          · exact ⟨a, ha, hu, hb⟩
          · exact ⟨a, ha, hu, .tail hb (.inside (.buffer (A.watched M ha hxa)))⟩

/-- A manager waits only for a regulator that has not ended. -/
theorem Assembled.unheard_undone (A : Assembled c hs w) (hC : Complete hs) (M : Attended cs w) {τ : List (Who × Ev)}
    (hg : ∀ r k, w.node (.part (.regulator, r) .main) = some k → ¬ Failed (StopsAt hs (.part (.regulator, r) .main)) (proj (.part (.regulator, r) .main) τ)) (hst : execAll cap Store.init (τ.map Prod.snd) = some st) {r : Str}
    (hu : w.Unheard cs cap st τ r) :
    ∃ n, w.node (.part (.regulator, r) .main) = some n ∧ ¬ n.task.Done (proj (.part (.regulator, r) .main) τ) := by
  obtain ⟨⟨t, ht, _⟩, h2, _⟩ := hu
  simp only [Waiter.sys] at ht
  cases hf : cs.find? (fun c => c.regulator = r) with
  | none => rw [hf] at ht; cases ht
  | some a =>
    have ha := List.mem_of_find?_eq_some hf
    have hr : a.regulator = r := by simpa using List.find?_some hf
    subst hr
    obtain ⟨i, o, m, hk⟩ := A.toRigged.regulatorNode hC (r := (.regulator, a.regulator)) rfl (A.toRigged.steered M ha)
    have hm : m = true := (M.control _ _ _ _ hk).mpr (List.mem_map.mpr ⟨a, ha, rfl⟩)
    subst hm
    have hn : w.node (.part (.regulator, a.regulator) .main) = some (.regulator i.pull o.push none (some (w.idOf (.regulator, a.regulator)))) := by
      simp only [Waiter.node, hk, Comp.node]; rfl
    refine ⟨_, hn, fun hd => ?_⟩
    have := closing_closed_kind hst (regulator_lets_go hd (A.fits hn) (hg _ _ hn))
    rw [h2] at this; cases this

/-- So then no manager waits for room. -/
theorem Assembled.relieved (A : Assembled c hs w) (hC : Complete hs) (M : Attended cs w) (hcf : NoWayBack hs) (hR : Relieved hs cs) (hT : w.WorldRun cs cap room prog T) (hroom : 0 < room)
    (hst : execAll cap Store.init ((coreOf T).map Prod.snd) = some st) (hcap : ∀ k ch, cap k ch ≠ some 0) (hun : ∀ ch, hs.length ≤ ch → cap .data ch = none)
    (hj : ∀ i inputs pushs spy, w.node i = some (.junction inputs pushs spy) → ∀ f ∈ acts (proj i (coreOf T)), f.ruins pushs = false)
    (hg : ∀ r k, w.node (.part (.regulator, r) .main) = some k → ¬ Failed (StopsAt hs (.part (.regulator, r) .main)) (proj (.part (.regulator, r) .main) (coreOf T)))
    (hno : ¬ w.Lively cs cap room prog st T) (hpa : ∀ r, ¬ w.Paused cs st (coreOf T) r) (r : Str) : ¬ w.Unheard cs cap st (coreOf T) r := by
  obtain ⟨U, _⟩ := A.toRigged.undone hC M hcf hR hT hroom hst hcap hun hj hno hpa
  generalize hk : rankIn (LeadsOn hs fun _ => True) (w.everyone cs) (.part (.regulator, r) .main) = k
  induction k using Nat.strongRecOn generalizing r with
  | _ k ih =>
    intro hu
    obtain ⟨n, hn, hd⟩ := A.unheard_undone hC M hg hst hu
    obtain ⟨a, ha, hu', hb⟩ := U hn hd
    obtain ⟨n', hn', _⟩ := A.unheard_undone hC M hg hst hu'
    exact ih _ (hk ▸ rankIn_lt_trans hcf (sys_everyone (by rw [sys_node hn']; simp)) hb) a.regulator rfl hu'

end
end Verif
