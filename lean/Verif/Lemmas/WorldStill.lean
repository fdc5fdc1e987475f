import Verif.Lemmas.Blame
import Verif.Lemmas.ProgressHeld
import Verif.Spec.Circles
/-!
# When nobody can go on, the surroundings included, everything has ended
-/
namespace Verif
section
variable {c : Config} {hs : List Hop} {w : Waiter} {cs : List Capture} {cap : Caps} {τ : List (Who × Ev)} {st : Store}

/-- An exit part that has found nobody to give its message to waits for a relay of its launch. -/
theorem Rigged.exits_open (A : Rigged c hs w) (hC : Complete hs) (hst : execAll cap Store.init (τ.map Prod.snd) = some st) (hcap : ∀ k ch, cap k ch ≠ some 0)
    (hexit : ∀ r e, w.sys cs (.part r .exit) = some (exitTask e) → ¬ (exitTask e).Done (proj (.part r .exit) τ) →
      (∀ p ∈ relayPieces, ∀ t, w.sys cs (.part r p) = some t → t.Done (proj (.part r p) τ)) →
      ¬ ((st .data e.chan).closed = true ∨ hasRoom (cap .data e.chan) (st .data e.chan).q.length)) {i : Nat} {h : Hop} (hi : hs[i]? = some h) (hx : h.isExit) (hcl : (st .data i).closed = true ∨ (st .data i).q = []) :
    (st .data i).closed = true ∨ ∃ p ∈ relayPieces, ∃ n, w.node (.part h.from p) = some n ∧ ¬ n.task.Done (proj (.part h.from p) τ) := by
  have roomy : ∀ {k ch}, (st k ch).q = [] → hasRoom (cap k ch) (st k ch).q.length := fun h => caps_room hcap h
  refine Classical.byContradiction fun hcon => ?_
  rw [not_or] at hcon
  obtain ⟨hcl', hall⟩ := hcon
  have hq := hcl.resolve_left hcl'
  obtain ⟨hwr, hnn, e, hei, hse⟩ := A.exitSys (cs := cs) hi hx
  subst hei
  have gate : ∀ r, h.writer = .part r .exit → ∀ p ∈ relayPieces, ∀ t, w.sys cs (.part r p) = some t → t.Done (proj (.part r p) τ) := by
    intro r hr' p hp t ht
    have hfr : h.from = r := (Hop.writer_iff.mp hr').1
    subst hfr
    refine Classical.byContradiction fun hnd => hall ⟨p, hp, ?_⟩
    cases hn : w.node (.part h.from p) with
    | some n =>
      rw [sys_node hn] at ht; cases ht
      exact ⟨n, rfl, hnd⟩
    | none =>
      exfalso
      rcases A.others hC ht hn with ⟨_, _, _, _, he, _⟩ | ⟨_, _, he, _⟩ | ⟨_, _, he, _⟩ | ⟨_, _, he, _⟩
      · simp only [Who.part.injEq] at he; obtain ⟨_, rfl⟩ := he; simp [relayPieces] at hp
      · simp only [Who.part.injEq] at he; obtain ⟨_, rfl⟩ := he; simp [relayPieces] at hp
      · cases he
      · simp only [Who.part.injEq] at he; obtain ⟨_, rfl⟩ := he; simp [relayPieces] at hp
  by_cases hd : (exitTask e).Done (proj h.writer τ)
  · apply hcl'
    obtain ⟨k, s, m, b, _, htr⟩ := exit_done hd
    cases b with
    | true =>
      refine closing_closed_kind hst (i := h.writer) ?_
      rw [htr, exitScript, closings_append, List.mem_append]
      right; simp [closings, acts, act]
    | false =>
      have hm : (h.writer, (⟨.send .data e.chan m, false⟩ : Ev)) ∈ τ := by
        rw [← mem_proj, htr]; simp [exitScript]
      obtain ⟨τ1, τ2, rfl⟩ := List.append_of_mem hm
      rw [List.map_append, execAll_append] at hst
      cases h1 : execAll cap Store.init (τ1.map Prod.snd) with
      | none => rw [h1] at hst; cases hst
      | some st1 =>
        rw [h1] at hst
        simp only [Option.bind_some, List.map_cons, execAll] at hst
        cases h2 : Verif.exec cap st1 ⟨.send .data e.chan m, false⟩ with
        | none => rw [h2] at hst; cases hst
        | some st2 =>
          rw [h2] at hst; simp only at hst
          simp only [Verif.exec] at h2
          split at h2
          · next h3 => cases h2; exact (closed_iff hst .data e.chan).mpr (Or.inl h3)
          · cases h2
  · rw [hwr] at hse hd
    exact hexit _ e hse hd (gate _ hwr) (Or.inr (roomy hq))

/-- What comes from an exit part. -/
theorem Rigged.below_exit (A : Rigged c hs w) (hC : Complete hs) (hst : execAll cap Store.init (τ.map Prod.snd) = some st) (hcap : ∀ k ch, cap k ch ≠ some 0)
    (hexit : ∀ r e, w.sys cs (.part r .exit) = some (exitTask e) → ¬ (exitTask e).Done (proj (.part r .exit) τ) →
      (∀ p ∈ relayPieces, ∀ t, w.sys cs (.part r p) = some t → t.Done (proj (.part r p) τ)) →
      ¬ ((st .data e.chan).closed = true ∨ hasRoom (cap .data e.chan) (st .data e.chan).q.length)) {i : Who} {n : Node} {ch : Nat} (hn : w.node i = some n) (hs' : .chan ch ∈ n.sources) (hno' : ∀ a, ¬ w.net.Edge a ch i) (hq : (st .data ch).q = [])
    (hcl : (st .data ch).closed = false) : ∃ a m, w.node a = some m ∧ Leads hs a i ∧ ¬ m.task.Done (proj a τ) := by
  obtain ⟨r, p, k, rfl, hme, _, _, hkn⟩ := A.node_inv hn
  rcases (A.sources hn ch).mp hs' with ⟨h, h1, h2⟩ | ⟨h1, h2, h3⟩
  · by_cases hx : h.isExit
    · rcases A.exits_open hC hst hcap hexit h1 hx (Or.inr hq) with h3 | ⟨p', hp', m, hm, hnd⟩
      · rw [h3] at hcl; cases hcl
      · refine ⟨_, m, hm, ?_, hnd⟩
        rw [← h2]; exact Leads.exit (List.mem_of_getElem? h1) hx hp'
    · exact absurd ((A.edges hC _ ch _).mpr (Or.inl ⟨h, h1, hx, rfl, h2.symm, n, by rw [h2]; exact hn⟩)) (hno' _)
  · obtain ⟨ty, x⟩ := r
    simp only at h1
    subst h1
    subst h2
    exact absurd ((A.edges hC _ ch _).mpr (Or.inr ⟨x, hme, by rw [← A.chans]; exact h3, rfl, rfl⟩)) (hno' _)

/-- Like `Rigged.standstill`, where the surroundings may keep activities from a step (`Blk`): these wait for one upstream, or for one that does not read from a channel and is not kept by the surroundings. -/
theorem Rigged.over_held {L : Who → Who → Prop} {Blk : Who → Prop} (A : Rigged c hs w) (hC : Complete hs) (T : Attended cs w) (hL : ∀ {a b}, Leads hs a b → L a b)
    (hcf : ∀ i, ¬ Relation.TransGen L i i) (hr : w.Run cs cap τ)
    (hst : execAll cap Store.init (τ.map Prod.snd) = some st) (hcap : ∀ k ch, cap k ch ≠ some 0)
    (hj : ∀ i inputs pushs spy, w.node i = some (.junction inputs pushs spy) → ∀ f ∈ acts (proj i τ), f.ruins pushs = false)
    (S : w.StillAside cs cap st τ) (hpa : ∀ r, ¬ w.Paused cs st τ r)
    (hstill : ∀ i n, w.node i = some n → ¬ n.task.Done (proj i τ) → ¬ w.net.Idle st τ i → w.CanStep cs cap τ i → Blk i)
    (hblk : ∀ i n, w.node i = some n → ¬ n.task.Done (proj i τ) → Blk i →
      ((∃ h, n.sources = [.handle h]) ∧ ∃ a k, w.node a = some k ∧ L a i ∧ ¬ k.task.Done (proj a τ)) ∨
      ∃ b k, w.node b = some k ∧ ((∀ h, n.sources ≠ [.handle h]) → L i b) ∧ ¬ k.task.Done (proj b τ) ∧ ¬ w.net.Idle st τ b ∧ ¬ Blk b ∧ ∃ h, k.sources = [.handle h])
    (hexit : ∀ r e, w.sys cs (.part r .exit) = some (exitTask e) → ¬ (exitTask e).Done (proj (.part r .exit) τ) →
      (∀ p ∈ relayPieces, ∀ t, w.sys cs (.part r p) = some t → t.Done (proj (.part r p) τ)) →
      ¬ ((st .data e.chan).closed = true ∨ hasRoom (cap .data e.chan) (st .data e.chan).q.length)) : w.Over cs τ := by
  obtain ⟨E, U⟩ := A.run hC hr
  have W := A.wired hC
  have roomy : ∀ {k ch}, (st k ch).q = [] → hasRoom (cap k ch) (st k ch).q.length := fun h => caps_room hcap h
  have below : ∀ {i n ch}, w.node i = some n → .chan ch ∈ n.sources → (∀ a, ¬ w.net.Edge a ch i) → (st .data ch).q = [] → (st .data ch).closed = false →
      ∃ a m, w.node a = some m ∧ L a i ∧ ¬ m.task.Done (proj a τ) := fun h1 h2 h3 h4 h5 =>
    have ⟨a, m, g1, g2, g3⟩ := A.below_exit hC hst hcap hexit h1 h2 h3 h4 h5
    ⟨a, m, g1, hL g2, g3⟩
  have mem_everyone : ∀ {i n}, w.node i = some n → i ∈ w.everyone cs := fun {i n} hn => sys_everyone (by rw [sys_node hn]; simp)
  have edge : ∀ a ch b, w.net.Edge a ch b → rankIn L (w.everyone cs) a < rankIn L (w.everyone cs) b := by
    intro a ch b he
    have ha : a ∈ w.everyone cs := by obtain ⟨n, _, hn, _⟩ := he; exact mem_everyone hn
    refine rankIn_lt hcf ha ?_
    rcases (A.edges hC a ch b).mp he with ⟨h, h1, h2, rfl, rfl, _⟩ | ⟨x, h1, _, rfl, rfl⟩
    · exact hL <| .hop (List.mem_of_getElem? h1) h2
    · exact hL <| .buffer h1
  have top : ∀ i n, w.net.node i = some n → rankIn L (w.everyone cs) i ≤ (w.everyone cs).length := by
    intro i n _; exact rankIn_le
  have caps : ∀ a ch b, w.net.Edge a ch b → cap .data ch ≠ some 0 := by
    intro a ch b _; exact hcap .data ch
  have req : ∀ i n q, w.net.node i = some n → n.task.Awaits (proj i τ) q → (∀ a c b, w.net.Edge a c b → q.on ≠ some (.data, c)) → Impossible cap st q →
      ∃ c, q = .recv .data c ∧ ∃ a m, w.net.node a = some m ∧ rankIn L (w.everyone cs) a < rankIn L (w.everyone cs) i ∧ ¬ m.task.Done (proj a τ) := by
    intro i n q hn hq hno' himp
    have hn : w.node i = some n := hn
    rcases A.asks hC T hr hst hcap S hn hq himp with ⟨ch, rfl, h3, h1, h2⟩ | ⟨ch, d, b, rfl, h3, _⟩ | ⟨x, _, h3⟩
    · refine ⟨ch, rfl, ?_⟩
      obtain ⟨a, m, h4, h5, h6⟩ := below hn (ch := ch) (by rw [h3]; simp) (fun a he => hno' a ch i he rfl) h1 h2
      exact ⟨a, m, h4, rankIn_lt hcf (mem_everyone h4) h5, h6⟩
    · exact absurd rfl (hno' i ch b h3)
    · exact absurd h3 (hpa x)
  have inp : ∀ i n c, w.net.node i = some n → .chan c ∈ n.sources → (∀ a, ¬ w.net.Edge a c i) → Act.ended (.chan c) ∉ acts (proj i τ) →
      (st .data c).q ≠ [] ∨ (st .data c).closed = true ∨
        ∃ a m, w.net.node a = some m ∧ rankIn L (w.everyone cs) a < rankIn L (w.everyone cs) i ∧ ¬ m.task.Done (proj a τ) := by
    intro i n ch hn hs' hno' _
    by_cases h1 : (st .data ch).q = []
    · right
      by_cases h2 : (st .data ch).closed = true
      · exact Or.inl h2
      · right
        obtain ⟨a, m, h4, h5, h6⟩ := below hn hs' hno' h1 (by simpa using h2)
        exact ⟨a, m, h4, rankIn_lt hcf (mem_everyone h4) h5, h6⟩
    · exact Or.inl h1
  have nodes : ∀ i n, w.node i = some n → n.task.Done (proj i τ) := by
    intro i n hn
    refine Classical.byContradiction fun hnd => ?_
    obtain ⟨_, _, _, _, _, h⟩ := progress_held (Can := fun _ => False) (Blk := Blk) W E U hst (rank := rankIn L (w.everyone cs)) (R := (w.everyone cs).length) edge top caps req inp hj
      (fun j m h1 h2 h3 h4 => Or.inr (hstill j m h1 h2 h3 (A.canStep hr h1 h4)))
      (by
        intro j m h1 h2 h3
        rcases hblk j m h1 h2 h3 with ⟨g1, a, k, g2, g3, g4⟩ | ⟨b, k, g1, g2, g3, g4, g5, g6⟩
        · exact Or.inl ⟨g1, a, k, g2, rankIn_lt hcf (mem_everyone g2) g3, g4⟩
        · exact Or.inr ⟨b, k, g1, fun h => rankIn_lt hcf (mem_everyone h1) (g2 h), g3, g4, g5, g6⟩) hn hnd
    exact h
  have tallied : ∀ {x}, Mentioned hs (.buffer, x) → ∀ t, w.sys cs (.part (.buffer, x) .count) = some t → t.Done (proj (.part (.buffer, x) .count) τ) := by
    intro x hm
    rcases A.counted hC T hr hst hcap S hm with h | ⟨_, m', hm', hcl⟩
    · exact h
    · exfalso
      obtain ⟨a, b, mm, hk⟩ := A.bufferNodes hC rfl hm
      have hin : w.node (.part (.buffer, x) .input) = some (.relay a.pull { written := some (2 * w.idOf (.buffer, x)) } none (.sender ⟨0, none, 0, b.breakable⟩ (w.chans + w.idOf (.buffer, x)))) := by
        simp only [Waiter.node, hk, Comp.node]
      have hout : w.node (.part (.buffer, x) .output) = some (.relay (.receiver ⟨0, 0⟩ (w.chans + w.idOf (.buffer, x))) { read := some (2 * w.idOf (.buffer, x) + 1) } none b.push) := by
        simp only [Waiter.node, hk, Comp.node]
      have : (st .mon m').closed = true := by
        simp only [List.mem_cons, List.not_mem_nil, or_false] at hm'
        rcases hm' with rfl | rfl
        · exact closing_closed_kind hst (done_drops (nodes _ _ hin) (by simp [Node.task, relayTask]))
        · exact closing_closed_kind hst (done_drops (nodes _ _ hout) (by simp [Node.task, relayTask]))
      rw [this] at hcl; cases hcl
  -- everything has ended
  intro i t ht
  cases hn : w.node i with
  | some n => rw [sys_node hn] at ht; cases ht; exact nodes i n hn
  | none =>
    rcases A.others hC ht hn with ⟨r, e, ch, g, rfl, hrl, rfl, rfl, hg, hx, hfr⟩ | ⟨r, m, rfl, hrb, hm, htot, a, b, hk⟩ | ⟨r, a, rfl, ha, ha', _⟩ | ⟨r, x, rfl, hrd, rfl, ⟨m, hmk⟩, g, hg, hgr⟩
    · refine Classical.byContradiction fun hnd => ?_
      obtain ⟨hwr, _, e', hei, hse⟩ := A.exitSys (cs := cs) hg hx
      rw [hfr] at hwr
      have hcl : (st .data e.chan).closed = true := by
        rcases A.readerNode hC (List.mem_of_getElem? hg) with ⟨n, hn'⟩ | ⟨hd, x, hxk, hxc⟩
        case inr => exact A.shut hr hst S.toStillBut hg hd hxk (hxc _ hg)
        obtain ⟨F, hsn⟩ := A.exitFacts hC hr hg hx hn'
        have hok : n.Ok := W.ok g.reader n hn'
        have D := node_done hok (nodes _ n hn') (by rintro inputs pushs spy rfl; exact hj _ inputs pushs spy hn') e.chan
        exact closing_closed_kind hst (D.2 hsn)
      refine hexit r e ht hnd ?_ (Or.inl hcl)
      · intro p hp t' ht'
        cases hn' : w.node (.part r p) with
        | some n => rw [sys_node hn'] at ht'; cases ht'; exact nodes _ n hn'
        | none =>
          exfalso
          rcases A.others hC ht' hn' with ⟨_, _, _, _, he, _⟩ | ⟨_, _, he, _⟩ | ⟨_, _, he, _⟩ | ⟨_, _, he, _⟩
          · simp only [Who.part.injEq] at he; obtain ⟨_, rfl⟩ := he; simp [relayPieces] at hp
          · simp only [Who.part.injEq] at he; obtain ⟨_, rfl⟩ := he; simp [relayPieces] at hp
          · cases he
          · simp only [Who.part.injEq] at he; obtain ⟨_, rfl⟩ := he; simp [relayPieces] at hp
    · obtain ⟨ty, x⟩ := r
      simp only at hrb
      subst hrb
      exact tallied hm _ ht
    · subst ha'
      rw [T.manages ha] at ht
      cases ht
      rcases Rigged.managed T hr hst S ha with h | ⟨_, b, hb, hcl⟩
      · exact h
      · exfalso
        have hb' : b ∈ cs.flatMap Capture.buffers := List.mem_flatMap.mpr ⟨_, ha, hb⟩
        obtain ⟨i, o, hk⟩ := T.monitored b hb'
        have hm : Mentioned hs (.buffer, b) := Classical.byContradiction fun h => by rw [A.only _ h] at hk; cases hk
        obtain ⟨flag, hflag, hsys⟩ := A.counts hC T hm
        rw [hflag.mpr hb'] at hsys
        have := closing_closed_kind hst (done_drops (tallied hm _ hsys) (k := .size) (ch := w.idOf (.buffer, b)) (by simp [totalTask]))
        rw [this] at hcl; cases hcl
    · have hto : g.to = r := (Hop.reader_iff.mp hgr).1
      subst hto
      obtain hch := A.readerNode hC (List.mem_of_getElem? hg)
      rcases hch with ⟨n, hn'⟩ | ⟨_, y, hy, hyc⟩
      · rw [hgr, hn] at hn'; cases hn'
      · refine Classical.byContradiction fun hnd => ?_
        refine S.none _ _ hn (by simp) ht hnd ?_ ⟨⟨.close .data x, ()⟩, hr.step hst ht ?_ rfl (by simp)⟩
        · rintro ((⟨_, _, _, hn', _⟩ | ⟨r, he, _⟩) | ⟨_, _, he, _⟩)
          · have hnn' : w.net.node (.part g.to .main) = none := hn
            rw [hnn'] at hn'; cases hn'
          · simp at he
          · cases he
        · have hnil : proj (.part g.to .main) τ = [] := dropTask_undone (hr.exec.tasks _ _ ht) hnd
          rw [hnil]
          exact dropTask_step

end
end Verif
