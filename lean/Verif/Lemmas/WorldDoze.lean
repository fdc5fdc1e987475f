import Verif.Lemmas.WorldRest
import Verif.Props.RuntimeFlow
import Verif.Props.Bytes
import Verif.Lemmas.WorldBytes
import Verif.Spec.Doze
/-!
# When nothing is on its way any more, everybody has passed on everything
-/
namespace Verif

/-- Whoever waits for something to come has passed on everything. -/
theorem waiting_passed {n : Node} {tr : List Ev} {q : Req} {s : End} {d : Bytes} {r : q.Resp} (hok : n.Ok) (h : n.task.Partial tr) (hq : n.task.Awaits tr q) (ha : act ⟨q, r⟩ = .got s d) {t : End}
    (ht : t ∈ n.targets) : offeredTo t tr = received tr := by
  obtain ⟨h1, h2⟩ := (node_conduct hok h).copies t ht
  obtain ⟨_, h3⟩ := (node_conduct hok (hq.step r)).copies t ht
  have e1 : received (tr ++ [⟨q, r⟩]) = received tr ++ [d] := by simp [received, acts, ha]
  have e2 : offeredTo t (tr ++ [⟨q, r⟩]) = offeredTo t tr := by simp [offeredTo, offers, acts, ha]
  rw [e1, e2, List.length_append, List.length_singleton] at h3
  exact h1.eq_of_length_le (by omega)

/-- The lines that have come to their end. -/
theorem whole_take {bs : Bytes} {k : Nat} (h1 : ∀ l ∈ (specLines bs).take k, ∃ d, l = d ++ [10]) (h2 : ∀ l, (specLines bs)[k]? = some l → ¬ ∃ d, l = d ++ [10]) :
    wholeLines bs = (specLines bs).take k := by
  have all : ((specLines bs).take k).filter (fun l => l.getLast? = some 10) = (specLines bs).take k := by
    rw [List.filter_eq_self]
    intro l hl
    obtain ⟨d, rfl⟩ := h1 l hl
    simp
  obtain ⟨_, hd, _⟩ := specLines_isLinesOf bs
  unfold wholeLines
  cases hk : (specLines bs)[k]? with
  | none =>
    rw [List.getElem?_eq_none_iff] at hk
    rw [List.take_of_length_le hk] at all ⊢
    exact all
  | some l =>
    obtain ⟨hlt, hl⟩ := List.getElem?_eq_some_iff.mp hk
    have hlast : k + 1 = (specLines bs).length := by
      refine Nat.le_antisymm hlt (Nat.le_of_not_lt fun hlt' => h2 l hk ?_)
      obtain ⟨e, he, _⟩ := hd l (by
        rw [List.mem_iff_getElem]
        refine ⟨k, by rw [List.length_dropLast]; omega, ?_⟩
        rw [List.getElem_dropLast]; exact hl)
      exact ⟨e, he⟩
    have e : specLines bs = (specLines bs).take k ++ [l] := by
      conv => lhs; rw [← List.take_append_drop k (specLines bs), List.drop_eq_getElem_cons hlt, hl, List.drop_of_length_le (by omega)]
    conv => lhs; rw [e, List.filter_append, all]
    have : [l].filter (fun l => l.getLast? = some 10) = [] := by
      rw [List.filter_eq_nil_iff]
      intro l' hl' hx
      simp only [List.mem_singleton] at hl'
      subst hl'
      simp only [decide_eq_true_eq, List.getLast?_eq_some_iff] at hx
      exact h2 _ hk hx
    rw [this, List.append_nil]

section
variable {c : Config} {hs : List Hop} {w : Waiter} {cs : List Capture} {cap : Caps} {room : Nat} {prog : Str → Program} {T : List Happening} {st : Store}

theorem Waiter.Lively.stirs (h : w.Lively cs cap room prog st T) : w.Stirs cs cap room prog st T := by
  obtain ⟨a, h1, h2⟩ := h
  exact ⟨a, h1, fun i e he hd => h2 i e he hd.1⟩

/-- The reason behind C91. -/
theorem Rigged.passed (A : Rigged c hs w) (hC : Complete hs) (M : Attended cs w) (hb : LoopsBuffered hs) (hT : w.WorldRun cs cap room prog T) (hroom : 0 < room)
    (hst : execAll cap Store.init ((coreOf T).map Prod.snd) = some st) (hcap : ∀ k ch, cap k ch ≠ some 0) (hun : ∀ ch, hs.length ≤ ch → cap .data ch = none)
    (nf : ∀ i n, w.node i = some n → ∀ f ∈ acts (proj i (coreOf T)), f.fails = false)
    (hu : ∀ r, ¬ w.Unheard cs cap st (coreOf T) r) (hp : ∀ r, ¬ w.Paused cs st (coreOf T) r) (hno : ¬ w.Stirs cs cap room prog st T) {i : Who} {n : Node} (hn : w.node i = some n)
    {t : End} (ht : t ∈ n.targets) : acceptedBy t (proj i (coreOf T)) = received (proj i (coreOf T)) ∧ offeredTo t (proj i (coreOf T)) = received (proj i (coreOf T)) := by
  have hl : ¬ w.Lively cs cap room prog st T := fun h => hno h.stirs
  have W := A.wired hC
  obtain ⟨E, U⟩ := A.run hC hT.core
  have hj : ∀ i inputs pushs spy, w.node i = some (.junction inputs pushs spy) → ∀ f ∈ acts (proj i (coreOf T)), f.ruins pushs = false := fun i _ _ _ h f hf => not_ruins (nf i _ h f hf)
  have acc : acceptedBy t (proj i (coreOf T)) = offeredTo t (proj i (coreOf T)) := acceptedBy_all fun o hom => by
    have := nf i n hn (.offer o.to o.d o.w) (mem_offers.mp hom)
    obtain ⟨_, _, wo⟩ := o
    cases wo <;> simp [Act.fails] at this ⊢
  suffices h : offeredTo t (proj i (coreOf T)) = received (proj i (coreOf T)) from ⟨acc.trans h, h⟩
  by_cases hd : n.task.Done (proj i (coreOf T))
  · exact (node_finished (W.ok i n hn) hd (nf i n hn)).all t ht
  have hm := A.motionless hC hT hroom hst hl
  have hpar := hT.core.exec.tasks _ _ (sys_node (cs := cs) hn)
  by_cases hcan : w.CanStep cs cap (coreOf T) i
  · rcases hm i _ (sys_node hn) hd hcan with hrest | ⟨n', hd', hn', hq⟩ | ⟨r, rfl⟩ | ⟨x, rfl, _, p, hp', t', ht', hnd', hnr⟩
    · by_cases hdz : w.Dozes cs st (coreOf T) i
      · rw [← acc]; exact hdz.2 n hn t ht
      · exfalso
        obtain ⟨e, hc⟩ := hcan
        have hjn : ∃ inputs pushs spy, n = .junction inputs pushs spy := by
          refine Classical.byContradiction fun hx => node_unrested hn ?_ hrest
          rintro ⟨inputs, pushs, spy, hn', _⟩
          have hn' : w.node i = some (.junction inputs pushs spy) := hn'
          rw [hn] at hn'; cases hn'
          exact hx ⟨_, _, _, rfl⟩
        obtain ⟨inputs, pushs, spy, rfl⟩ := hjn
        refine hno ⟨_, .core hc ⟨?_, ?_, ?_, ?_⟩, by rintro _ _ ⟨⟩; exact hdz⟩
        · rintro y _ d r rfl; obtain ⟨_, _, _, e⟩ := A.inputNode hn; cases e
        · rintro y _ r rfl; obtain ⟨_, _, _, e⟩ := A.inputNode hn; cases e
        · rintro y p _ r rfl; obtain ⟨_, _, _, e⟩ := A.portNode hn; cases e
        · rintro y r rfl; rw [node_no_exit] at hn; cases hn
    · rw [hn] at hn'; cases hn'
      exact waiting_passed (q := .streamRead hd') (r := .line []) (W.ok i n hn) hpar hq rfl ht
    · rw [node_no_exit] at hn; cases hn
    · exfalso
      have hm' : ∃ m, w.node (.part (.launch, x) p) = some m := by
        cases h : w.node (.part (.launch, x) p) with
        | some m => exact ⟨m, rfl⟩
        | none =>
          exfalso
          rcases A.others hC ht' h with ⟨_, _, _, _, he, _⟩ | ⟨_, _, he, _⟩ | ⟨_, _, he, _⟩ | ⟨_, _, he, hd, _⟩ <;> cases he <;> simp at hp'
      obtain ⟨m, hm'⟩ := hm'
      rw [sys_node hm'] at ht'; cases ht'
      obtain ⟨⟨hd, hsrc⟩, _⟩ := A.launch_stream hm' hp'
      rcases A.unjammed hC M hb hT.core hst hcap hun hj hu hp hm hm' hnd' with ⟨inputs, pushs, spy, hn', _⟩ | h | ⟨n', ch, hn', h1, _⟩
      · have hn' : w.node (.part (.launch, x) p) = some (.junction inputs pushs spy) := hn'
        rw [hm'] at hn'; cases hn'
        have hok : (Node.junction inputs pushs spy).Ok := W.ok (.part (.launch, x) p) _ hm'
        have : End.handle hd ∈ (Node.junction inputs pushs spy).sources := by rw [hsrc]; simp
        obtain ⟨y, hy, hys⟩ := List.mem_filterMap.mp this
        obtain ⟨jj, c', hp''⟩ := hok.2.1 y hy
        rw [hp''] at hys; cases hys
      · exact hnr h
      · rw [hm'] at hn'; cases hn'
        rw [h1] at hsrc; cases hsrc
  · rcases hpar.now (node_speaks (W.ok i n hn)) with h | ⟨q, hq⟩ | ⟨k', c', h⟩
    · exact absurd h hd
    · have himp : Impossible cap st q := by
        intro r
        cases he : Verif.exec cap st ⟨q, r⟩ with
        | none => rfl
        | some st' => exact absurd (A.canStep hT.core hn (Verif.canStep E hst hn (hq.step r) he)) hcan
      rcases A.asks hC M hT.core hst hcap (A.still hC hu hm) hn hq himp with ⟨ch, rfl, h3, h1, h2⟩ | ⟨ch, d, b, rfl, h3, h4, h5⟩ | ⟨x, _, h3⟩
      · exact waiting_passed (r := some []) (W.ok i n hn) hpar hq rfl ht
      · exact absurd himp (A.roomy hC M hb hT.core hst hcap hun hj hu hp hm hn hq)
      · exact absurd h3 (hp x)
    · exact absurd (A.canStep hT.core hn (Verif.canStep E hst hn h (by simp [Verif.exec]; rfl))) hcan

/-- What comes from a program that has not shut its output: the lines it has completed. -/
theorem Rigged.port_told (A : Rigged c hs w) (hC : Complete hs) (hT : w.WorldRun cs cap room prog T) (hst : execAll cap Store.init ((coreOf T).map Prod.snd) = some st)
    (hno : ¬ w.Lively cs cap room prog st T) {x : Str} {p : Port} {n : Node} (hn : w.node (.part (.launch, x) p.piece) = some n)
    (hc : w.CanStep cs cap (coreOf T) (.part (.launch, x) p.piece)) :
    receivedFrom (.handle (w.portOf x p)) (proj (.part (.launch, x) p.piece) (coreOf T)) = wholeLines (putOut p (historyOf x T)) := by
  obtain ⟨hs', ho, h, hq⟩ := A.port_waits hC hT hst hno hn hc
  obtain ⟨j, j', ch, rfl⟩ := A.portNode hn
  have hh : h = w.portOf x p := by
    have := reading_sources ((A.wired hC).ok (.part (.launch, x) p.piece) _ hn) hq
    simpa [Node.sources, Pull.source] using this.symm
  subst hh
  have D := hT.drawnPort x p
  have hwh := D.whole.resolve_right fun g => hs' g.1
  have hbs : (drawnFrom x p T).flatten = putOut p (historyOf x T) := by
    obtain ⟨u, hu⟩ := hT.drawn x p
    rw [outPipe, ← hu, List.drop_left] at ho
    rw [← hu, ho, List.append_nil]
  have hat := (readsFrom_at (hT.fine x p)).mp D.reads
  rw [hbs] at hat
  have hline : ∀ k, k < (answers (w.portOf x p) (proj (.part (.launch, x) p.piece) (coreOf T))).length → ∃ d, (specLines (putOut p (historyOf x T)))[k]? = some (d ++ [10]) := by
    intro k hk
    have h1 := hat k hk
    obtain ⟨e, he⟩ := hwh _ (List.mem_of_getElem? h1)
    unfold lineAt at he
    split at he
    · next d' h2 => cases he; exact ⟨e, h2⟩
    · cases he
  have hlen : (answers (w.portOf x p) (proj (.part (.launch, x) p.piece) (coreOf T))).length ≤ (specLines (putOut p (historyOf x T))).length := by
    refine Nat.le_of_not_lt fun hlt => ?_
    obtain ⟨e, he⟩ := hline _ hlt
    simp at he
  rw [whole_take (k := (answers (w.portOf x p) (proj (.part (.launch, x) p.piece) (coreOf T))).length), receivedFrom_answers]
  · have : answers (w.portOf x p) (proj (.part (.launch, x) p.piece) (coreOf T)) =
        ((specLines (putOut p (historyOf x T))).take (answers (w.portOf x p) (proj (.part (.launch, x) p.piece) (coreOf T))).length).map .line := by
      apply List.ext_getElem?
      intro k
      by_cases hk : k < (answers (w.portOf x p) (proj (.part (.launch, x) p.piece) (coreOf T))).length
      · obtain ⟨d, hd⟩ := hline k hk
        rw [hat k hk, List.getElem?_map, List.getElem?_take_of_lt hk, hd, lineAt, hd]
        rfl
      · rw [List.getElem?_eq_none (by omega), List.getElem?_eq_none (by simp; omega)]
    conv => lhs; rw [this]
    rw [List.filterMap_map]
    exact List.filterMap_some
  · intro l hl
    obtain ⟨k, hk, rfl⟩ := List.mem_iff_getElem.mp hl
    rw [List.length_take, Nat.lt_min] at hk
    obtain ⟨e, he⟩ := hline k hk.1
    refine ⟨e, ?_⟩
    rw [List.getElem?_eq_getElem hk.2] at he
    simpa using he
  · rintro l hl ⟨d, rfl⟩
    have hrest : ¬ w.Resting cs st (coreOf T) (.part (.launch, x) p.piece) := node_unrested hn (by
      rintro ⟨_, _, _, h, _⟩
      have h : w.node (.part (.launch, x) p.piece) = _ := h
      rw [hn] at h; cases h)
    refine core_stops hno hrest (hT.core.step hst (sys_node (cs := cs) hn) (hq.step (.line (d ++ [10]))) (st' := st) (by simp [Verif.exec]) (by rintro _ g; cases p <;> cases g)) ⟨?_, ?_, ?_, ?_⟩
    · rintro y h d r g; cases p <;> cases g
    · rintro y h r g; cases p <;> cases g
    · intro y q h r' g g'
      have hpq : y = x ∧ q = p := by cases p <;> cases q <;> simp [Port.piece] at g ⊢ <;> exact g.symm
      obtain ⟨rfl, rfl⟩ := hpq
      cases g'
      refine ⟨?_, Or.inl ⟨d, rfl⟩⟩
      rw [readsFrom_at (hT.fine _ _), hbs]
      have e : answers (w.portOf y q) [(⟨.streamRead (w.portOf y q), .line (d ++ [10])⟩ : Ev)] = [.line (d ++ [10])] := by simp [answers]
      intro k hk
      rw [answers_append, e] at hk ⊢
      simp at hk
      by_cases hk' : k < (answers (w.portOf y q) (proj (.part (.launch, y) q.piece) (coreOf T))).length
      · rw [List.getElem?_append_left hk']; exact hat k hk'
      · have : k = (answers (w.portOf y q) (proj (.part (.launch, y) q.piece) (coreOf T))).length := by omega
        subst this
        simp [lineAt, hl]
    · rintro y r g; cases p <;> cases g

end
end Verif
