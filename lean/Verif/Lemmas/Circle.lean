import Verif.Lemmas.Network
import Verif.Lemmas.Progress
/-!
# Who closes an output is at its end
-/
namespace Verif

/-- Nothing but closing. -/
def Closing (v : List Ev) : Prop := ∀ a ∈ acts v, ∃ k c, a = .close k c

theorem closing_drops {l : List (Kind × Nat)} {u v : List Ev} (h : u ++ v = dropEvs l) : Closing v := by
  intro a ha
  have : a ∈ acts (dropEvs l) := by rw [← h, acts_append]; exact List.mem_append_right _ ha
  simp [acts, dropEvs] at this
  obtain ⟨k, c, _, rfl⟩ := this
  exact ⟨k, c, rfl⟩

theorem closeActs_closing {j : Journey} {c : Nat} {mon : Notifications} {a : Act} (h : a ∈ closeActs (.sender j c) mon) : ∃ k c, a = .close k c := by
  simp only [closeActs, List.mem_append, List.mem_singleton, Option.mem_toList, Option.map_eq_some_iff] at h
  rcases h with (rfl | ⟨c, _, rfl⟩) | ⟨c, _, rfl⟩
  · exact ⟨_, _, rfl⟩
  · exact ⟨_, _, rfl⟩
  · exact ⟨_, _, rfl⟩

theorem acts_tail {t2 t3 u1 u2 : List Ev} {k : Kind} {c : Nat} (h : t2 ++ t3 = u1 ++ u2) (h1 : Act.close k c ∉ acts u1) (h2 : Act.close k c ∈ acts t2) : ∀ a ∈ acts t3, a ∈ acts u2 := by
  rcases prefix_append_cases (show t2 <+: u1 ++ u2 from ⟨t3, h⟩) with hpre | ⟨v, rfl, _⟩
  · exact absurd ((prefix_acts hpre).subset h2) h1
  · rw [List.append_assoc] at h
    have := List.append_cancel_left h
    intro a ha
    rw [← this, acts_append]
    exact List.mem_append_right _ ha

/-- If an activity closes what it writes to, nothing but closing remains for it to do. -/
theorem node_last {n : Node} {tr : List Ev} {c : Nat} (hok : n.Ok) (h : n.task.Partial tr) (ht : .chan c ∈ n.targets) (hc : (Kind.data, c) ∈ closings tr) :
    ∃ v, Closing v ∧ n.task.Done (tr ++ v) := by
  cases n with
  | relay pull mon spy push =>
    have hp := hok.2.1
    have hm : mon.Apart := fun c hc => hok.2.2 c hc.1 hc.2
    rcases h with ⟨n, t1, t2, h1, h2, rfl⟩ | ⟨r, u1, u2, h, ⟨v, hv⟩, rfl⟩
    · have h1 : LoopRounds (motionBody pull mon spy push) 0 t1 n := h1
      obtain ⟨k, _, _, _, i3, _⟩ := rounds_seen h1 hp hm
      rw [closings_append, i3, List.nil_append] at hc
      obtain ⟨t3, x, h3⟩ := h2.extend
      have h3 : (motionBody pull mon spy push n).Runs (t2 ++ t3) x := h3
      have hc' : (Kind.data, c) ∈ closings (t2 ++ t3) := by rw [closings_append]; exact List.mem_append_left _ hc
      have hact := mem_closings.mp hc
      have htgt : push.target = some (.chan c) := by simpa [Node.targets] using ht
      cases push with
      | none => cases htgt
      | io j hh => cases htgt
      | sender j c0 =>
        simp only [Push.target, Option.some.injEq, End.chan.injEq] at htgt
        subst htgt
        rcases motionBody_inv h3 with ⟨e, _, hw⟩ | ⟨res, u1, u2, hu, hw, hrest⟩
        · rw [(round_seen hw hp hm List.prefix_rfl).open_] at hc'; simp at hc'
        · have ho := (round_seen hw hp hm List.prefix_rfl).open_
          have hn : Act.close .data c0 ∉ acts u1 := fun h => by rw [← mem_closings, ho] at h; simp at h
          have htail := acts_tail hu hn hact
          rcases hrest with ⟨_, rfl, _⟩ | ⟨_, ⟨hx, rfl⟩ | ⟨_, hh, e, _⟩⟩
          · rw [List.append_nil] at hu
            rw [hu, ho] at hc'; simp at hc'
          · refine ⟨t3 ++ dropEvs (relayTask pull mon spy (.sender j c0)).drops, ?_, _, t1 ++ (t2 ++ t3), h1.stop h3, by simp [Node.task]⟩
            intro a ha
            rw [acts_append, List.mem_append] at ha
            rcases ha with ha | ha
            · have := htail a ha
              rw [hx] at this
              exact closeActs_closing this
            · exact closing_drops (u := []) rfl a ha
          · cases e
    · exact ⟨v, closing_drops hv, r, u1, h, by rw [List.append_assoc, hv]⟩
  | regulator pull push spy ctl =>
    rcases h with ⟨n, t1, t2, h1, h2, rfl⟩ | ⟨r, u1, u2, h, ⟨v, hv⟩, rfl⟩
    · exfalso
      obtain ⟨_, _, _, i3, _⟩ := regulator_rounds h1 hok.2
      rw [closings_append, i3, List.nil_append] at hc
      obtain ⟨t3, x, h3⟩ := h2.extend
      have hc : (Kind.data, c) ∈ closings (t2 ++ t3) := by rw [closings_append]; exact List.mem_append_left _ hc
      obtain ⟨r, u1, u2, hu, hw, h2⟩ := regulatorBody_inv h3
      rw [hu, closings_append, (round_seen hw hok.2 apart_nil List.prefix_rfl).open_, List.nil_append] at hc
      rcases h2 with ⟨res, rfl, hf, hx, h0⟩ | ⟨res, rfl, hf, hx, _⟩ | ⟨e, rfl, rfl, h0⟩
      · rw [(closeControl_idle hx).2] at hc; simp at hc
      · rw [(controlPoint_idle hx).2] at hc; simp at hc
      · simp at hc
    · exact ⟨v, closing_drops hv, r, u1, h, by rw [List.append_assoc, hv]⟩
  | junction inputs pushs spy =>
    obtain ⟨hdis, hi, hd, hs, hn, hne⟩ := hok
    obtain ⟨s, t1, t2, h1, h2, rfl⟩ := junctionTask_partial h
    obtain ⟨D, hJ, hC⟩ := rounds_closed hd hs JInv.init closedAre_nil h1
    rw [List.nil_append] at hJ hC
    have hc := mem_closings.mp hc
    have nodrop : ∀ p ∈ inputs.map Prod.fst, Act.close .data c ∉ dropActs p := by
      intro p hp hpc
      obtain ⟨x, hx, rfl⟩ := List.mem_map.mp hp
      exact hdis (.chan c) (List.mem_filterMap.mpr ⟨x, hx, owned_source (dropActs_owned hpc)⟩) ht
    rw [acts_append, List.mem_append] at hc
    rcases hc with hc | hc
    · obtain ⟨p, hp, hpc⟩ := (hC .data c).mp hc
      exact absurd hpc (nodrop p (hJ.gone p hp).1)
    · obtain ⟨t3, x, hrun⟩ := h2.extend
      obtain ⟨k, ws1, ws2, tail, htr, hp, hend⟩ := junctionBody_inv hrun hs
      have htail := acts_tail htr (pollTrace_no_close (pass_runs hp) _ _) hc
      have hc' : Act.close .data c ∈ acts tail := by
        have : Act.close .data c ∈ acts (t2 ++ t3) := by rw [acts_append]; exact List.mem_append_left _ hc
        rw [htr, acts_append, List.mem_append] at this
        exact this.resolve_left (pollTrace_no_close (pass_runs hp) _ _)
      have pulls : ∀ w ∈ ws1 ++ ws2, w.pull ∈ inputs.map Prod.fst := fun w hw => (hJ.mem.mp (pass_pulls hp w hw)).1
      have nofin : Act.close .data c ∉ finActs ws2 := by
        intro hm
        obtain ⟨p, hp1, hp2⟩ := mem_finActs.mp hm
        obtain ⟨w, hw, rfl⟩ := List.mem_map.mp hp1
        exact nodrop _ (pulls w (List.mem_append_right _ (List.mem_filter.mp hw).1)) hp2
      rcases hend with ⟨e, ws', w, _, rfl, hres, _, hx⟩ | ⟨_, _, ⟨_, _, _, _, _, ⟨_, hx, _⟩ | ⟨_, hx, _⟩⟩ | ⟨_, rfl, hx⟩⟩
      · exfalso
        rw [hx, List.mem_flatMap] at hc'
        obtain ⟨p, hp1, hp2⟩ := hc'
        exact nodrop p (hJ.mem.mp hp1).1 hp2
      · rw [hx] at hc'; simp at hc'
      · rw [hx] at hc'; exact absurd hc' nofin
      · refine ⟨t3, ?_, _, t1 ++ (t2 ++ t3), h1.stop hrun, by simp [Node.task, junctionTask, dropEvs]⟩
        intro a ha
        have := htail a ha
        rw [hx, List.mem_append] at this
        rcases this with h | h
        · obtain ⟨p, _, h2⟩ := mem_finActs.mp h
          cases p <;> simp [dropActs] at h2
          exact ⟨_, _, h2⟩
        · obtain ⟨p, hp1, hp2⟩ := List.mem_flatMap.mp h
          obtain ⟨j, c', rfl⟩ := hs p hp1
          exact closeActs_closing hp2

/-- So if nothing has failed, all its inputs have ended. -/
theorem node_closes_last {n : Node} {tr : List Ev} {c : Nat} (hok : n.Ok) (h : n.task.Partial tr) (ht : .chan c ∈ n.targets) (hc : (Kind.data, c) ∈ closings tr)
    (hf : ∀ a ∈ acts tr, a.fails = false) : ∀ s ∈ n.sources, Act.ended s ∈ acts tr := by
  obtain ⟨v, hv, hd⟩ := node_last hok h ht hc
  intro s hs
  have := (node_finished hok hd (by
    intro a ha
    rw [acts_append, List.mem_append] at ha
    rcases ha with ha | ha
    · exact hf a ha
    · obtain ⟨k, c, rfl⟩ := hv a ha; rfl)).ended s hs
  rw [acts_append, List.mem_append] at this
  refine this.resolve_right fun ha => ?_
  obtain ⟨k, c, e⟩ := hv _ ha
  cases e

end Verif
