import Verif.Lemmas.Short
/-!
# A component that looks for its next message has passed on everything
-/
namespace Verif

/-- Asking for a message means having none. -/
theorem node_asks {n : Node} {tr : List Ev} {q : Req} {r : q.Resp} {s : End} {d : Bytes} (hok : n.Ok) (h : n.task.Awaits tr q)
    (hq : act ⟨q, r⟩ = .got s d) : ∀ t ∈ n.targets, offeredTo t tr = received tr := by
  intro t ht
  have h1 := (node_conduct hok h.partial).copies t ht
  have h2 := ((node_conduct hok (h.step r)).copies t ht).2
  have h3 : received (tr ++ [⟨q, r⟩]) = received tr ++ [d] := by simp [received, acts, hq]
  have h4 : offeredTo t (tr ++ [⟨q, r⟩]) = offeredTo t tr := by simp [offeredTo, offers, acts, hq]
  rw [h3, h4] at h2
  simp at h2
  obtain ⟨u, hu⟩ := h1.1
  have := congrArg List.length hu
  simp at this
  have : u = [] := List.eq_nil_of_length_eq_zero (by omega)
  subst this
  simpa using hu

/-- A round of a junction in which it sleeps does nothing else. -/
theorem junction_sleeps {pushs spy s tr x} (hs : AllSenders pushs) (h : (junctionBody pushs spy s).Runs tr x) {n : Nat}
    (hn : Act.sleep n ∈ acts tr) : received tr = [] ∧ offers tr = [] := by
  obtain ⟨k, ws1, ws2, tail, rfl, hp, hend⟩ := junctionBody_inv h hs
  have hpoll : Act.sleep n ∉ acts (pollTrace (ws1 ++ ws2)) := by
    intro ha
    obtain ⟨w, hw, hwa⟩ := mem_acts_pollTrace ha
    have hr : PollRun pushs spy w := by
      rcases List.mem_append.mp hw with hw | hw
      · exact hp.runs1 w hw
      · exact hp.runs2 w hw
    rcases poll_shape hr with ⟨_, _, h0, _⟩ | ⟨_, _, _, _, h0, h1, _⟩ | ⟨_, _, _, h0, h1, _⟩ | ⟨h0, _⟩ <;> rw [h0] at hwa <;> simp at hwa
    · have := h1 _ hwa; simp [Act.isQuiet] at this
    · have := h1 _ hwa; simp [Act.isQuiet] at this
  rw [acts_append, List.mem_append] at hn
  have ht := hn.resolve_left hpoll
  have drops : ∀ l : List Pull, Act.sleep n ∉ l.flatMap dropActs := by
    intro l ha
    obtain ⟨p, _, ha⟩ := List.mem_flatMap.mp ha
    obtain ⟨_, _, h0⟩ := dropActs_close ha
    simp at h0
  rcases hend with ⟨_, _, _, _, _, _, _, h0⟩ | ⟨hok, hk, ⟨b, hb, hn, _, _, ⟨h1, h0, _⟩ | ⟨_, h0, _⟩⟩ | ⟨_, _, h0⟩⟩
  · rw [h0] at ht; exact absurd ht (drops _)
  · subst h1
    have hin := inert_of_tail hs (Or.inr ⟨hok, hk, Or.inl ⟨b, hb, hn, by assumption, by assumption, Or.inl ⟨rfl, h0, by assumption⟩⟩⟩)
    obtain ⟨p1, p2, _⟩ := hin.proj
    have e : ∀ a ∈ acts (pollTrace ws1), ∃ s, a = .empty s := by
      intro a ha
      obtain ⟨w, hw, hwa⟩ := mem_acts_pollTrace ha
      rcases poll_shape (hp.runs1 w hw) with ⟨_, _, h0, _⟩ | ⟨_, _, _, _, _, _, h0⟩ | ⟨_, _, _, _, _, h0⟩ | ⟨_, h0⟩
      · rw [h0] at hwa; simp at hwa; exact ⟨_, hwa⟩
      · have := h0 (by simp [Poll.isOk, hp.skipped w hw]); simp [Poll.isRead, hp.skipped w hw] at this
      · have := h0 (by simp [Poll.isOk, hp.skipped w hw]); rw [hp.skipped w hw] at this; simp at this
      · simp [Poll.isOk, hp.skipped w hw] at h0
    rw [received_append, offers_append, p1, p2, List.append_nil, List.append_nil, List.append_nil]
    constructor
    · unfold received
      rw [List.filterMap_eq_nil_iff]
      intro a ha
      obtain ⟨s, rfl⟩ := e a ha; rfl
    · unfold offers
      rw [List.filterMap_eq_nil_iff]
      intro a ha
      obtain ⟨s, rfl⟩ := e a ha; rfl
  · rw [h0] at ht; exact absurd ht (drops _)
  · rw [h0, List.mem_append] at ht
    rcases ht with ht | ht
    · exact absurd ht (drops _)
    · obtain ⟨p, _, ha⟩ := List.mem_flatMap.mp ht
      cases p <;> simp [closeActs] at ha

/-- A junction about to sleep has passed on everything. -/
theorem junction_asleep {inputs pushs spy tr n} (hok : (Node.junction inputs pushs spy).Ok)
    (h : (junctionTask inputs pushs spy).Awaits tr (.sleep n)) : ∀ t ∈ (Node.junction inputs pushs spy).targets, offeredTo t tr = received tr := by
  intro t ht
  obtain ⟨_, _, _, hs, hnd, _⟩ := hok
  obtain ⟨s, t1, t2, h1, h2, rfl⟩ := h
  have h2 : (junctionBody pushs spy s).Awaits t2 (.sleep n) := h2
  obtain ⟨t3, x, hrun⟩ := (h2.step ()).extend
  obtain ⟨e1, e2⟩ := junction_sleeps hs hrun (n := n) (by simp [acts, act])
  have h3 : received t2 = [] := by simp at e1; exact e1.1
  have h4 : offers t2 = [] := by simp at e2; exact e2.1
  refine copied_offered hnd ?_ ht
  rw [offers_append, received_append, h3, h4, List.append_nil, List.append_nil]
  exact rounds_copied hs h1

end Verif
