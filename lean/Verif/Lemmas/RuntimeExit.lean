import Verif.Lemmas.RuntimeRun
import Verif.Props.Launch
/-!
# Exit parts within a runtime
-/
namespace Verif

/-- What an exit part goes through. -/
def exitScript (e : PushEnd) (k : Nat) (s : StatusRes) (m : Bytes) : Bool → List Ev
  | true => inVain k ++ [⟨.status, s⟩, ⟨.send .data e.chan m, true⟩, ⟨.close .data e.chan, ()⟩]
  | false => inVain k ++ [⟨.status, s⟩, ⟨.send .data e.chan m, false⟩]

theorem exit_script {e : PushEnd} {tr : List Ev} {x : Except MErr Unit} (h : LoopRuns (exitBody none e) () tr x) :
    ∃ k s m b, ExitText s m ∧ tr = exitScript e k s m b := by
  obtain ⟨k, s, m, rest, rfl, hm, hs⟩ := exit_runs h
  refine ⟨k, s, m, ?_⟩
  cases hs with
  | refused => exact ⟨false, exitMessage_text hm, rfl⟩
  | plain => exact ⟨true, exitMessage_text hm, rfl⟩
  | unspied h' => cases h'
  | spied h' => cases h'

theorem exit_partial {e : PushEnd} {tr : List Ev} (h : (exitTask e).Partial tr) : ∃ k s m b, ExitText s m ∧ tr <+: exitScript e k s m b := by
  rcases h with h | ⟨r, t1, t2, h1, h2, rfl⟩
  · obtain ⟨t, x, hx⟩ := exit_extend (spy := none) (p := e) h
    obtain ⟨k, s, m, b, h1, h2⟩ := exit_script hx
    exact ⟨k, s, m, b, h1, _, h2⟩
  · have : t2 = [] := by simpa [exitTask, dropEvs] using h2
    subst this
    obtain ⟨k, s, m, b, h1, h2⟩ := exit_script (e := e) h1
    exact ⟨k, s, m, b, h1, by rw [List.append_nil, h2]; exact List.prefix_rfl⟩

theorem exit_done {e : PushEnd} {tr : List Ev} (h : (exitTask e).Done tr) : ∃ k s m b, ExitText s m ∧ tr = exitScript e k s m b := by
  obtain ⟨r, t1, h1, rfl⟩ := h
  obtain ⟨k, s, m, b, h1, h2⟩ := exit_script (e := e) h1
  exact ⟨k, s, m, b, h1, by rw [← h2]; simp [exitTask, dropEvs]⟩

theorem inVain_acts (k : Nat) : ∀ a ∈ acts (inVain k), a = .other ∨ a = .sleep 100 := by
  intro a ha
  obtain ⟨e, he, rfl⟩ := List.mem_map.mp ha
  simp only [inVain, List.mem_flatten, List.mem_replicate] at he
  obtain ⟨l, ⟨_, rfl⟩, he⟩ := he
  simp at he
  rcases he with rfl | rfl <;> simp [act]

theorem inVain_closings (k : Nat) : closings (inVain k) = [] := by
  unfold closings
  rw [List.filterMap_eq_nil_iff]
  intro a ha
  rcases inVain_acts k a ha with rfl | rfl <;> rfl

theorem inVain_offers (k : Nat) : offers (inVain k) = [] := by
  unfold offers
  rw [List.filterMap_eq_nil_iff]
  intro a ha
  rcases inVain_acts k a ha with rfl | rfl <;> rfl

theorem script_offered (e : PushEnd) (k : Nat) (s : StatusRes) (m : Bytes) (b : Bool) : offeredTo (.chan e.chan) (exitScript e k s m b) = [m] := by
  unfold offeredTo
  cases b <;> simp [exitScript, offers_append, inVain_offers] <;> simp [offers, acts, act]

theorem script_statuses (e : PushEnd) (k : Nat) (s : StatusRes) (m : Bytes) (b : Bool) : statuses (exitScript e k s m b) = List.replicate k .err ++ [s] := by
  have : ∀ l, statuses (inVain k ++ l) = statuses (inVain k) ++ statuses l := by intro l; simp [statuses]
  cases b <;> simp only [exitScript, this, statuses_inVain] <;> rfl

/-- Once the message is sent the exit status is not asked for again. -/
theorem script_tail {e : PushEnd} {k : Nat} {s : StatusRes} {m : Bytes} {b : Bool} {tr rest : List Ev} (h : tr ++ rest = exitScript e k s m b)
    (ho : offeredTo (.chan e.chan) tr ≠ []) : statuses rest = [] := by
  have : ∃ l, exitScript e k s m b = (inVain k ++ [⟨.status, s⟩]) ++ l ∧ statuses l = [] := by
    cases b
    · exact ⟨_, (List.append_assoc _ [_] [_]).symm, rfl⟩
    · exact ⟨_, (List.append_assoc _ [_] [_, _]).symm, rfl⟩
  obtain ⟨l, h1, h2⟩ := this
  rw [h1] at h
  rcases List.append_eq_append_iff.mp h with ⟨x, hx, _⟩ | ⟨x, _, rfl⟩
  · exfalso
    apply ho
    have : offers (tr ++ x) = [] := by rw [← hx, offers_append, inVain_offers]; rfl
    rw [offers_append, List.append_eq_nil_iff] at this
    simp [offeredTo, this.1]
  · rw [show statuses (x ++ rest) = statuses x ++ statuses rest by simp [statuses], List.append_eq_nil_iff] at h2
    exact h2.2

theorem script_got (e : PushEnd) (k : Nat) (s : StatusRes) (m : Bytes) (b : Bool) : ∀ a ∈ acts (exitScript e k s m b),
    (∀ t d, a ≠ .got t d) ∧ (∀ t, a ≠ .ended t) ∧ ∀ t d w, a = .offer t d w → t = .chan e.chan := by
  intro a ha
  cases b <;> simp only [exitScript, acts_append, List.mem_append] at ha <;> rcases ha with ha | ha
  · rcases inVain_acts k a ha with rfl | rfl <;> simp
  · simp [acts, act] at ha; rcases ha with rfl | rfl <;> simp
  · rcases inVain_acts k a ha with rfl | rfl <;> simp
  · simp [acts, act] at ha; rcases ha with rfl | rfl | rfl <;> simp

theorem script_retired {e : PushEnd} {k : Nat} {s : StatusRes} {m : Bytes} {b : Bool} {tr : List Ev} (h : tr <+: exitScript e k s m b) : Retired e.chan tr := by
  intro u v hs hc
  subst hs
  obtain ⟨t, ht⟩ := h
  suffices v = [] by subst this; simp [acts]
  have : ∃ pre, exitScript e k s m b = pre ++ (if b = true then [⟨.close .data e.chan, ()⟩] else []) ∧ closings pre = [] := by
    cases b
    · refine ⟨_, (List.append_nil _).symm, ?_⟩
      simp only [exitScript, closings_append, inVain_closings]; rfl
    · refine ⟨inVain k ++ [⟨.status, s⟩, ⟨.send .data e.chan m, true⟩], by simp [exitScript], ?_⟩
      simp only [closings_append, inVain_closings]; rfl
  obtain ⟨pre, h1, h2⟩ := this
  rw [h1, List.append_assoc] at ht
  rcases List.append_eq_append_iff.mp ht with ⟨x, hx, _⟩ | ⟨x, hx, hy⟩
  · rw [hx, closings_append, List.append_eq_nil_iff] at h2
    rw [h2.1] at hc; simp at hc
  · cases x with
    | nil => rw [hx, List.append_nil, h2] at hc; simp at hc
    | cons y x =>
      have := congrArg List.length hy
      have h3 : (if b = true then [(⟨.close .data e.chan, ()⟩ : Ev)] else []).length ≤ 1 := by split <;> simp
      simp only [List.length_append, List.length_cons] at this
      have h4 : v.length = 0 := by omega
      exact List.length_eq_zero_iff.mp h4

section
variable {c : Config} {hs : List Hop} {w : Waiter} {cs : List Capture} {cap : Caps} {τ : List (Who × Ev)}

/-- The exit part of a hop from an exit port. -/
theorem Rigged.exitSys (A : Rigged c hs w) {i : Nat} {h : Hop} (hi : hs[i]? = some h) (hx : h.isExit) :
    h.writer = .part h.from .exit ∧ w.node h.writer = none ∧ ∃ e, e.chan = i ∧ w.sys cs h.writer = some (exitTask e) := by
  have hwr : h.writer = .part h.from .exit := by
    simp only [Hop.writer, hx.1, hx.2]
  obtain ⟨k, hk, he⟩ := A.made' h.from ⟨h, List.mem_of_getElem? hi, Or.inl rfl⟩ (by rw [show h.from.1 = .launch from hx.1]; decide)
  rw [expected_launch _ _ _ _ hx.1] at he
  have hsrc : h.src = ⟨.launch, h.from.2, .exit⟩ := by
    show h.src = ⟨.launch, h.src.name, .exit⟩
    obtain ⟨h1, h2⟩ := hx
    cases h' : h.src
    rw [h'] at h1 h2
    simp only at h1 h2 ⊢
    rw [h1, h2]
  obtain ⟨o, ho⟩ := A.hasPort ⟨h, List.mem_of_getElem? hi, hsrc⟩
  rw [plain_launch he, ho] at hk
  refine ⟨hwr, ?_, o, ?_, ?_⟩
  · rw [hwr]; simp only [Waiter.node, hk, Comp.node]
  · exact ((A.headPort rfl ho i).mpr ⟨h, hi, hsrc⟩).symm
  · rw [hwr]; simp only [Waiter.sys, hk, Comp.node, Comp.other]

/-- The channel of a hop from an exit port is used by the exit part and the reader only. -/
theorem Rigged.exitFacts (A : Rigged c hs w) (hC : Complete hs) (hr : w.Run cs cap τ) {i : Nat} {h : Hop} (hi : hs[i]? = some h) (hx : h.isExit) {n : Node}
    (hn : w.node h.reader = some n) : EdgeFacts τ h.writer i h.reader ∧ .chan i ∈ n.sources := by
  obtain ⟨hwr, hnn, e, hei, hse⟩ := A.exitSys (cs := cs) hi hx
  have W := A.wired hC
  obtain ⟨E, U⟩ := A.run hC hr
  have hN : w.net.node h.reader = some n := hn
  have hsn : .chan i ∈ n.sources := (A.sources hn i).mpr (Or.inl ⟨h, hi, rfl⟩)
  obtain ⟨k, s, m, b, _, hpre⟩ := exit_partial (hr.exec.tasks _ _ hse)
  -- nobody else writes to it
  have noTarget : ∀ {j m}, w.node j = some m → .chan i ∉ m.targets := by
    intro j m hm ht
    obtain ⟨r, p, k, rfl, hme, _, _, hkn⟩ := A.node_inv hm
    rcases (A.targets hm i).mp ht with ⟨g, g1, g2⟩ | ⟨_, _, g3⟩
    · rw [hi] at g1; cases g1
      rw [g2] at hnn; rw [hnn] at hm; cases hm
    · have := get?_lt hi
      rw [A.chans] at g3; omega
  have on : ∀ x ∈ τ, x.2.q.on = some (.data, i) → x.1 = h.writer ∨ x.1 = h.reader := by
    intro x hxm hq
    have hmem : x.2 ∈ proj x.1 τ := mem_proj.mpr hxm
    cases hk : w.node x.1 with
    | none =>
      cases hs' : w.sys cs x.1 with
      | none => exact absurd hs' (hr.known x hxm)
      | some t =>
        obtain ⟨g, g1, ⟨_, g3⟩ | g3⟩ := A.touches hC hs' hk (hr.exec.tasks _ _ hs') _ hmem i hq
        · rw [hi] at g1; cases g1; exact Or.inl g3
        · rw [hi] at g1; cases g1; exact Or.inr g3
    | some m =>
      right
      rcases node_within (W.ok _ m hk) (hr.exec.tasks x.1 _ (sys_node hk)) hmem hq with h1 | h1
      · exact W.reader _ _ m n i hk hn h1 hsn
      · exact absurd h1 (noTarget hk)
  refine ⟨⟨on, ?_, ?_, ?_, (w.net.conduct W E hN).retired i⟩, hsn⟩
  · intro x hxm hsent
    obtain ⟨d, hd⟩ := sent_offer hsent
    obtain ⟨v, hv⟩ := Option.ne_none_iff_exists'.mp hsent
    rcases on x hxm (on_of_sent hv) with h1 | h1
    · exact h1
    · exfalso
      have hmem : Act.offer (.chan i) d .ok ∈ acts (proj x.1 τ) := List.mem_map.mpr ⟨x.2, mem_proj.mpr hxm, hd⟩
      rw [h1] at hmem
      exact noTarget hn ((w.net.conduct W E hN).to ⟨.chan i, d, .ok⟩ (mem_offers.mpr hmem))
  · intro x hxm hgot
    obtain ⟨d, hd⟩ := got_got hgot
    obtain ⟨v, hv⟩ := Option.ne_none_iff_exists'.mp hgot
    rcases on x hxm (on_of_got hv) with h1 | h1
    · exfalso
      have hmem : x.2 ∈ proj h.writer τ := by rw [← h1]; exact mem_proj.mpr hxm
      have : act x.2 ∈ acts (exitScript e k s m b) := List.mem_map.mpr ⟨x.2, hpre.subset hmem, rfl⟩
      exact (script_got e k s m b _ this).1 _ _ hd
    · exact h1
  · rw [← hei]; exact script_retired hpre

theorem Assembled.exitFacts (A : Assembled c hs w) (hC : Complete hs) (hr : w.Run cs cap τ) {i : Nat} {h : Hop} (hi : hs[i]? = some h) (hx : h.isExit) :
    EdgeFacts τ h.writer i h.reader ∧ ∃ n, w.node h.reader = some n ∧ .chan i ∈ n.sources := by
  obtain ⟨n, hn⟩ := A.readerNode hC (List.mem_of_getElem? hi)
  obtain ⟨h1, h2⟩ := A.toRigged.exitFacts hC hr hi hx hn
  exact ⟨h1, n, hn, h2⟩

end
end Verif
