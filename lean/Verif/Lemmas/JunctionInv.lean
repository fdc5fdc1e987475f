import Verif.Lemmas.JunctionPolls
/-!
# The invariant of a junction's loop
-/
namespace Verif

theorem map_eq_self {α : Type} {f : α → α} {l : List α} (h : ∀ x ∈ l, f x = x) : l.map f = l := by
  induction l with
  | nil => rfl
  | cons a l ih => rw [List.map_cons, h a (by simp), ih (fun x hx => h x (by simp [hx]))]

/-- Keep what is not in `D`. -/
def without (D g : List Pull) : List Pull := g.filter (fun p => decide (p ∉ D))

@[simp] theorem mem_without {D g : List Pull} {p : Pull} : p ∈ without D g ↔ p ∈ g ∧ p ∉ D := by
  simp [without]

theorem without_nil (g : List Pull) : without [] g = g := by simp [without]

theorem without_append (D F g : List Pull) : without F (without D g) = without (D ++ F) g := by
  simp only [without, List.filter_filter]
  congr 1
  funext p
  by_cases h1 : p ∈ D <;> by_cases h2 : p ∈ F <;> simp [h1, h2]

theorem without_eq_self {D g : List Pull} (h : ∀ p ∈ g, p ∉ D) : without D g = g := by
  simp only [without]
  rw [List.filter_eq_self]
  intro p hp
  simpa using h p hp

theorem without_of_polls (ws : List Poll) (h : (ws.map Poll.pull).Nodup) :
    (ws.filter (fun w => !w.isFin)).map Poll.pull = without ((ws.filter Poll.isFin).map Poll.pull) (ws.map Poll.pull) := by
  induction ws with
  | nil => rfl
  | cons w ws ih =>
    simp only [List.map_cons, List.nodup_cons] at h
    have ih := ih h.2
    have hnot : w.pull ∉ (ws.filter Poll.isFin).map Poll.pull := by
      intro hm
      apply h.1
      rw [List.mem_map] at hm ⊢
      obtain ⟨v, hv, hw⟩ := hm
      exact ⟨v, (List.mem_filter.mp hv).1, hw⟩
    cases hf : w.isFin
    · have hno : ∀ D : List Pull, w.pull ∉ D → without D (w.pull :: ws.map Poll.pull) = w.pull :: without D (ws.map Poll.pull) := by
        intro D hD
        simp [without, List.filter_cons, hD]
      simp only [List.filter_cons, hf, Bool.not_false, if_true, List.map_cons, Bool.false_eq_true, if_false]
      rw [hno _ hnot, ih]
    · simp only [List.filter_cons, hf, Bool.not_true, if_true, List.map_cons, Bool.false_eq_true, if_false]
      rw [ih]
      have : without (w.pull :: (ws.filter Poll.isFin).map Poll.pull) (w.pull :: ws.map Poll.pull) =
          without (w.pull :: (ws.filter Poll.isFin).map Poll.pull) (ws.map Poll.pull) := by
        simp [without, List.filter_cons]
      rw [this]
      simp only [without]
      apply List.filter_congr
      intro p hp
      have : p ≠ w.pull := by rintro rfl; exact h.1 hp
      simp [this]

theorem set_without {G : List (List Pull)} {k : Nat} {g F : List Pull} (hn : G.flatten.Nodup)
    (hk : G[k]? = some g) (hF : ∀ p ∈ F, p ∈ g) : G.set k (without F g) = G.map (without F) := by
  induction G generalizing k with
  | nil => simp at hk
  | cons g0 G ih =>
    simp only [List.flatten_cons, List.nodup_append] at hn
    cases k with
    | zero =>
      simp at hk
      subst hk
      simp
      symm
      apply map_eq_self
      intro g' hg'
      apply without_eq_self
      intro p hp hpF
      exact hn.2.2 p (hF p hpF) p (by rw [List.mem_flatten]; exact ⟨g', hg', hp⟩) rfl
    | succ k =>
      simp at hk
      simp
      refine ⟨?_, ih hn.2.1 hk⟩
      symm
      apply without_eq_self
      intro p hp hpF
      have hgm : g ∈ G := List.mem_of_getElem? hk
      exact hn.2.2 p hp p (by rw [List.mem_flatten]; exact ⟨g, hgm, hF p hpF⟩) rfl

/-- The non-empty groups. -/
def nonEmpty (G : List (List Pull)) : List (List Pull) := G.filter (fun g => !g.isEmpty)

theorem nonEmpty_map_nonEmpty (F : List Pull) (G : List (List Pull)) :
    nonEmpty ((nonEmpty G).map (without F)) = nonEmpty (G.map (without F)) := by
  induction G with
  | nil => rfl
  | cons g G ih =>
    simp only [nonEmpty] at ih ⊢
    cases g with
    | nil => simp [without, ih]
    | cons p g => simp [List.filter_cons, ih]

theorem flatten_nonEmpty (G : List (List Pull)) : (nonEmpty G).flatten = G.flatten := flatten_filter_nonempty G

theorem flatten_map_without (D : List Pull) (G : List (List Pull)) : (G.map (without D)).flatten = without D G.flatten := by
  induction G with
  | nil => rfl
  | cons g G ih => simp [without] at ih ⊢; exact ih

theorem nextGroups_without {G : List (List Pull)} {k : Nat} {ws : List Poll} (hn : G.flatten.Nodup)
    (h : (G[k]? = some (ws.map Poll.pull)) ∨ (k = G.length ∧ ws = [])) :
    nextGroups G k ws = nonEmpty (G.map (without ((ws.filter Poll.isFin).map Poll.pull))) := by
  unfold nextGroups nonEmpty
  rcases h with h | ⟨rfl, rfl⟩
  · have hw : (ws.map Poll.pull).Nodup := by
      have hmem : ws.map Poll.pull ∈ G := List.mem_of_getElem? h
      have : (ws.map Poll.pull).Sublist G.flatten := by
        obtain ⟨l1, l2, rfl⟩ := List.append_of_mem hmem
        simp
      exact hn.sublist this
    rw [without_of_polls ws hw, set_without hn h]
    intro p hp
    rw [List.mem_map] at hp ⊢
    obtain ⟨v, hv, rfl⟩ := hp
    exact ⟨v, (List.mem_filter.mp hv).1, rfl⟩
  · rw [List.set_eq_of_length_le (by simp)]
    congr 1
    symm
    apply map_eq_self
    intro g _
    exact without_eq_self (by simp)

/-- Every output has variation F and the message `d` taken from `s` found them all closed. -/
def AllGone (pushs : List Push) (s : End) (tr : List Ev) : Prop :=
  (∀ p ∈ pushs, p.breakable = .finish) ∧ ∃ t1 t t2 d rest, tr = t1 ++ t ++ t2 ∧ acts t = .got s d :: rest ∧
    (offers t).map (fun o => (o.to, o.d)) = toEach pushs d ∧ ∀ o ∈ offers t, ∃ why, o.w = .closed why

theorem AllGone.mono {pushs s tr} (a b : List Ev) (h : AllGone pushs s tr) : AllGone pushs s (a ++ tr ++ b) := by
  obtain ⟨h1, t1, t, t2, d, rest, rfl, h2⟩ := h
  exact ⟨h1, a ++ t1, t, t2 ++ b, d, rest, by simp, h2⟩

theorem outcomes_map_snd {pushs : List Push} (hs : AllSenders pushs) {ws : List WOut} (hl : ws.length ≤ pushs.length) :
    (outcomes pushs ws).map Prod.snd = ws := by
  induction pushs generalizing ws with
  | nil => cases ws <;> simp_all [outcomes]
  | cons p ps ih =>
    obtain ⟨j, c, rfl⟩ := hs p (by simp)
    cases ws with
    | nil => simp [outcomes]
    | cons w ws => simp [outcomes]; exact ih (fun q hq => hs q (by simp [hq])) (by simpa using hl)

/-- An input found finished has ended, or its message found all outputs gone. -/
theorem poll_fin {pushs spy} {w : Poll} (h : PollRun pushs spy w) (hs : AllSenders pushs) (hf : w.isFin = true) :
    ∃ s, w.pull.source = some s ∧ (Act.ended s ∈ acts w.tr ∨ AllGone pushs s w.tr) := by
  have hres : ∃ x, w.res = .ok x ∧ x.finished = true := by
    unfold Poll.isFin at hf; split at hf
    · exact ⟨_, by assumption, hf⟩
    · simp at hf
  obtain ⟨x, hx, hxf⟩ := hres
  have hok : w.isOk = true := by simp [Poll.isOk, hx]
  rcases poll_shape h with ⟨s, hs1, ha, hr⟩ | ⟨s, d, rest, hs1, ha, hq, _⟩ | ⟨s, rest, hs1, ha, hq, _⟩ | ⟨_, h0⟩
  · rw [hx] at hr; simp at hr; subst hr; simp at hxf
  · refine ⟨s, hs1, Or.inr ?_⟩
    have hrec : received w.tr = [d] := by
      have hmem : d ∈ received w.tr := by
        unfold received
        rw [List.mem_filterMap]
        exact ⟨.got s d, by simp [ha], rfl⟩
      have := (C05_fan_out h).1
      match hr : received w.tr with
      | [] => rw [hr] at hmem; simp at hmem
      | [d'] => rw [hr] at hmem; simp at hmem; simp [hmem]
      | _ :: _ :: _ => rw [hr] at this; simp at this
    unfold PollRun at h
    obtain ⟨_, _, h6⟩ := C06_pipe_variations h d hrec _ rfl
    obtain ⟨l1, _, l2⟩ := h6 x hx
    have hall := l2.mp hxf
    have hoff := poll_ok (w := w) h hok
    rw [hrec] at hoff
    simp at hoff
    refine ⟨?_, [], w.tr, [], d, rest, by simp, ha, hoff, ?_⟩
    · intro p hp
      rw [← l1, List.mem_map] at hp
      obtain ⟨y, hy, rfl⟩ := hp
      exact (hall y hy).1
    · intro o ho
      have hlen : ((offers w.tr).map Offer.w).length ≤ pushs.length := by
        have := congrArg List.length hoff
        simp [toEach] at this
        have h2 := List.length_filterMap_le Push.target pushs
        simp; omega
      have : o.w ∈ (outcomes pushs ((offers w.tr).map Offer.w)).map Prod.snd := by
        rw [outcomes_map_snd hs hlen, List.mem_map]; exact ⟨o, ho, rfl⟩
      rw [List.mem_map] at this
      obtain ⟨y, hy, hyo⟩ := this
      obtain ⟨_, why, hw⟩ := hall y hy
      exact ⟨why, by rw [← hyo, hw]⟩
  · exact ⟨s, hs1, Or.inl (by simp [ha])⟩
  · rw [hok] at h0; simp at h0

theorem poll_ended {pushs spy} {w : Poll} (h : PollRun pushs spy w) (hok : w.isOk = true) {s : End}
    (he : Act.ended s ∈ acts w.tr) : w.pull.source = some s ∧ w.isFin = true := by
  rcases poll_shape h with ⟨s', hs1, ha, hr⟩ | ⟨s', d, rest, hs1, ha, hq, _⟩ | ⟨s', rest, hs1, ha, hq, hres⟩ | ⟨_, h0⟩
  · rw [ha] at he; simp at he
  · rw [ha] at he
    simp at he
    have := hq _ he
    simp [Act.isQuiet] at this
  · rw [ha] at he
    simp at he
    rcases he with rfl | he
    · exact ⟨hs1, by simp [Poll.isFin, hres hok]⟩
    · have := hq _ he
      simp [Act.isQuiet] at this
  · rw [hok] at h0; simp at h0

theorem mem_acts_pollTrace {ws : List Poll} {a : Act} (h : a ∈ acts (pollTrace ws)) : ∃ w ∈ ws, a ∈ acts w.tr := by
  induction ws with
  | nil => simp at h
  | cons w ws ih =>
    simp at h
    rcases h with h | h
    · exact ⟨w, by simp, h⟩
    · obtain ⟨v, hv, h⟩ := ih h
      exact ⟨v, by simp [hv], h⟩

theorem split_pollTrace {ws : List Poll} {w : Poll} (h : w ∈ ws) : ∃ a b, pollTrace ws = a ++ w.tr ++ b := by
  obtain ⟨l1, l2, rfl⟩ := List.append_of_mem h
  exact ⟨pollTrace l1, pollTrace l2, by simp⟩

/-- The inputs are different channels. -/
def DistinctInputs (inputs : List (Pull × Int)) : Prop := (inputs.map (fun x => x.1.source)).Nodup

theorem DistinctInputs.nodup {inputs} (h : DistinctInputs inputs) : (inputs.map Prod.fst).Nodup := by
  unfold DistinctInputs at h
  have : inputs.map (fun x => x.1.source) = (inputs.map Prod.fst).map Pull.source := by simp
  rw [this] at h
  exact List.Pairwise.of_map _ (fun a b hab h => hab (by rw [h])) h

theorem DistinctInputs.inj {inputs} (h : DistinctInputs inputs) {p q : Pull} (hp : p ∈ inputs.map Prod.fst)
    (hq : q ∈ inputs.map Prod.fst) (hpq : p.source = q.source) : p = q := by
  unfold DistinctInputs at h
  induction inputs with
  | nil => simp at hp
  | cons x xs ih =>
    rw [List.map_cons, List.nodup_cons] at h
    rw [List.map_cons, List.mem_cons] at hp hq
    have hmm : ∀ {y : Pull}, y ∈ xs.map Prod.fst → y.source ∈ xs.map (fun x => x.1.source) := by
      intro y hy
      rw [List.mem_map] at hy ⊢
      obtain ⟨z, hz, rfl⟩ := hy
      exact ⟨z, hz, rfl⟩
    rcases hp with rfl | hp <;> rcases hq with rfl | hq
    · rfl
    · exact absurd (hpq ▸ hmm hq) h.1
    · exact absurd (hpq ▸ hmm hp) h.1
    · exact ih h.2 hp hq

theorem mem_init {inputs : List (Pull × Int)} {p : Pull} :
    p ∈ (initializeStdin inputs).flatten ↔ p ∈ inputs.map Prod.fst := by
  rw [initializeStdin_flatten]
  exact ((sortByPriority_perm inputs).map Prod.fst).mem_iff

theorem init_nodup {inputs : List (Pull × Int)} (h : DistinctInputs inputs) : (initializeStdin inputs).flatten.Nodup := by
  rw [initializeStdin_flatten]
  exact ((sortByPriority_perm inputs).map Prod.fst).nodup_iff.mpr h.nodup

/-- The invariant: the groups are the initial ones without the inputs `D` that have been dropped. -/
structure JInv (inputs : List (Pull × Int)) (pushs : List Push) (tr : List Ev) (s : JState) (D : List Pull) : Prop where
  groups : s.stdin = nonEmpty ((initializeStdin inputs).map (without D))
  gone : ∀ p ∈ D, p ∈ inputs.map Prod.fst ∧
    ∃ e, p.source = some e ∧ (Act.ended e ∈ acts tr ∨ AllGone pushs e tr)
  here : ∀ e, Act.ended e ∈ acts tr → ∃ p ∈ D, p.source = some e
  count : s.readCount = heard tr

theorem JInv.mem {inputs pushs tr s D} (h : JInv inputs pushs tr s D) {p : Pull} :
    p ∈ s.stdin.flatten ↔ p ∈ inputs.map Prod.fst ∧ p ∉ D := by
  rw [h.groups, flatten_nonEmpty, flatten_map_without, mem_without, mem_init]

theorem JInv.nodup {inputs pushs tr s D} (h : JInv inputs pushs tr s D) (hd : DistinctInputs inputs) : s.stdin.flatten.Nodup := by
  rw [h.groups, flatten_nonEmpty, flatten_map_without]
  exact (init_nodup hd).filter _

theorem heard_pollTrace {pushs spy} {ws : List Poll} (h : ∀ w ∈ ws, PollRun pushs spy w) (hok : ∀ w ∈ ws, w.isOk = true) :
    heard (pollTrace ws) = ws.countP Poll.isRead := by
  induction ws with
  | nil => rfl
  | cons w ws ih =>
    rw [pollTrace_cons, heard_append, ih (fun v hv => h v (by simp [hv])) (fun v hv => hok v (by simp [hv])), List.countP_cons]
    have hw := h w (by simp)
    have hk := hok w (by simp)
    have : heard w.tr = if w.isRead = true then 1 else 0 := by
      have cut : ∀ {a rest}, acts w.tr = a :: rest → (∀ b ∈ rest, b.isQuiet = false) →
          ∃ e, act e = a ∧ heard w.tr = heard [e] := by
        intro a rest ha hq
        match htr : w.tr, ha with
        | e :: u, ha =>
          simp at ha
          refine ⟨e, ha.1, ?_⟩
          have : heard (e :: u) = heard [e] + heard u := heard_append [e] u
          rw [this, quiet_heard (tr := u) (by rw [ha.2]; exact hq)]; rfl
      rcases poll_shape hw with ⟨s', hs1, ha, hr⟩ | ⟨s', d, rest, hs1, ha, hq, hr⟩ | ⟨s', rest, hs1, ha, hq, hres⟩ | ⟨_, h0⟩
      · simp [heard, received, endings, ha, Poll.isRead, hr]
      · obtain ⟨e, he, hh⟩ := cut ha hq
        rw [hh, if_pos (hr hk)]
        simp [heard, received, endings, he]
      · obtain ⟨e, he, hh⟩ := cut ha hq
        have h3 : w.isRead = true := by simp [Poll.isRead, hres hk]
        rw [hh, if_pos h3]
        simp [heard, received, endings, he]
      · rw [hk] at h0; simp at h0
    omega

theorem pass_ok {pushs spy G k ws1 ws2} (hp : Pass pushs spy G k ws1 ws2) (h : ∀ w ∈ ws2, w.isOk = true) :
    (∀ w ∈ ws1 ++ ws2, w.isOk = true) ∧ (∀ w ∈ ws1 ++ ws2, PollRun pushs spy w) := by
  constructor
  · intro w hw
    rw [List.mem_append] at hw
    rcases hw with hw | hw
    · simp [Poll.isOk, hp.skipped w hw]
    · exact h w hw
  · intro w hw
    rw [List.mem_append] at hw
    rcases hw with hw | hw
    · exact hp.runs1 w hw
    · exact hp.runs2 w hw

/-- One more pass. -/
theorem JInv.step {inputs pushs spy tr s D k ws1 ws2 tail} (hd : DistinctInputs inputs) (hs : AllSenders pushs)
    (h : JInv inputs pushs tr s D) (hp : Pass pushs spy s.stdin k ws1 ws2) (hok : ∀ w ∈ ws2, w.isOk = true)
    (hk : (s.stdin[k]? = some (ws2.map Poll.pull)) ∨ (k = s.stdin.length ∧ ws2 = []))
    (ht : Inert tail) (b : BackOff) :
    ∃ D', JInv inputs pushs (tr ++ (pollTrace (ws1 ++ ws2) ++ tail))
      ⟨nextGroups s.stdin k ws2, b, s.readCount + ws2.countP Poll.isRead⟩ D' ∧
      D' = D ++ (ws2.filter Poll.isFin).map Poll.pull := by
  obtain ⟨hokall, hrun⟩ := pass_ok hp hok
  refine ⟨_, ⟨?_, ?_, ?_, ?_⟩, rfl⟩
  · dsimp only
    rw [nextGroups_without (h.nodup hd) hk, h.groups, nonEmpty_map_nonEmpty, List.map_map]
    congr 1
    apply List.map_congr_left
    intro g _
    simp [without_append]
  · intro p hpD
    rw [List.mem_append] at hpD
    rcases hpD with hpD | hpD
    · obtain ⟨h1, e, h2, h3⟩ := h.gone p hpD
      refine ⟨h1, e, h2, ?_⟩
      rcases h3 with h3 | h3
      · left; simp [h3]
      · right; have := h3.mono [] (pollTrace (ws1 ++ ws2) ++ tail); simpa using this
    · rw [List.mem_map] at hpD
      obtain ⟨w, hw, rfl⟩ := hpD
      rw [List.mem_filter] at hw
      have hpg : w.pull ∈ s.stdin.flatten := by
        rcases hk with hk | ⟨_, rfl⟩
        · rw [List.mem_flatten]
          exact ⟨_, List.mem_of_getElem? hk, by rw [List.mem_map]; exact ⟨w, hw.1, rfl⟩⟩
        · simp at hw
      refine ⟨(h.mem.mp hpg).1, ?_⟩
      obtain ⟨e, h2, h3⟩ := poll_fin (hp.runs2 w hw.1) hs hw.2
      refine ⟨e, h2, ?_⟩
      obtain ⟨a, c, hsplit⟩ := split_pollTrace hw.1
      rcases h3 with h3 | h3
      · left; simp [hsplit, h3]
      · right
        have := h3.mono (tr ++ pollTrace ws1 ++ a) (c ++ tail)
        rw [pollTrace_append, hsplit]
        simpa using this
  · intro e he
    rw [acts_append, acts_append] at he
    simp only [List.mem_append] at he
    rcases he with he | he | he
    · obtain ⟨p, hp1, hp2⟩ := h.here e he
      exact ⟨p, by simp [hp1], hp2⟩
    · obtain ⟨w, hw, he⟩ := mem_acts_pollTrace he
      obtain ⟨h1, h2⟩ := poll_ended (hrun w hw) (hokall w hw) he
      rw [List.mem_append] at hw
      rcases hw with hw | hw
      · rw [Poll.isFin, hp.skipped w hw] at h2; simp at h2
      · refine ⟨w.pull, ?_, h1⟩
        rw [List.mem_append]; right
        rw [List.mem_map]
        exact ⟨w, by rw [List.mem_filter]; exact ⟨hw, h2⟩, rfl⟩
    · exact absurd he (ht.proj.2.2.1 e)
  · dsimp only
    rw [heard_append, heard_append, ← h.count, heard_pollTrace hrun hokall]
    have : ws1.countP Poll.isRead = 0 := by
      rw [List.countP_eq_zero]
      intro w hw
      simp [Poll.isRead, hp.skipped w hw]
    have ht' : heard tail = 0 := by
      obtain ⟨t1, _, _, _, _, t2⟩ := ht.proj
      simp [heard, t1, t2]
    rw [List.countP_append]
    omega

theorem JInv.init {inputs pushs} : JInv inputs pushs [] (junctionInit inputs) [] := by
  refine ⟨?_, by simp, by simp, rfl⟩
  show initializeStdin inputs = _
  have : (initializeStdin inputs).map (without []) = initializeStdin inputs := by
    apply map_eq_self; intro g _; exact without_nil g
  rw [this]
  unfold nonEmpty
  symm
  rw [List.filter_eq_self]
  intro g hg
  cases hs : sortByPriority inputs with
  | nil => rw [initializeStdin_nil inputs hs] at hg; simp at hg
  | cons x xs =>
    rw [initializeStdin_eq inputs x xs hs] at hg
    simp at hg
    rcases hg with rfl | ⟨a, b, _, rfl⟩ <;> simp

theorem JInv.rounds {inputs pushs spy tr s0 t0 D0 s} (hd : DistinctInputs inputs) (hs : AllSenders pushs)
    (h0 : JInv inputs pushs t0 s0 D0) (h : LoopRounds (junctionBody pushs spy) s0 tr s) :
    ∃ D, JInv inputs pushs (t0 ++ tr) s D ∧ ∀ p ∈ D0, p ∈ D := by
  induction h generalizing t0 D0 with
  | nil => exact ⟨D0, by simpa using h0, fun p hp => hp⟩
  | @next a b c t t' hb _ ih =>
    obtain ⟨k, ws1, ws2, tail, rfl, hp, hend⟩ := junctionBody_inv hb hs
    have hin := inert_of_tail hs hend
    rcases hend with ⟨_, _, _, h, _⟩ | ⟨hok, hk, ⟨s', hx, hs1, _, hs2, _⟩ | ⟨_, h, _⟩⟩
    · simp at h
    · simp at hx; subst hx
      have hk' : (a.stdin[k]? = some (ws2.map Poll.pull)) ∨ (k = a.stdin.length ∧ ws2 = []) := by
        rcases hk with ⟨h, _⟩ | h
        · exact Or.inl h
        · exact Or.inr h
      obtain ⟨D', hJ, hD'⟩ := h0.step hd hs hp hok hk' hin b.backOff
      have : (⟨nextGroups a.stdin k ws2, b.backOff, a.readCount + ws2.countP Poll.isRead⟩ : JState) = b := by
        cases b; simp at hs1 hs2; simp [hs1, hs2]
      rw [this] at hJ
      obtain ⟨D, h1, h2⟩ := ih hJ
      refine ⟨D, by simpa using h1, ?_⟩
      intro p hp
      exact h2 p (by rw [hD']; simp [hp])
    · simp at h

end Verif
