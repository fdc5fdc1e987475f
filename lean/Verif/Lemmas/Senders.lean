import Verif.Lemmas.Blame
import Verif.Lemmas.Busy
import Verif.Props.BufferReports
/-!
# Who uses which channel of a runtime
-/
namespace Verif

/-- The channels of a count. -/
def countChans (sender : Option Nat) (mIn mOut : Nat) : List (Kind × Nat) := (sender.map fun c => (Kind.size, c)).toList ++ [(.mon, mIn), (.mon, mOut)]

theorem total_within {sender : Option Nat} {mIn mOut : Nat} (s : Total) : (totalBody sender mIn mOut s).Only (Within (countChans sender mIn mOut)) := by
  have onIn : ∀ {q : Req}, q.on = some (.mon, mIn) → Within (countChans sender mIn mOut) q := by
    intro q h kc hkc; rw [h] at hkc; cases hkc; simp [countChans]
  have onOut : ∀ {q : Req}, q.on = some (.mon, mOut) → Within (countChans sender mIn mOut) q := by
    intro q h kc hkc; rw [h] at hkc; cases hkc; simp [countChans]
  have off : ∀ {q : Req}, q.on = none → Within (countChans sender mIn mOut) q := by
    intro q h kc hkc; rw [h] at hkc; cases hkc
  have rest : ∀ b m n l, (totalRest sender mIn mOut b m n l).Only (Within (countChans sender mIn mOut)) := by
    intro b m n l
    unfold totalRest
    refine Prog.Only.bind ?_ fun x => ?_
    · unfold reportSize
      cases hs : sender with
      | none => exact trivial
      | some c =>
        show Prog.Only _ (if l ≠ n then _ else _)
        split
        · refine Prog.Only.bind (p := req _) (Prog.only_req ?_) fun _ => trivial
          intro kc hkc; cases hkc; simp [countChans]
        · exact trivial
    obtain ⟨x1, x2⟩ := x
    show Prog.Only _ (if x2 = false then _ else _)
    split
    · exact Prog.only_pure _
    · refine Prog.Only.bind (Prog.only_req (onIn rfl)) fun y => ?_
      refine Prog.Only.bind ?_ fun z => ?_
      · split
        · exact Prog.only_req (onOut rfl)
        · exact Prog.only_pure _
      · obtain ⟨z1, z2⟩ := z
        show Prog.Only _ (if (y.1 && y.2 && z1 && z2) = true then _ else _)
        split
        · exact Prog.only_pure _
        · split
          · exact Prog.only_pure _
          · exact Prog.Only.bind (Prog.Only.bind (Prog.only_req (off rfl)) fun _ => Prog.only_pure _) fun _ => Prog.only_pure _
  unfold totalBody
  refine Prog.Only.bind (Prog.only_req (onIn rfl)) fun x => ?_
  have second : ∀ size moved, Prog.Only (Within (countChans sender mIn mOut))
      (req (.tryRecv .mon mOut) >>= fun y => match y with
        | .got (.wrote _) => pure (.inr .wrongMessage)
        | .got (.read _) => if size = 0 then pure (.inr .underflow) else totalRest sender mIn mOut s.backOff true (size - 1) s.last
        | _ => totalRest sender mIn mOut s.backOff moved size s.last) := by
    intro size moved
    refine Prog.Only.bind (Prog.only_req (onOut rfl)) fun y => ?_
    cases y with
    | got m => cases m with
      | wrote => exact Prog.only_pure _
      | read =>
        show Prog.Only _ (if size = 0 then _ else _)
        split
        · exact Prog.only_pure _
        · exact rest _ _ _ _
    | empty => exact rest _ _ _ _
    | closed => exact rest _ _ _ _
  cases x with
  | got m => cases m with
    | wrote => exact second (s.size + 1) true
    | read => exact Prog.only_pure _
  | empty => exact second s.size false
  | closed => exact second s.size false

theorem count_uses {sender : Option Nat} {mIn mOut : Nat} {tr : List Ev} (h : (totalTask sender mIn mOut).Partial tr) : ∀ e ∈ tr, Within (countChans sender mIn mOut) e.q :=
  Task.only (t := totalTask sender mIn mOut) (P := Within (countChans sender mIn mOut)) (fun s => total_within s) (by intro kc hkc x hx; simp [Req.on] at hx; subst hx; exact hkc) h

/-- A count sends no notifications. -/
theorem count_noNews {sender : Option Nat} {mIn mOut : Nat} {tr : List Ev} (h : (totalTask sender mIn mOut).Partial tr) :
    ∀ e ∈ tr, (∃ c, e.q = .tryRecv .mon c) ∨ (∃ c, e.q = .stat .mon c) ∨ (∃ ms, e.q = .sleep ms) ∨ (∃ c v, sender = some c ∧ e.q = .send .size c v) ∨ ∃ k c, e.q = .close k c :=
  Task.only (t := totalTask sender mIn mOut) (P := fun q => (∃ c, q = .tryRecv .mon c) ∨ (∃ c, q = .stat .mon c) ∨ (∃ ms, q = .sleep ms) ∨ (∃ c v, sender = some c ∧ q = .send .size c v) ∨ ∃ k c, q = .close k c)
    (fun s => (total_requests s).mono (by
      rintro q (h | h | h | h)
      · exact Or.inl h
      · exact Or.inr (Or.inl h)
      · exact Or.inr (Or.inr (Or.inl h))
      · exact Or.inr (Or.inr (Or.inr (Or.inl h))))) (fun kc _ => Or.inr (Or.inr (Or.inr (Or.inr ⟨_, _, rfl⟩)))) h

section
variable {c : Config} {hs : List Hop} {w : Waiter} {cs : List Capture} {cap : Caps} {τ : List (Who × Ev)} {st : Store}

theorem Rigged.buffer_mentioned (A : Rigged c hs w) {r : CompRef} {k : Comp} (h : w.comps.get r = some k) : Mentioned hs r := by
  by_cases hm : Mentioned hs r
  · exact hm
  · rw [A.only r hm] at h; cases h

theorem Rigged.watched (A : Rigged c hs w) (T : Attended cs w) {a : Capture} (ha : a ∈ cs) {x : Str} (hx : x ∈ a.buffers) : Mentioned hs (.buffer, x) := by
  obtain ⟨i, o, h⟩ := T.monitored x (List.mem_flatMap.mpr ⟨a, ha, hx⟩)
  exact A.buffer_mentioned h

theorem Rigged.steered (A : Rigged c hs w) (T : Attended cs w) {a : Capture} (ha : a ∈ cs) : Mentioned hs (.regulator, a.regulator) := by
  obtain ⟨i, o, h⟩ := T.controlled _ (List.mem_map.mpr ⟨a, ha, rfl⟩)
  exact A.buffer_mentioned h

/-- The channels of a manager are distinct. -/
theorem Rigged.chans_nodup (A : Rigged c hs w) (T : Attended cs w) {a : Capture} (ha : a ∈ cs) : (a.buffers.map fun b => w.idOf (.buffer, b)).Nodup := by
  have h1 : a.buffers.Nodup := by
    have := T.bufs
    clear T
    induction cs with
    | nil => cases ha
    | cons b cs ih =>
      rw [List.flatMap_cons, List.nodup_append] at this
      rcases List.mem_cons.mp ha with rfl | ha
      · exact this.1
      · exact ih ha this.2.1
  have h2 : ∀ x ∈ a.buffers, Mentioned hs (.buffer, x) := fun x hx => A.watched T ha hx
  generalize a.buffers = l at h1 h2
  induction l with
  | nil => simp
  | cons x l ih =>
    rw [List.nodup_cons] at h1
    rw [List.map_cons, List.nodup_cons]
    refine ⟨fun hm => ?_, ih h1.2 fun y hy => h2 y (by simp [hy])⟩
    obtain ⟨y, hy, he⟩ := List.mem_map.mp hm
    have := A.distinct _ _ (h2 y (by simp [hy])) (h2 x (by simp)) he
    simp only [Prod.mk.injEq, true_and] at this
    subst this
    exact h1.1 hy

/-- Who uses a channel not for data, and how. -/
theorem Rigged.users (A : Rigged c hs w) (hC : Complete hs) (T : Attended cs w) (hr : w.Run cs cap τ) {i : Who} {e : Ev} (hy : (i, e) ∈ τ) {k : Kind} {ch : Nat} (hq : e.q.on = some (k, ch)) :
    k = .data ∨
    (k = .mon ∧ ∃ x, Mentioned hs (.buffer, x) ∧ (ch = 2 * w.idOf (.buffer, x) ∧ (i = .part (.buffer, x) .input ∨ i = .part (.buffer, x) .count) ∨
      ch = 2 * w.idOf (.buffer, x) + 1 ∧ (i = .part (.buffer, x) .output ∨ i = .part (.buffer, x) .count))) ∨
    (k = .size ∧ ∃ a ∈ cs, ∃ x ∈ a.buffers, ch = w.idOf (.buffer, x) ∧ (i = .part (.buffer, x) .count ∨ i = .manager a.regulator)) ∨
    (k = .ctl ∧ ∃ a ∈ cs, ch = w.idOf (.regulator, a.regulator) ∧ (i = .part (.regulator, a.regulator) .main ∨ i = .manager a.regulator)) := by
  have hmem : e ∈ proj i τ := mem_proj.mpr hy
  cases hn : w.node i with
  | some n =>
    rcases A.kindsAll hC hn (hr.exec.tasks _ _ (sys_node hn)) hmem hq with h | ⟨rfl, x, hm, h⟩ | ⟨rfl, x, hm, h1, h2, a, b, h3⟩
    · exact Or.inl h
    · refine Or.inr (Or.inl ⟨rfl, x, hm, ?_⟩)
      rcases h with ⟨h, h'⟩ | ⟨h, h'⟩
      · exact Or.inl ⟨h, Or.inl h'⟩
      · exact Or.inr ⟨h, Or.inl h'⟩
    · have := (T.control _ _ _ _ h3).mp rfl
      obtain ⟨a, ha, rfl⟩ := List.mem_map.mp this
      exact Or.inr (Or.inr (Or.inr ⟨rfl, a, ha, h1, Or.inl h2⟩))
  | none =>
    cases ht : w.sys cs i with
    | none => exact absurd ht (hr.known _ hy)
    | some t =>
      have hp := hr.exec.tasks _ _ ht
      rcases A.others hC ht hn with ⟨r, e', ch', g, he, _, rfl, _⟩ | ⟨r, m, rfl, hr', hm, rfl, a, b, hk⟩ | ⟨r, a, rfl, ha, rfl, rfl⟩ | ⟨r, y, rfl, _, rfl, _⟩
      rotate_right
      · rw [dropTask_only hp e hmem] at hq
        simp [Req.on] at hq
        exact Or.inl hq.1.symm
      · have := Task.only (t := exitTask e') (fun _ => exitBody_only e') (by simp [exitTask]) hp _ hmem
        left
        rcases this with h | h | ⟨_, h⟩ | h <;> rw [h] at hq <;> simp [Req.on] at hq
        · exact hq.1.symm
        · exact hq.1.symm
      · obtain ⟨ty, x⟩ := r
        simp only at hr'
        subst hr'
        have := count_uses hp e hmem _ hq
        simp only [countChans, List.mem_append, Option.mem_toList, Option.map_eq_some_iff, List.mem_cons, List.not_mem_nil, or_false] at this
        rcases this with ⟨c', h1, h2⟩ | h2 | h2
        · cases m with
          | false => simp at h1
          | true =>
            simp at h1
            subst h1
            cases h2
            have := (T.monitor _ _ _ _ hk).mp rfl
            obtain ⟨a, ha, hx⟩ := List.mem_flatMap.mp this
            exact Or.inr (Or.inr (Or.inl ⟨rfl, a, ha, x, hx, rfl, Or.inl rfl⟩))
        · cases h2
          exact Or.inr (Or.inl ⟨rfl, x, hm, Or.inl ⟨rfl, Or.inr rfl⟩⟩)
        · cases h2
          exact Or.inr (Or.inl ⟨rfl, x, hm, Or.inr ⟨rfl, Or.inr rfl⟩⟩)
      · right; right
        have size : ∀ {ch}, ch ∈ (a.buffers.map fun b => w.idOf (.buffer, b)) → ∃ a' ∈ cs, ∃ x ∈ a'.buffers, ch = w.idOf (.buffer, x) ∧ (Who.manager a.regulator = .part (.buffer, x) .count ∨ Who.manager a.regulator = .manager a'.regulator) := by
          intro ch h
          obtain ⟨x, hx, rfl⟩ := List.mem_map.mp h
          exact ⟨a, ha, x, hx, rfl, Or.inr rfl⟩
        rcases manager_looks (A.chans_nodup T ha) hp e hmem with ⟨c', h1, h2⟩ | h2 | ⟨_, h2⟩ | ⟨k', c', h2, h3⟩ <;> rw [h2] at hq <;> simp [Req.on] at hq
        · obtain ⟨rfl, rfl⟩ := hq
          exact Or.inl ⟨rfl, size h1⟩
        · obtain ⟨rfl, rfl⟩ := hq
          exact Or.inr ⟨rfl, a, ha, rfl, Or.inr rfl⟩
        · obtain ⟨rfl, rfl⟩ := hq
          simp only [managerTask, List.mem_cons, Prod.mk.injEq] at h3
          rcases h3 with ⟨rfl, rfl⟩ | h3
          · exact Or.inr ⟨rfl, a, ha, rfl, Or.inr rfl⟩
          · obtain ⟨c'', h4, h5⟩ := List.mem_map.mp h3
            cases h5
            exact Or.inl ⟨rfl, size h4⟩

/-- A buffer of a runtime is one whose channels nobody else uses. -/
theorem Rigged.bufferOwn (A : Rigged c hs w) (hC : Complete hs) (T : Attended cs w) (hr : w.Run cs cap τ) {x : Str} (hm : Mentioned hs (.buffer, x)) :
    ∃ a b m, w.comps.get (.buffer, x) = some (.buffer (some a) (some b) m) ∧
      BufferOwn cap (w.sys cs) τ (.part (.buffer, x) .input) (.part (.buffer, x) .output) (.part (.buffer, x) .count)
        ⟨a.chan, w.chans + w.idOf (.buffer, x), 2 * w.idOf (.buffer, x), 2 * w.idOf (.buffer, x) + 1, if m then some (w.idOf (.buffer, x)) else none, none⟩ ⟨a.src, a.dst⟩ b.push := by
  obtain ⟨a, b, m, hk⟩ := A.bufferNodes hC rfl hm
  have W := A.wired hC
  have hin : w.node (.part (.buffer, x) .input) = some (.relay a.pull { written := some (2 * w.idOf (.buffer, x)) } none (.sender ⟨0, none, 0, b.breakable⟩ (w.chans + w.idOf (.buffer, x)))) := by
    simp only [Waiter.node, hk, Comp.node]
  have hout : w.node (.part (.buffer, x) .output) = some (.relay (.receiver ⟨0, 0⟩ (w.chans + w.idOf (.buffer, x))) { read := some (2 * w.idOf (.buffer, x) + 1) } none b.push) := by
    simp only [Waiter.node, hk, Comp.node]
  have hop : ∀ {ch h}, hs[ch]? = some h → ch ≠ w.chans + w.idOf (.buffer, x) := by
    intro ch h h1 h2
    have := (List.getElem?_eq_some_iff.mp h1).1
    rw [A.chans] at h2
    omega
  have same : ∀ {z}, Mentioned hs (.buffer, z) → w.idOf (.buffer, z) = w.idOf (.buffer, x) → z = x := by
    intro z hz h
    simpa using A.distinct _ _ hz hm h
  refine ⟨a, b, m, hk, ⟨hr.exec, sys_node hin, sys_node hout, ?_, by simp, by simp, by simp, ?_, ?_, ?_, ?_⟩⟩
  · simp only [Waiter.sys, hk, Comp.node, Comp.other]; rfl
  · rintro ⟨i, e⟩ hy kc hq hkc
    simp only [List.mem_cons, List.not_mem_nil, or_false] at hkc
    rcases hkc with rfl | rfl | rfl
    · cases hn : w.node i with
      | some n =>
        obtain ⟨r, p, k, rfl, hme, _, _, hkn⟩ := A.node_inv hn
        have hok : n.Ok := W.ok (.part r p) n hn
        rcases node_within hok (hr.exec.tasks _ _ (sys_node hn)) (mem_proj.mpr hy) hq with h | h
        · rcases (A.sources hn _).mp h with ⟨h, h1, _⟩ | ⟨h1, rfl, h3⟩
          · exact absurd rfl (hop h1)
          · obtain ⟨ty, z⟩ := r
            simp only at h1
            subst h1
            rw [same hme (by omega)]; simp
        · rcases (A.targets hn _).mp h with ⟨h, h1, _⟩ | ⟨h1, rfl, h3⟩
          · exact absurd rfl (hop h1)
          · obtain ⟨ty, z⟩ := r
            simp only at h1
            subst h1
            rw [same hme (by omega)]; simp
      | none =>
        cases ht : w.sys cs i with
        | none => exact absurd ht (hr.known _ hy)
        | some t =>
          obtain ⟨g, h1, _⟩ := A.touches hC ht hn (hr.exec.tasks _ _ ht) e (mem_proj.mpr hy) _ hq
          exact absurd rfl (hop h1)
    · rcases A.users hC T hr hy hq with h | ⟨_, z, hz, ⟨h1, h2⟩ | ⟨h1, h2⟩⟩ | ⟨h, _⟩ | ⟨h, _⟩
      · cases h
      · rw [same hz (by omega)] at h2
        rcases h2 with rfl | rfl <;> simp
      · omega
      · cases h
      · cases h
    · rcases A.users hC T hr hy hq with h | ⟨_, z, hz, ⟨h1, h2⟩ | ⟨h1, h2⟩⟩ | ⟨h, _⟩ | ⟨h, _⟩
      · cases h
      · omega
      · rw [same hz (by omega)] at h2
        rcases h2 with rfl | rfl <;> simp
      · cases h
      · cases h
  · have h1 : End.chan a.chan ∈ (Node.relay a.pull { written := some (2 * w.idOf (.buffer, x)) } none (.sender ⟨0, none, 0, b.breakable⟩ (w.chans + w.idOf (.buffer, x)))).sources := by
      simp [Node.sources, PullEnd.pull, Pull.source]
    rcases (A.sources hin _).mp h1 with ⟨h, h2, _⟩ | ⟨_, h2, _⟩
    · exact hop h2
    · cases h2
  · simp
  · have h1 : End.chan b.chan ∈ (Node.relay (.receiver ⟨0, 0⟩ (w.chans + w.idOf (.buffer, x))) { read := some (2 * w.idOf (.buffer, x) + 1) } none b.push).targets := by
      simp [Node.targets, PushEnd.push, Push.target]
    rcases (A.targets hout _).mp h1 with ⟨h, h2, _⟩ | ⟨_, h2, _⟩
    · have := hop h2
      simp [PushEnd.push, Push.owned]
      exact fun h => this h.symm
    · cases h2


/-- Sizes are sent by counts and taken by managers. -/
theorem Rigged.sizes (A : Rigged c hs w) (hC : Complete hs) (T : Attended cs w) (hr : w.Run cs cap τ) {a : Capture} (ha : a ∈ cs) {x : Str} (hx : x ∈ a.buffers)
    (hst : execAll cap Store.init (τ.map Prod.snd) = some st) :
    sentOn .size (w.idOf (.buffer, x)) (proj (.part (.buffer, x) .count) τ) = gotOn .size (w.idOf (.buffer, x)) (proj (.manager a.regulator) τ) ++ (st .size (w.idOf (.buffer, x))).q := by
  have user : ∀ {i e}, (i, e) ∈ τ → e.q.on = some (.size, w.idOf (.buffer, x)) → i = .part (.buffer, x) .count ∨ i = .manager a.regulator := by
    intro i e hy hq
    rcases A.users hC T hr hy hq with h | ⟨h, _⟩ | ⟨_, a', ha', z, hz, h1, h2⟩ | ⟨h, _⟩
    · cases h
    · cases h
    · have := A.distinct _ _ (A.watched T ha hx) (A.watched T ha' hz) h1
      simp only [Prod.mk.injEq, true_and] at this
      subst this
      rcases h2 with h2 | h2
      · exact Or.inl h2
      · right
        have : a' = a := by
          have hb := T.bufs
          clear hr A T
          induction cs with
          | nil => cases ha
          | cons b cs ih =>
            rw [List.flatMap_cons, List.nodup_append] at hb
            rcases List.mem_cons.mp ha with e1 | m1 <;> rcases List.mem_cons.mp ha' with e2 | m2
            · rw [e1, e2]
            · subst e1
              exact absurd rfl (hb.2.2 _ hx _ (List.mem_flatMap.mpr ⟨a', m2, hz⟩))
            · subst e2
              exact absurd rfl (hb.2.2 _ hz _ (List.mem_flatMap.mpr ⟨a, m1, hx⟩))
            · exact ih m1 m2 hb.2.1
        rw [h2, this]
    · cases h
  have f := fifo hst .size (w.idOf (.buffer, x))
  rw [sentOn_proj (i := .part (.buffer, x) .count) (by
    rintro ⟨i, e⟩ hy hs'
    rcases user hy (on_sent hs') with h | h
    · exact h
    · exfalso
      subst h
      obtain ⟨v, rfl⟩ := sent_req hs'
      rcases manager_looks (A.chans_nodup T ha) (hr.exec.tasks _ _ (T.manages ha)) _ (mem_proj.mpr hy) with ⟨_, _, h⟩ | h | ⟨_, h⟩ | ⟨_, _, h, _⟩ <;> simp at h),
    gotOn_proj (i := .manager a.regulator) (by
    rintro ⟨i, e⟩ hy hs'
    rcases user hy (on_got hs') with h | h
    · exfalso
      subst h
      obtain ⟨ai, bo, m, hk, B⟩ := A.bufferOwn hC T hr (A.watched T ha hx)
      rcases count_noNews (hr.exec.tasks _ _ B.cnt) _ (mem_proj.mpr hy) with ⟨_, h⟩ | ⟨_, h⟩ | ⟨_, h⟩ | ⟨_, _, _, h⟩ | ⟨_, _, h⟩ <;>
        rcases got_req hs' with h' | h' <;> rw [h] at h' <;> simp at h'
    · exact h)] at f
  simpa [Store.init] using f

/-- Requests are sent by managers and taken by regulators. -/
theorem Rigged.controls (A : Rigged c hs w) (hC : Complete hs) (T : Attended cs w) (hr : w.Run cs cap τ) {a : Capture} (ha : a ∈ cs)
    (hst : execAll cap Store.init (τ.map Prod.snd) = some st) :
    sentOn .ctl (w.idOf (.regulator, a.regulator)) (proj (.manager a.regulator) τ) =
      gotOn .ctl (w.idOf (.regulator, a.regulator)) (proj (.part (.regulator, a.regulator) .main) τ) ++ (st .ctl (w.idOf (.regulator, a.regulator))).q := by
  have user : ∀ {i e}, (i, e) ∈ τ → e.q.on = some (.ctl, w.idOf (.regulator, a.regulator)) → i = .part (.regulator, a.regulator) .main ∨ i = .manager a.regulator := by
    intro i e hy hq
    rcases A.users hC T hr hy hq with h | ⟨h, _⟩ | ⟨h, _⟩ | ⟨_, a', ha', h1, h2⟩
    · cases h
    · cases h
    · cases h
    · have := A.distinct _ _ (A.steered T ha) (A.steered T ha') h1
      simp only [Prod.mk.injEq, true_and] at this
      rw [this]; exact h2
  have f := fifo hst .ctl (w.idOf (.regulator, a.regulator))
  rw [sentOn_proj (i := .manager a.regulator) (by
    rintro ⟨i, e⟩ hy hs'
    rcases user hy (on_sent hs') with h | h
    · exfalso
      subst h
      obtain ⟨v, rfl⟩ := sent_req hs'
      obtain ⟨i, o, hk⟩ := T.controlled _ (List.mem_map.mpr ⟨a, ha, rfl⟩)
      obtain ⟨i', o', m, hk'⟩ := A.regulatorNode hC rfl (A.steered T ha)
      rw [hk] at hk'; cases hk'
      have hn : w.node (.part (.regulator, a.regulator) .main) = some (.regulator i'.pull o'.push none (some (w.idOf (.regulator, a.regulator)))) := by
        simp only [Waiter.node, hk, Comp.node]; rfl
      have := Task.only (t := (Node.regulator i'.pull o'.push none (some (w.idOf (.regulator, a.regulator)))).task) (P := fun q => ∀ c v, q ≠ .send .ctl c v) (fun s => regulator_noSend)
        (by intro kc _ c v h; cases h) (hr.exec.tasks _ _ (sys_node hn)) _ (mem_proj.mpr hy)
      exact this _ _ rfl
    · exact h),
    gotOn_proj (i := .part (.regulator, a.regulator) .main) (by
    rintro ⟨i, e⟩ hy hs'
    rcases user hy (on_got hs') with h | h
    · exact h
    · exfalso
      subst h
      rcases manager_looks (A.chans_nodup T ha) (hr.exec.tasks _ _ (T.manages ha)) _ (mem_proj.mpr hy) with ⟨_, _, h⟩ | h | ⟨_, h⟩ | ⟨_, _, h, _⟩ <;>
        rcases got_req hs' with h' | h' <;> rw [h] at h' <;> simp at h')] at f
  simpa [Store.init] using f

end
end Verif
