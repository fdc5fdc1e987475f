import Verif.Lemmas.Blame
import Verif.Spec.Jam
/-!
# Why nothing stays in the channels of a pipeline that stands still
-/
namespace Verif

/-- Once its end has been seen nothing is in a channel. -/
theorem ended_empty {ι : Type} [DecidableEq ι] {cap : Caps} {τ : List (ι × Ev)} {st : Store} {b : ι} {ch : Nat} (h : execAll cap Store.init (τ.map Prod.snd) = some st)
    (hend : Act.ended (.chan ch) ∈ acts (proj b τ)) : (st .data ch).q = [] ∧ (st .data ch).closed = true := by
  obtain ⟨e, hm, he⟩ := List.mem_map.mp hend
  obtain ⟨τ1, τ2, rfl⟩ := List.append_of_mem (mem_proj.mp hm)
  rw [List.map_append] at h
  obtain ⟨s1, g1, g2⟩ := execAll_split h
  obtain ⟨s2, g3, g4⟩ := execAll_cons g2
  have hfin : (s1 .data ch).q = [] ∧ (s1 .data ch).closed = true := by
    rcases ended_event he with rfl | rfl
    · exact ⟨(exec_recv_none g3).1, (exec_recv_none g3).2.1⟩
    · exact ⟨(exec_try_closed g3).1, (exec_try_closed g3).2.1⟩
  have f := fifo g2 .data ch
  rw [hfin.1, shut_sent g2 hfin.2] at f
  simp at f
  exact ⟨f.2, (closed_iff g2 .data ch).mpr (Or.inl hfin.2)⟩

/-- What reads from a stream reads from nothing else. -/
theorem reading_sources {n : Node} {tr : List Ev} {h : Nat} (hok : n.Ok) (hq : n.task.Awaits tr (.streamRead h)) : n.sources = [.handle h] := by
  have := (node_conduct hok (hq.step (.line []))).got (.handle h) [] (by simp [act])
  cases n with
  | relay pull mon spy push =>
    simp only [Node.sources] at this ⊢
    cases hs : pull.source <;> simp [hs] at this ⊢
    exact this.symm
  | regulator pull push spy ctl =>
    simp only [Node.sources] at this ⊢
    cases hs : pull.source <;> simp [hs] at this ⊢
    exact this.symm
  | junction inputs pushs spy =>
    exfalso
    obtain ⟨x, hx, hxs⟩ := List.mem_filterMap.mp this
    obtain ⟨jj, c, hp⟩ := hok.2.1 x hx
    rw [hp] at hxs; cases hxs

section
variable {c : Config} {hs : List Hop} {w : Waiter} {cs : List Capture} {cap : Caps} {τ : List (Who × Ev)} {st : Store}

/-- Waiting for something to come, and nothing has. -/
def Waiter.Hungry (w : Waiter) (st : Store) (τ : List (Who × Ev)) (i : Who) : Prop :=
  w.net.Idle st τ i ∨ w.Reading τ i ∨ ∃ n ch, w.node i = some n ∧ n.sources = [.chan ch] ∧ (st .data ch).q = [] ∧ (st .data ch).closed = false

theorem unclosed (hst : execAll cap Store.init (τ.map Prod.snd) = some st) {i : Who} {ch : Nat} (h : (st .data ch).closed = false) : (Kind.data, ch) ∉ closings (proj i τ) := by
  intro hcl
  rw [closing_closed hst hcl] at h; cases h

/-- Whatever a hungry activity can read from and has not given up is empty. -/
theorem Rigged.hungry_empty (A : Rigged c hs w) (hC : Complete hs) (hst : execAll cap Store.init (τ.map Prod.snd) = some st) {i : Who} {n : Node} (hn : w.node i = some n)
    (h : w.Hungry st τ i) {ch : Nat} (hs' : .chan ch ∈ n.sources) (hcl : (Kind.data, ch) ∉ closings (proj i τ)) : (st .data ch).q = [] := by
  have W := A.wired hC
  rcases h with ⟨inputs, pushs, spy, hn', _, hall⟩ | ⟨n', hd, hn', hq⟩ | ⟨n', ch', hn', h1, h2, _⟩
  · have hn' : w.node i = some (.junction inputs pushs spy) := hn'
    rw [hn] at hn'; cases hn'
    by_cases he : Act.ended (.chan ch) ∈ acts (proj i τ)
    · exact (ended_empty hst he).1
    · exact (hall ch hs' ⟨he, fun _ e => by cases e; exact hcl⟩).1
  · rw [hn] at hn'; cases hn'
    rw [reading_sources (W.ok i n hn) hq] at hs'
    simp at hs'
  · rw [hn] at hn'; cases hn'
    rw [h1] at hs'; simp at hs'; subst hs'; exact h2

/-- What reads from a program. -/
theorem Rigged.launch_stream (A : Rigged c hs w) {x : Str} {p : Piece} {m : Node} (hm : w.node (.part (.launch, x) p) = some m) (hp : p ∈ [Piece.output, .error]) :
    (∃ hd, m.sources = [.handle hd]) ∧ ∃ h ∈ hs, ¬ h.isExit ∧ h.from = (.launch, x) ∧ h.writer = .part (.launch, x) p := by
  have key : (∃ hd, m.sources = [.handle hd]) ∧ ∃ ch, .chan ch ∈ m.targets := by
    obtain ⟨r, p', k, e1, hme, hk, hpl, hkn⟩ := A.node_inv hm
    simp only [Who.part.injEq] at e1
    obtain ⟨e1, e2⟩ := e1
    subst e1 e2
    rw [expected_launch _ _ _ _ rfl] at hpl
    rw [plain_launch hpl] at hkn
    simp only [List.mem_cons, List.not_mem_nil, or_false] at hp
    rcases hp with rfl | rfl
    all_goals
      simp only [Comp.node, LaunchEnds.pipe, fromStream] at hkn
      split at hkn
      · cases hkn
      · cases hkn
        exact ⟨⟨_, rfl⟩, _, by simp [Node.targets, push_target]; rfl⟩
  obtain ⟨h1, ch, h2⟩ := key
  refine ⟨h1, ?_⟩
  rcases (A.targets hm ch).mp h2 with ⟨h, h3, h4⟩ | ⟨h3, _⟩
  · refine ⟨h, List.mem_of_getElem? h3, ?_, (Hop.writer_iff.mp h4).1, h4⟩
    intro hx
    have hwr := (A.exitSys (cs := []) h3 hx).1
    rw [h4] at hwr
    simp only [Who.part.injEq] at hwr
    rw [hwr.2] at hp
    simp at hp
  · cases h3

theorem Rigged.still (A : Rigged c hs w) (hC : Complete hs) (hu : ∀ r, ¬ w.Unheard cs cap st τ r) (hm : w.Motionless cs cap st τ) : w.StillAside cs cap st τ := by
  refine ⟨⟨fun i t h0 hx h1 h2 h3 h4 => ?_⟩, hu⟩
  rcases hm i t h1 h2 h4 with h | ⟨t', hd, h5, h6⟩ | ⟨r, rfl⟩ | ⟨x, rfl, ⟨t', hd, h5, h6⟩, _⟩
  · exact h3 h
  · rw [h0] at h5; cases h5
  · exact hx r rfl
  · rcases A.others hC h1 h0 with ⟨_, _, _, _, he, _⟩ | ⟨_, _, he, _⟩ | ⟨_, _, he, _⟩ | ⟨_, _, he, hd, _⟩ <;> cases he

theorem Rigged.reader_open (A : Rigged c hs w) (hC : Complete hs) (hst : execAll cap Store.init (τ.map Prod.snd) = some st)
    (hj : ∀ i inputs pushs spy, w.node i = some (.junction inputs pushs spy) → ∀ f ∈ acts (proj i τ), f.ruins pushs = false) {i : Who} {n : Node} (hn : w.node i = some n) {ch : Nat}
    (hs' : .chan ch ∈ n.sources) (ho : (st .data ch).closed = false) : ¬ n.task.Done (proj i τ) := by
  intro hd
  have D := node_done ((A.wired hC).ok i n hn) hd (by rintro inputs pushs spy rfl; exact hj _ inputs pushs spy hn) ch
  have : (st .data ch).closed = true := by
    exact closing_closed hst (D.2 hs')
  rw [ho] at this; cases this

/-- The reason behind C82. -/
theorem Rigged.unjammed (A : Rigged c hs w) (hC : Complete hs) (T : Attended cs w) (hb : LoopsBuffered hs) (hr : w.Run cs cap τ)
    (hst : execAll cap Store.init (τ.map Prod.snd) = some st) (hcap : ∀ k ch, cap k ch ≠ some 0) (hun : ∀ ch, hs.length ≤ ch → cap .data ch = none)
    (hj : ∀ i inputs pushs spy, w.node i = some (.junction inputs pushs spy) → ∀ f ∈ acts (proj i τ), f.ruins pushs = false)
    (hu : ∀ r, ¬ w.Unheard cs cap st τ r) (hp : ∀ r, ¬ w.Paused cs st τ r) (hm : w.Motionless cs cap st τ) {i : Who} {n : Node} (hn : w.node i = some n)
    (hnd : ¬ n.task.Done (proj i τ)) : w.Hungry st τ i := by
  obtain ⟨E, U⟩ := A.run hC hr
  have W := A.wired hC
  have S := A.still hC hu hm
  have mem_everyone : ∀ {i n}, w.node i = some n → i ∈ w.everyone cs := fun {i n} hn => sys_everyone (by rw [sys_node hn]; simp)
  obtain ⟨k, hk⟩ : ∃ k, (w.everyone cs).length - rankIn (HoldsUp hs) (w.everyone cs) i = k := ⟨_, rfl⟩
  induction k using Nat.strongRecOn generalizing i n with
  | _ k ih =>
    have lower : ∀ {b m}, HoldsUp hs i b → w.node b = some m → ¬ m.task.Done (proj b τ) → w.Hungry st τ b := by
      intro b m hh hm hd
      have h1 := rankIn_lt hb (mem_everyone hn) hh
      have h2 := rankIn_le (r := HoldsUp hs) (l := w.everyone cs) (a := b)
      exact ih _ (by omega) hm hd rfl
    by_cases hid : w.net.Idle st τ i
    · exact Or.inl hid
    by_cases hcan : w.CanStep cs cap τ i
    · rcases hm i _ (sys_node hn) hnd hcan with ((h | ⟨r, rfl, _⟩) | ⟨_, _, rfl, _⟩) | h | ⟨r, rfl⟩ | ⟨x, rfl, _, p, hp', t, ht, hnd', hnr⟩
      · exact absurd h hid
      · exfalso
        simp only [Waiter.node] at hn
        cases hk : w.comps.get r with
        | none => rw [hk] at hn; cases hn
        | some k => rw [hk] at hn; cases k <;> simp [Comp.node] at hn
      · simp [Waiter.node] at hn
      · exact Or.inr (Or.inl h)
      · rw [node_no_exit] at hn; cases hn
      · exfalso
        have hm' : ∃ m, w.node (.part (.launch, x) p) = some m := by
          cases h : w.node (.part (.launch, x) p) with
          | some m => exact ⟨m, rfl⟩
          | none =>
            exfalso
            rcases A.others hC ht h with ⟨_, _, _, _, he, _⟩ | ⟨_, _, he, _⟩ | ⟨_, _, he, _⟩ | ⟨_, _, he, hd, _⟩ <;> cases he <;> simp at hp'
        obtain ⟨m, hm'⟩ := hm'
        rw [sys_node hm'] at ht; cases ht
        obtain ⟨⟨hd, hsrc⟩, h, hh, hx, hl, hw⟩ := A.launch_stream hm' hp'
        have hup := HoldsUp.program hh (congrArg Prod.fst hl) hx
        rw [hl, hw] at hup
        rcases lower hup hm' hnd' with ⟨inputs, pushs, spy, hn', _⟩ | h | ⟨n', ch, hn', h1, _⟩
        · have hn' : w.node (.part (.launch, x) p) = some (.junction inputs pushs spy) := hn'
          rw [hm'] at hn'; cases hn'
          have hok : (Node.junction inputs pushs spy).Ok := W.ok (.part (.launch, x) p) _ hm'
          have : End.handle hd ∈ (Node.junction inputs pushs spy).sources := by rw [hsrc]; simp
          obtain ⟨y, hy, hys⟩ := List.mem_filterMap.mp this
          obtain ⟨jj, c', hp''⟩ := hok.2.1 y hy
          rw [hp''] at hys; cases hys
        · exact hnr h
        · rw [hm'] at hn'; cases hn'
          rw [h1] at hsrc; cases hsrc
    · rcases (hr.exec.tasks _ _ (sys_node hn)).now (node_speaks (W.ok i n hn)) with h | ⟨q, hq⟩ | ⟨k', c', h⟩
      · exact absurd h hnd
      · have himp : Impossible cap st q := by
          intro r
          cases he : Verif.exec cap st ⟨q, r⟩ with
          | none => rfl
          | some st' => exact absurd (A.canStep hr hn (Verif.canStep E hst hn (hq.step r) he)) hcan
        rcases A.asks hC T hr hst hcap S hn hq himp with ⟨ch, rfl, h3, h1, h2⟩ | ⟨ch, d, b, rfl, h3, h4, h5⟩ | ⟨x, _, h3⟩
        · exact Or.inr (Or.inr ⟨n, ch, hn, h3, h1, h2⟩)
        · exfalso
          rcases (A.edges hC _ ch _).mp h3 with ⟨h, g1, g2, rfl, rfl, m, g5⟩ | ⟨x, g1, rfl, rfl, rfl⟩
          · obtain ⟨_, m', _, hm', _, hsrc⟩ := id h3
            have hm'' : w.node h.reader = some m' := hm'
            have hnd' := A.reader_open hC hst hj hm'' hsrc h4
            have := A.hungry_empty hC hst hm'' (lower (.hop (List.mem_of_getElem? g1) g2) hm'' hnd') hsrc (unclosed hst h4)
            exact h5 (caps_room hcap this)
          · apply h5
            rw [hun _ (by omega)]; trivial
        · exact absurd h3 (hp x)
      · exact absurd (A.canStep hr hn (Verif.canStep E hst hn h (by simp [Verif.exec]; rfl))) hcan

/-- Nobody waits for room. -/
theorem Rigged.roomy (A : Rigged c hs w) (hC : Complete hs) (T : Attended cs w) (hb : LoopsBuffered hs) (hr : w.Run cs cap τ)
    (hst : execAll cap Store.init (τ.map Prod.snd) = some st) (hcap : ∀ k ch, cap k ch ≠ some 0) (hun : ∀ ch, hs.length ≤ ch → cap .data ch = none)
    (hj : ∀ i inputs pushs spy, w.node i = some (.junction inputs pushs spy) → ∀ f ∈ acts (proj i τ), f.ruins pushs = false)
    (hu : ∀ r, ¬ w.Unheard cs cap st τ r) (hp : ∀ r, ¬ w.Paused cs st τ r) (hm : w.Motionless cs cap st τ) {i : Who} {n : Node} (hn : w.node i = some n)
    {ch : Nat} {d : Bytes} (hq : n.task.Awaits (proj i τ) (.send .data ch d)) : ¬ Impossible cap st (.send .data ch d) := by
  intro himp
  rcases A.asks hC T hr hst hcap (A.still hC hu hm) hn hq himp with ⟨ch', h1, _⟩ | ⟨ch', d', b, h1, h3, h4, h5⟩ | ⟨x, _, ⟨t, h1, h2⟩, h3⟩
  · cases h1
  · cases h1
    obtain ⟨_, m, _, hm', _, hsrc⟩ := id h3
    have hm'' : w.node b = some m := hm'
    exact h5 (caps_room hcap (A.hungry_empty hC hst hm'' (A.unjammed hC T hb hr hst hcap hun hj hu hp hm hm'' (A.reader_open hC hst hj hm'' hsrc h4)) hsrc (unclosed hst h4)))
  · exact hp x ⟨⟨t, h1, h2⟩, h3⟩

end
end Verif
