import Verif.Lemmas.WorldSettles
import Verif.Lemmas.Steer
import Verif.Spec.Backs
/-!
# Flow control with programs: once only looking goes on, no regulator is paused
-/
namespace Verif

section
variable {c : Config} {hs : List Hop} {w : Waiter} {cs : List Capture} {cap : Caps} {room : Nat} {prog : Str → Program} {T : List Happening} {st : Store}

/-- Who waits in vain. -/
theorem Rigged.halts (A : Rigged c hs w) (hC : Complete hs) {τ : List (Who × Ev)} (hr : w.Run cs cap τ) (hst : execAll cap Store.init (τ.map Prod.snd) = some st)
    {i : Who} {n : Node} (hn : w.node i = some n) (hd : ¬ n.task.Done (proj i τ)) (no : ¬ w.CanStep cs cap τ i) : ∃ q, n.task.Awaits (proj i τ) q ∧ Impossible cap st q := by
  have hok : n.Ok := (A.wired hC).ok i n hn
  rcases (hr.exec.tasks _ _ (sys_node hn)).now (node_speaks hok) with h | ⟨q, hq⟩ | ⟨k, ch, h⟩
  · exact absurd h hd
  · refine ⟨q, hq, fun r => ?_⟩
    cases he : Verif.exec cap st ⟨q, r⟩ with
    | none => rfl
    | some st' =>
      refine absurd ⟨_, hr.step hst (sys_node hn) (hq.step r) he ?_⟩ no
      rintro r rfl
      rw [node_no_exit] at hn; cases hn
  · refine absurd ⟨_, hr.step hst (sys_node hn) h (by simp [Verif.exec]; rfl) ?_⟩ no
    rintro r rfl
    rw [node_no_exit] at hn; cases hn

/-- When nothing happens but looking, only relays from and to programs can be waiting for something outside. -/
theorem Waiter.outsideOnly (hno : ¬ w.Lively cs cap room prog st T) {i : Who} {n : Node} (hn : w.node i = some n) (hid : ¬ w.net.Idle st (coreOf T) i) (hc : w.CanStep cs cap (coreOf T) i) :
    (∃ x, i = .part (.launch, x) .input) ∨ ∃ x p, i = .part (.launch, x) (Port.piece p) := by
  refine Classical.byContradiction fun h => ?_
  rw [not_or, not_exists, not_exists] at h
  obtain ⟨e, hc⟩ := hc
  refine core_stops hno (node_unrested hn hid) hc ⟨?_, ?_, ?_, ?_⟩
  · intro y _ d r g; exact absurd g (h.1 _)
  · intro y _ r g; exact absurd g (h.1 _)
  · intro y p _ r g; exact absurd ⟨p, g⟩ (h.2 _)
  · rintro y r rfl; rw [node_no_exit] at hn; cases hn

theorem Rigged.stillBut (A : Rigged c hs w) (hC : Complete hs) (hno : ¬ w.Lively cs cap room prog st T) : w.StillBut cs cap st (coreOf T) := by
  refine ⟨?_⟩
  rintro i t hn hx ht hd hrest ⟨e, hc⟩
  have hp : ∀ x p, p ∈ relayPieces → i ≠ .part (.launch, x) p := by
    rintro x p hp rfl
    obtain ⟨n, hn', _⟩ := A.launchNode hC hp ht
    rw [hn] at hn'; cases hn'
  refine core_stops hno hrest hc ⟨?_, ?_, ?_, ?_⟩
  · intro y h d r g; exact absurd g (hp _ _ (by simp [relayPieces]))
  · intro y h r g; exact absurd g (hp _ _ (by simp [relayPieces]))
  · intro y p h r g; exact absurd g (hp _ _ p.relays)
  · intro y r g; exact absurd g (hx _)

theorem Rigged.asideOf (A : Rigged c hs w) (hC : Complete hs) (hno : ¬ w.Lively cs cap room prog st T) (hun : ∀ r, ¬ w.Unheard cs cap st (coreOf T) r) : w.StillAside cs cap st (coreOf T) :=
  ⟨A.stillBut hC hno, hun⟩

/-- Nobody is held up by the output of a buffer, as long as there is room in the buffer. -/
theorem not_holdsUp_output {a : Who} {x : Str} : ¬ HoldsUp hs a (.part (.buffer, x) .output) := by
  intro h
  generalize hb : Who.part (.buffer, x) .output = b at h
  cases h with
  | hop _ _ =>
    obtain ⟨h1, h2⟩ := Hop.reader_iff.mp hb.symm
    cases h2
  | program _ hl _ =>
    have h1 := (Hop.writer_iff.mp hb.symm).1
    have : (ComponentType.buffer : ComponentType) = .launch := by rw [← hl]; exact (congrArg Prod.fst h1).symm
    cases this

/-- Where a channel between two components stays full, a regulator further down is paused, be it behind a program, or a buffer further down cannot tell what it does. -/
theorem Rigged.worldDammedOr (A : Rigged c hs w) (hC : Complete hs) (M : Attended cs w) (hT : w.WorldRun cs cap room prog T) (hroom : 0 < room)
    (hst : execAll cap Store.init ((coreOf T).map Prod.snd) = some st) (hcap : ∀ k ch, cap k ch ≠ some 0) (hun : ∀ ch, hs.length ≤ ch → cap .data ch = none)
    (hj : ∀ i inputs pushs spy, w.node i = some (.junction inputs pushs spy) → ∀ f ∈ acts (proj i (coreOf T)), f.ruins pushs = false)
    (hno : ¬ w.Lively cs cap room prog st T) (S : w.StillBut cs cap st (coreOf T))
    {rank : Who → Nat} {R : Nat} (hrank : ∀ h ∈ hs, ¬ h.isExit → w.node h.writer ≠ none → rank h.writer < rank h.reader) (hR : ∀ i, rank i ≤ R)
    (hprog : ∀ h ∈ hs, ¬ h.isExit → h.src.ty = .launch → w.node (.part h.from .input) ≠ none → rank (.part h.from .input) < rank h.writer)
    {a : Who} {ch : Nat} {b : Who} (he : w.net.Edge a ch b) (h1 : (st .data ch).closed = false) (h2 : ¬ hasRoom (cap .data ch) (st .data ch).q.length) :
    (∃ x, w.Paused cs st (coreOf T) x ∧ rank a < rank (.part (.regulator, x) .main)) ∨
      ∃ x, w.Deaf cs cap st (coreOf T) x ∧ Relation.TransGen (HoldsUp hs) a (.part (.buffer, x) .input) := by
  have hr := hT.core
  obtain ⟨E, U⟩ := A.run hC hr
  have W := A.wired hC
  have up : ∀ {a ch b}, w.net.Edge a ch b → ¬ hasRoom (cap .data ch) (st .data ch).q.length → rank a < rank b ∧ HoldsUp hs a b := by
    intro a ch b he h2
    have hn : w.node a ≠ none := by
      obtain ⟨n, _, hn, _⟩ := he
      have hn : w.node a = some n := hn
      simp [hn]
    rcases (A.edges hC a ch b).mp he with ⟨h, h3, h4, rfl, rfl, _⟩ | ⟨x, _, h3, _, _⟩
    · exact ⟨hrank h (List.mem_of_getElem? h3) h4 hn, .hop (List.mem_of_getElem? h3) h4⟩
    · rw [hun ch (by omega)] at h2
      exact absurd trivial h2
  generalize hk : R - rank a = k
  induction k using Nat.strongRecOn generalizing a ch b with
  | _ k ih =>
    have hne : (st .data ch).q ≠ [] := fun h => h2 (caps_room hcap h)
    have F := w.net.facts W E U he
    have he' := he
    obtain ⟨_, m, _, hm, _, hms⟩ := he'
    have hm : w.node b = some m := hm
    have hok : m.Ok := W.ok b m hm
    have shut : Act.ended (.chan ch) ∉ acts (proj b (coreOf T)) := by
      intro h
      have := closing_closed hst (edge_complete hst F.on F.writer F.reader F.sent F.got h).2.2
      rw [h1] at this; cases this
    have hd : ¬ m.task.Done (proj b (coreOf T)) := by
      intro hd
      have := closing_closed hst ((node_done hok hd (by rintro inputs pushs spy rfl; exact hj b inputs pushs spy hm) ch).2 hms)
      rw [h1] at this; cases this
    have hid : ¬ w.net.Idle st (coreOf T) b := by
      rintro ⟨inputs, pushs, spy, hn, _, hall⟩
      have hn : w.node b = some (.junction inputs pushs spy) := hn
      rw [hm] at hn; cases hn
      exact hne (hall ch hms (inUse_open hst shut h1)).1
    obtain ⟨r1, u1⟩ := up he h2
    by_cases hc : w.CanStep cs cap (coreOf T) b
    · -- a program that does not read
      obtain ⟨x, rfl⟩ : ∃ x, b = .part (.launch, x) .input := by
        rcases Waiter.outsideOnly hno hm hid hc with h | ⟨x, p, rfl⟩
        · exact h
        · obtain ⟨_, _, _, rfl⟩ := A.portNode hm
          simp [Node.sources, Pull.source] at hms
      obtain ⟨h3, h4, _⟩ := A.input_waits hC hT hst hno hm hc
      rcases program_waits hno (by intro h; simp [Waiter.node, h] at hm) (fun h => h3 (Or.inr h)) with ⟨h5, _⟩ | ⟨p, h5, h6⟩
      · rw [h5] at h4; simp at h4; omega
      · obtain ⟨k', hk', hkd⟩ := relayOver_node A hC p.relays h5
        obtain ⟨r2, u2⟩ : rank (.part (.launch, x) .input) < rank (.part (.launch, x) p.piece) ∧ HoldsUp hs (.part (.launch, x) .input) (.part (.launch, x) p.piece) := by
          obtain ⟨_, h, hh, hx, hf, hwr⟩ := A.launch_stream hk' (by cases p <;> simp [Port.piece])
          have h1 := hprog h hh hx (congrArg Prod.fst hf) (by rw [hf, hm]; simp)
          have h2 := HoldsUp.program hh (congrArg Prod.fst hf) hx
          rw [hf, hwr] at h1 h2
          exact ⟨h1, h2⟩
        have hkc : ¬ w.CanStep cs cap (coreOf T) (.part (.launch, x) p.piece) := by
          intro hb
          rw [(A.port_waits hC hT hst hno hk' hb).2.1] at h6
          simp at h6; omega
        obtain ⟨q, hq, himp⟩ := A.halts hC hr hst hk' hkd hkc
        rcases A.asksOr hC M hr hst hcap S hk' hq himp with ⟨c', _, h7, _⟩ | ⟨c', d, b', _, h7, h8, h9⟩ | ⟨y, h7, _⟩ | ⟨y, h7, _⟩
        · obtain ⟨_, _, _, rfl⟩ := A.portNode hk'
          simp [Node.sources, Pull.source] at h7
        · have r3 := (up h7 h9).1
          have r4 := hR b'
          rcases ih (R - rank (.part (.launch, x) p.piece)) (by omega) h7 h8 h9 rfl with ⟨y, hy, hy'⟩ | ⟨y, hy, hy'⟩
          · exact Or.inl ⟨y, hy, by omega⟩
          · exact Or.inr ⟨y, hy, .trans (.tail (.single u1) u2) hy'⟩
        · simp at h7
        · simp at h7
    · obtain ⟨q, hq, himp⟩ := A.halts hC hr hst hm hd hc
      rcases A.asksOr hC M hr hst hcap S hm hq himp with ⟨c', _, h3, h4, _⟩ | ⟨c', d, b', _, h3, h4, h5⟩ | ⟨x, rfl, h3⟩ | ⟨x, rfl | rfl, h3⟩
      · rw [h3] at hms; simp at hms; subst hms; exact absurd h4 hne
      · have r2 := (up h3 h5).1
        have r3 := hR b'
        rcases ih (R - rank b) (by omega) h3 h4 h5 rfl with ⟨x, hx, hx'⟩ | ⟨x, hx, hx'⟩
        · exact Or.inl ⟨x, hx, by omega⟩
        · exact Or.inr ⟨x, hx, .trans (.single u1) hx'⟩
      · exact Or.inl ⟨x, h3, r1⟩
      · exact Or.inr ⟨x, h3, .single u1⟩
      · exact absurd u1 not_holdsUp_output

/-- If no manager waits for room a regulator further down is paused. -/
theorem Rigged.worldDammed (A : Rigged c hs w) (hC : Complete hs) (M : Attended cs w) (hT : w.WorldRun cs cap room prog T) (hroom : 0 < room)
    (hst : execAll cap Store.init ((coreOf T).map Prod.snd) = some st) (hcap : ∀ k ch, cap k ch ≠ some 0) (hun : ∀ ch, hs.length ≤ ch → cap .data ch = none)
    (hj : ∀ i inputs pushs spy, w.node i = some (.junction inputs pushs spy) → ∀ f ∈ acts (proj i (coreOf T)), f.ruins pushs = false)
    (hno : ¬ w.Lively cs cap room prog st T) (S : w.StillAside cs cap st (coreOf T))
    {rank : Who → Nat} {R : Nat} (hrank : ∀ h ∈ hs, ¬ h.isExit → w.node h.writer ≠ none → rank h.writer < rank h.reader) (hR : ∀ i, rank i ≤ R)
    (hprog : ∀ h ∈ hs, ¬ h.isExit → h.src.ty = .launch → w.node (.part h.from .input) ≠ none → rank (.part h.from .input) < rank h.writer)
    {a : Who} {ch : Nat} {b : Who} (he : w.net.Edge a ch b) (h1 : (st .data ch).closed = false) (h2 : ¬ hasRoom (cap .data ch) (st .data ch).q.length) :
    ∃ x, w.Paused cs st (coreOf T) x ∧ rank a < rank (.part (.regulator, x) .main) :=
  (A.worldDammedOr hC M hT hroom hst hcap hun hj hno S.toStillBut hrank hR hprog he h1 h2).resolve_right fun ⟨_, ⟨_, _, _, h⟩, _⟩ => S.heard _ h

variable {σ : Nat → Option Happening}

/-- Once nothing changes any more under a fair schedule, all that can happen is that those go on looking who could do so for ever. -/
theorem Rigged.worldLull (A : Rigged c hs w) (hC : Complete hs) (F : w.FairWorld cs cap room prog σ) {n : Nat} (C : w.Calmed cs cap (coreAt σ) n st)
    (quiet : ∀ m, n ≤ m → ∀ a, σ m = some a → a.IsCore) :
    ∀ a, w.Next cs cap room prog (soFar σ n) a → ∃ i e t, ∃ g : Nat → Ev, a = .core i e ∧ w.sys cs i = some t ∧ (∀ k, t.Partial (proj i (upTo (coreAt σ) n) ++ first g k)) ∧
      ∀ j, w.moves i (g j) = false ∧ Verif.exec cap st (g j) = some st := by
  have runs := F.runs
  have cruns : ∀ n, w.Run cs cap (upTo (coreAt σ) n) := fun n => by rw [← coreOf_soFar]; exact (runs n).core
  have hst := C.quiet n (Nat.le_refl _)
  have relay : ∀ x p, p ∈ relayPieces → ∀ m, n ≤ m → proj (.part (.launch, x) p) (upTo (coreAt σ) m) = proj (.part (.launch, x) p) (upTo (coreAt σ) n) := by
    intro x p hp m hm
    cases ht : w.sys cs (.part (.launch, x) p) with
    | none => rw [(cruns m).silent ht, (cruns n).silent ht]
    | some t =>
      rcases C.each _ t ht with h | ⟨g, _, hg⟩
      · exact h.1 m hm
      · obtain ⟨nd, hn, _⟩ := A.launchNode hC hp ht
        have := (hg 0).1
        have hmove : ∀ e, w.moves (.part (.launch, x) p) e = true := by
          simp only [relayPieces, List.mem_cons, List.not_mem_nil, or_false] at hp
          rcases hp with rfl | rfl | rfl
          · obtain ⟨_, _, _, rfl⟩ := A.inputNode hn
            intro e; simp [Waiter.moves, hn]
          · obtain ⟨_, _, _, rfl⟩ := A.portNode (p := .out) hn
            intro e; simp [Waiter.moves, hn]
          · obtain ⟨_, _, _, rfl⟩ := A.portNode (p := .err) hn
            intro e; simp [Waiter.moves, hn]
        rw [hmove] at this; cases this
  have same : ∀ m, n ≤ m → Same w cs (soFar σ n) (soFar σ m) := by
    intro m hm
    obtain ⟨u, hu, hu2⟩ := soFar_le (σ := σ) hm
    obtain ⟨g1, g2, g3⟩ := cores (u := u) fun a ha => by obtain ⟨k, hk, hk2⟩ := hu2 a ha; exact quiet k hk a hk2
    refine ⟨fun x => ?_, fun x => ?_, fun x p => ?_, fun x p hp => ?_⟩
    · rw [hu, historyOf_append, g1, List.append_nil]
    · rw [hu, fedTo_append, g2, List.append_nil]
    · rw [hu, drawnFrom_append, g3, List.append_nil]
    · rw [coreOf_soFar, coreOf_soFar]; exact relay x p hp m hm
  intro a ha
  have outside : ∀ g, (∀ m, n ≤ m → ∃ b, b.agent = g ∧ w.Next cs cap room prog (soFar σ m) b) → ∃ i, g = .core i := by
    intro g hg
    obtain ⟨m, b, hm, hb, rfl⟩ := F.fair g n hg
    obtain ⟨i, e, rfl⟩ := quiet m hm b hb
    exact ⟨i, rfl⟩
  cases ha with
  | @core i e hr hans =>
    have hx : w.sys cs i ≠ none := hr.known (i, e) (by simp)
    obtain ⟨t, ht⟩ := Option.ne_none_iff_exists'.mp hx
    have hcr := coreOf_soFar (σ := σ) n
    rcases C.each i t ht with ⟨hsame, never⟩ | ⟨g, g1, g2⟩
    · obtain ⟨m, b, hm, hb, hbi⟩ := F.fair (.core i) n (by
        intro m hm
        refine ⟨.core i e, rfl, .core ?_ ((same m hm).answered hans)⟩
        have h1 := hr.exec.chans
        rw [List.map_append, execAll_append, hcr, hst] at h1
        obtain ⟨st', hs'⟩ := Option.isSome_iff_exists.mp h1
        have h2 : Verif.exec cap st e = some st' := by
          simp [execAll] at hs'
          split at hs'
          · cases hs'
          · next h => rw [h, hs']
        have h3 := hr.exec.tasks i t ht
        rw [proj_append, show proj i [(i, e)] = [e] by simp [proj], hcr, ← hsame m hm] at h3
        rw [coreOf_soFar]
        refine (cruns m).step (C.quiet m hm) ht h3 h2 ?_
        rintro r rfl p hp' t' ht'
        have h4 := hr.exits (coreOf (soFar σ n)) [] r e rfl p hp' t' ht'
        rw [hcr] at h4
        rw [done_later cruns ht' h4 hm]; exact h4)
      obtain ⟨j, e', rfl⟩ := quiet m hm b hb
      cases hbi
      exact (never m hm e' (by simp [coreAt, hb])).elim
    · exact ⟨i, e, t, g, rfl, ht, g1, g2⟩
  | @feed x d m t k h3 h4 h5 h6 h7 h8 =>
    obtain ⟨i, hi⟩ := outside (.feed x) (by
      intro m hm
      have S := same m hm
      exact ⟨.feed x d, rfl, .feed h3 (by rw [S.relay _ _ (by simp [relayPieces])]; exact h4) (by rw [S.begun]; exact h5) h6 (by rw [S.history]; exact h7) (by rw [S.inPipe]; exact h8)⟩)
    cases hi
  | @draw x p d t k h3 h4 h5 h6 =>
    obtain ⟨i, hi⟩ := outside (.draw x p) (by
      intro m hm
      have S := same m hm
      exact ⟨.draw x p d, rfl, .draw h3 (by rw [S.relay _ _ p.relays]; exact h4) (by rw [S.outPipe]; exact h5) h6⟩)
    cases hi
  | @prog x e h3 h4 h5 h6 =>
    obtain ⟨i, hi⟩ := outside (.prog x) (by
      intro m hm
      have S := same m hm
      exact ⟨.prog x e, rfl, .prog h3 (by rw [S.history]; exact h4) (by rw [S.history]; exact h5) (S.serves h6)⟩)
    cases hi

/-- So then no regulator is paused, unless somebody can hold up themselves, or the output of a buffer that is looked after by the input of one whose manager waits for room. -/
theorem Assembled.unpausedBut (A : Assembled c hs w) (hC : Complete hs) (M : Attended cs w) (hub : Unbraided hs cs) (hroom : 0 < room) (hcap : ∀ k ch, cap k ch ≠ some 0)
    (hun : ∀ ch, hs.length ≤ ch → cap .data ch = none) (F : w.FairWorld cs cap room prog σ) {n : Nat} (C : w.Calmed cs cap (coreAt σ) n st)
    (quiet : ∀ m, n ≤ m → ∀ a, σ m = some a → a.IsCore) (nf : ∀ x p k f, w.node (.part (.buffer, x) p) = some k → f ∈ acts (proj (.part (.buffer, x) p) (coreOf (soFar σ n))) → f.fails = false)
    (hj : ∀ i inputs pushs spy, w.node i = some (.junction inputs pushs spy) → ∀ f ∈ acts (proj i (coreOf (soFar σ n))), f.ruins pushs = false)
    (hu : ∀ a ∈ cs, ∀ x ∈ a.buffers, ∀ y, w.Deaf cs cap st (coreOf (soFar σ n)) y → ¬ Relation.TransGen (HoldsUp hs) (.part (.buffer, x) .output) (.part (.buffer, y) .input)) (r : Str) : ¬ w.Paused cs st (coreOf (soFar σ n)) r := by
  have lull := A.toRigged.worldLull hC F C quiet
  have hst := C.quiet n (Nat.le_refl _)
  rw [← coreOf_soFar] at hst
  have hno : ¬ w.Lively cs cap room prog st (soFar σ n) := by
    rintro ⟨a, ha, hrest⟩
    obtain ⟨i, e, t, g, rfl, ht, g1, g2⟩ := lull a ha
    rw [← coreOf_soFar] at g1
    exact hrest i e rfl (A.toRigged.resting hC M hst hj ht g1 g2)
  have S := A.toRigged.stillBut hC hno
  have hT := F.runs n
  have hr := hT.core
  let rank := rankIn (Backs hs cs) (w.everyone cs)
  have known : ∀ {i}, w.node i ≠ none → i ∈ w.everyone cs := by
    intro i hn
    obtain ⟨k, hk⟩ := Option.ne_none_iff_exists'.mp hn
    exact sys_everyone (by rw [sys_node hk]; simp)
  have never : ∀ k r, (w.everyone cs).length - rank (.part (.regulator, r) .main) = k → ¬ w.Paused cs st (coreOf (soFar σ n)) r := by
    intro k
    induction k using Nat.strongRecOn with
    | _ k ih =>
      intro r hk hpa
      obtain ⟨x, h1, h2⟩ := A.pausedBelowOf hC M hr hst hcap S nf (rank := rank)
        (fun x p n hn hd hid => A.toRigged.halts hC hr hst hn hd fun hc => by rcases Waiter.outsideOnly hno hn hid hc with ⟨_, h⟩ | ⟨_, _, h⟩ <;> simp at h)
        (by
          intro i t hn hx ht
          refine Classical.or_iff_not_imp_left.mpr fun hc => ?_
          rw [Classical.not_not] at hc
          obtain ⟨e, hc⟩ := hc
          have hp : ∀ x p, p ∈ relayPieces → i ≠ .part (.launch, x) p := by
            rintro x p hp rfl
            obtain ⟨n, hn', _⟩ := A.toRigged.launchNode hC hp ht
            rw [hn] at hn'; cases hn'
          obtain ⟨i', e', t', g, h3, h4, g1, g2⟩ := lull (.core i e) (.core hc ⟨fun y _ d r g => absurd g (hp _ _ (by simp [relayPieces])), fun y _ r g => absurd g (hp _ _ (by simp [relayPieces])),
            fun y p _ r g => absurd g (hp _ _ p.relays), fun y r g => absurd g (hx _)⟩)
          cases h3
          rw [ht] at h4; cases h4
          rw [← coreOf_soFar] at g1
          exact ⟨g, g1, g2⟩)
        (fun x hx ch b he h1 h2 => (A.toRigged.worldDammedOr hC M hT hroom hst hcap hun hj hno S (R := (w.everyone cs).length) (fun h hh hx hn => rankIn_lt hub (known hn) (.holds (.hop hh hx))) (fun i => rankIn_le)
          (fun h hh hx hl hn => rankIn_lt hub (known hn) (.holds (.program hh hl hx))) he h1 h2).resolve_right fun ⟨y, hy, h3⟩ => by obtain ⟨a, ha, hx⟩ := hx; exact hu a ha x hx y hy h3)
        (by
          intro a ha x hx
          refine rankIn_lt hub (known ?_) (.steer ha hx)
          obtain ⟨i, o, m, hk⟩ := A.regulatorNode hC rfl (A.steered M ha)
          simp [Waiter.node, hk, Comp.node]) hpa
      have := rankIn_le (r := Backs hs cs) (l := w.everyone cs) (a := .part (.regulator, x) .main)
      exact ih _ (by simp only [rank] at *; omega) x rfl h1
  exact never _ r rfl

/-- If no manager waits for room, none is paused. -/
theorem Assembled.unpaused (A : Assembled c hs w) (hC : Complete hs) (M : Attended cs w) (hub : Unbraided hs cs) (hroom : 0 < room) (hcap : ∀ k ch, cap k ch ≠ some 0)
    (hun : ∀ ch, hs.length ≤ ch → cap .data ch = none) (F : w.FairWorld cs cap room prog σ) {n : Nat} (C : w.Calmed cs cap (coreAt σ) n st)
    (quiet : ∀ m, n ≤ m → ∀ a, σ m = some a → a.IsCore) (nf : ∀ x p k f, w.node (.part (.buffer, x) p) = some k → f ∈ acts (proj (.part (.buffer, x) p) (coreOf (soFar σ n))) → f.fails = false)
    (hj : ∀ i inputs pushs spy, w.node i = some (.junction inputs pushs spy) → ∀ f ∈ acts (proj i (coreOf (soFar σ n))), f.ruins pushs = false)
    (hu : ∀ r, ¬ w.Unheard cs cap st (coreOf (soFar σ n)) r) (r : Str) : ¬ w.Paused cs st (coreOf (soFar σ n)) r :=
  A.unpausedBut hC M hub hroom hcap hun F C quiet nf hj (fun _ _ _ _ _ ⟨_, _, _, h⟩ => absurd h (hu _)) r

/-- A manager who waits for room while nothing changes any more waits for ever. -/
theorem Waiter.Calmed.unheard {n : Nat} (C : w.Calmed cs cap (coreAt σ) n st) {r : Str} (h : w.Unheard cs cap st (coreOf (soFar σ n)) r) :
    ∀ m, n ≤ m → execAll cap Store.init ((coreOf (soFar σ m)).map Prod.snd) = some st ∧ w.Unheard cs cap st (coreOf (soFar σ m)) r := by
  obtain ⟨⟨t, ht, hq⟩, h2, h3⟩ := h
  refine fun m hm => ⟨by rw [coreOf_soFar]; exact C.quiet m hm, ⟨t, ht, ?_⟩, h2, h3⟩
  rw [coreOf_soFar] at hq ⊢
  rcases C.each _ _ ht with ⟨h, _⟩ | ⟨g, h4, h5⟩
  · rw [h m hm]; exact hq
  · exfalso
    have h6 := h4 1
    have h7 := hq.next (e := g 0) (by simpa [first] using h6)
    have h8 := (h5 0).2
    generalize g 0 = e at h7 h8
    obtain ⟨q, r'⟩ := e
    simp only at h7
    subst h7
    cases r' with
    | true => simp [exec, h2, h3] at h8
    | false => simp [exec, h2] at h8

end
end Verif
