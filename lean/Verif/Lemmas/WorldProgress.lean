import Verif.Lemmas.World
import Verif.Lemmas.WorldStill
import Verif.Spec.World
/-!
# Why something can happen
-/
namespace Verif
section
variable {c : Config} {hs : List Hop} {w : Waiter} {cs : List Capture} {cap : Caps} {room : Nat} {prog : Str → Program} {T : List Happening} {st : Store}

/-- What a program can be waiting for in vain, and what it wants then. -/
theorem program_stuck (hno : ¬ w.Lively cs cap room prog st T) {x : Str} (hk : w.comps.get (.launch, x) ≠ none) (hx : ¬ Exited (historyOf x T)) :
    (prog x (historyOf x T) = .read ∧ ¬ ShutIn (historyOf x T) ∧ inPipe x T = [] ∧ ¬ w.RelayOver cs (coreOf T) x .input) ∨
      ∃ p m, prog x (historyOf x T) = .write p m ∧ ¬ w.RelayOver cs (coreOf T) x p.piece ∧ room ≤ (outPipe x p T).length := by
  have can : ∀ e, (prog x (historyOf x T)).Allows e → ¬ w.Serves cs room T x e := fun e h1 h2 => hno ⟨_, .prog hk hx h1 h2, by intro i e h; cases h⟩
  cases hw : prog x (historyOf x T) with
  | think => exact absurd trivial (can .thought (by rw [hw]; exact .think))
  | exit c => exact absurd trivial (can (.exit c) (by rw [hw]; exact .exit))
  | shutIn => exact absurd trivial (can .shutIn (by rw [hw]; exact .shutIn))
  | shut p => exact absurd trivial (can (.shut p) (by rw [hw]; exact .shut))
  | read =>
    left
    have hend := can .sawEnd (by rw [hw]; exact .sawEnd)
    simp only [Waiter.Serves, not_or] at hend
    cases hi : inPipe x T with
    | nil => exact ⟨rfl, hend.1, rfl, fun h => hend.2 ⟨hi, h⟩⟩
    | cons b bs => exact absurd ⟨hend.1, bs, by rw [hi]; rfl⟩ (can (.took [b]) (by rw [hw]; exact .took (by simp)))
  | write p m =>
    right
    have hrefused := can (.refused p) (by rw [hw]; exact .refused)
    simp only [Waiter.Serves, not_or, not_and] at hrefused
    obtain ⟨d, hd1, hd2, hd3⟩ : ∃ d, d <+: m ∧ (m ≠ [] → d ≠ []) ∧ d.length ≤ 1 := by
      cases m with
      | nil => exact ⟨[], List.prefix_rfl, by simp, by simp⟩
      | cons b bs => exact ⟨[b], ⟨bs, rfl⟩, by simp, by simp⟩
    have hput := can (.put p d) (by rw [hw]; exact .put hd1 hd2)
    simp only [Waiter.Serves, not_and, not_or] at hput
    obtain ⟨h1, h2⟩ := hput hrefused.1
    refine ⟨p, m, rfl, hrefused.2 h1, ?_⟩
    have := h2 (hrefused.2 h1)
    omega

/-- What a program can be waiting for in vain. -/
theorem program_waits (hno : ¬ w.Lively cs cap room prog st T) {x : Str} (hk : w.comps.get (.launch, x) ≠ none) (hx : ¬ Exited (historyOf x T)) :
    (inPipe x T = [] ∧ ¬ w.RelayOver cs (coreOf T) x .input) ∨ ∃ p : Port, ¬ w.RelayOver cs (coreOf T) x p.piece ∧ room ≤ (outPipe x p T).length := by
  rcases program_stuck hno hk hx with ⟨_, _, h1, h2⟩ | ⟨p, _, _, h1, h2⟩
  · exact Or.inl ⟨h1, h2⟩
  · exact Or.inr ⟨p, h1, h2⟩

theorem node_unrested {i : Who} {n : Node} (hn : w.node i = some n) {τ : List (Who × Ev)} (h : ¬ w.net.Idle st τ i) : ¬ w.Resting cs st τ i := by
  rintro ((h5 | ⟨r, rfl, _⟩) | ⟨_, _, rfl, _⟩)
  · exact h h5
  · simp only [Waiter.node] at hn
    cases hk : w.comps.get r with
    | none => rw [hk] at hn; cases hn
    | some k => rw [hk] at hn; cases k <;> simp [Comp.node] at hn
  · simp [Waiter.node] at hn

theorem relay_awaits {n : Node} {tr : List Ev} {e : Ev} (h : n.task.Partial (tr ++ [e])) : n.task.Awaits tr e.q ∨ ∃ k ch, e = ⟨.close k ch, ()⟩ := by
  rcases h.last with h | ⟨_, _, _, _, _, h⟩
  · exact Or.inl h
  · obtain ⟨k, ch, _, rfl⟩ := mem_dropEvs h e (by simp)
    exact Or.inr ⟨k, ch, rfl⟩

/-- Whoever does not deal with a program can go on as the channels allow. -/
theorem core_stops (hno : ¬ w.Lively cs cap room prog st T) {i : Who} {e : Ev} (hrest : ¬ w.Resting cs st (coreOf T) i) (hr : w.Run cs cap (coreOf T ++ [(i, e)])) : ¬ w.Answered T i e :=
  fun h => hno ⟨_, .core hr h, by rintro _ _ ⟨⟩; exact hrest⟩

/-- The relay to a program that has not ended waits for room in the pipe. -/
theorem Rigged.input_waits (A : Rigged c hs w) (hC : Complete hs) (hT : w.WorldRun cs cap room prog T) (hst : execAll cap Store.init ((coreOf T).map Prod.snd) = some st)
    (hno : ¬ w.Lively cs cap room prog st T) {x : Str} {n : Node} (hn : w.node (.part (.launch, x) .input) = some n) (hc : w.CanStep cs cap (coreOf T) (.part (.launch, x) .input)) :
    ¬ ShutIn (historyOf x T) ∧ room ≤ (inPipe x T).length ∧ ∃ h d, n.task.Awaits (proj (.part (.launch, x) .input) (coreOf T)) (.ioWrite h d) := by
  obtain ⟨j, ch, j', rfl⟩ := A.inputNode hn
  have hrest : ¬ w.Resting cs st (coreOf T) (.part (.launch, x) .input) := node_unrested hn (by
    rintro ⟨_, _, _, h, _⟩
    have h : w.node (.part (.launch, x) .input) = _ := h
    rw [hn] at h; cases h)
  obtain ⟨e, hr⟩ := hc
  have ht := sys_node (cs := cs) hn
  have hpar : (Node.relay (.receiver j ch) {} none (.io j' (childOf (w.idOf (.launch, x))).stdin)).task.Partial (proj (.part (.launch, x) .input) (coreOf T) ++ [e]) := by
    have := hr.exec.tasks _ _ ht
    rwa [proj_append, proj_one, if_pos rfl] at this
  have vac : (∀ h d, e.q ≠ .ioWrite h d) → (∀ h, e.q ≠ .ioFlush h) → False := by
    intro h1 h2
    refine core_stops hno hrest hr ⟨?_, ?_, ?_, ?_⟩
    · rintro y h d r _ rfl; exact (h1 _ _ rfl).elim
    · rintro y h r _ rfl; exact (h2 _ rfl).elim
    · rintro y p h r g; cases p <;> cases g
    · rintro y r g; cases g
  rcases relay_awaits hpar with hq | ⟨k, ch', rfl⟩
  case inr => exact (vac (by simp) (by simp)).elim
  by_cases hw : ∃ h d, e.q = .ioWrite h d
  · obtain ⟨h, d, he⟩ := hw
    rw [he] at hq
    have go : ∀ r, w.Answered T (.part (.launch, x) .input) ⟨.ioWrite h d, r⟩ → False := by
      intro r hA
      exact core_stops hno hrest (hT.core.step hst ht (hq.step r) (st' := st) (by simp [Verif.exec]) (by rintro _ ⟨⟩)) hA
    have mk : ∀ r, (r = .ok ∧ w.begun T x = d ∨ r = .brokenPipe ∧ ShutIn (historyOf x T)) → w.Answered T (.part (.launch, x) .input) ⟨.ioWrite h d, r⟩ := by
      intro r hr
      refine ⟨?_, ?_, ?_, ?_⟩
      · intro y h' d' r' g g'
        simp only [Who.part.injEq, Prod.mk.injEq, true_and, and_true] at g
        subst g
        cases g'
        exact hr
      · rintro y h r _ g; have := congrArg Ev.q g; cases this
      · rintro y p h r g; cases p <;> cases g
      · rintro y r g; cases g
    have hsh : ¬ ShutIn (historyOf x T) := fun hs => go .brokenPipe (mk _ (Or.inr ⟨rfl, hs⟩))
    refine ⟨hsh, Nat.le_of_not_lt fun hlt => ?_, _, _, hq⟩
    obtain ⟨u, hu⟩ := ((A.fed hC hT ht).begun hsh).1 h d hq
    cases u with
    | nil => exact go .ok (mk _ (Or.inl ⟨rfl, by simpa using hu⟩))
    | cons b bs =>
      exact hno ⟨.feed x [b], .feed ht hq ⟨bs, by simpa using hu⟩ (by simp) hsh (by simp; omega), by rintro _ _ ⟨⟩⟩
  · exfalso
    by_cases hf : ∃ h, e.q = .ioFlush h
    · obtain ⟨h, he⟩ := hf
      rw [he] at hq
      refine core_stops hno hrest (hT.core.step hst ht (hq.step true) (st' := st) (by simp [Verif.exec]) (by rintro _ ⟨⟩)) ⟨?_, ?_, ?_, ?_⟩
      · rintro y h d r _ g; have := congrArg Ev.q g; cases this
      · rintro y h r _ g; cases g; rfl
      · rintro y p h r g; cases p <;> cases g
      · rintro y r g; cases g
    · exact vac (fun h d g => hw ⟨h, d, g⟩) (fun h g => hf ⟨h, g⟩)

/-- A relay from a program waits for the program to write something. -/
theorem Rigged.port_waits (A : Rigged c hs w) (hC : Complete hs) (hT : w.WorldRun cs cap room prog T) (hst : execAll cap Store.init ((coreOf T).map Prod.snd) = some st)
    (hno : ¬ w.Lively cs cap room prog st T) {x : Str} {p : Port} {n : Node} (hn : w.node (.part (.launch, x) p.piece) = some n) (hc : w.CanStep cs cap (coreOf T) (.part (.launch, x) p.piece)) :
    ¬ Shut p (historyOf x T) ∧ outPipe x p T = [] ∧ ∃ h, n.task.Awaits (proj (.part (.launch, x) p.piece) (coreOf T)) (.streamRead h) := by
  obtain ⟨j, j', ch, rfl⟩ := A.portNode hn
  have hrest : ¬ w.Resting cs st (coreOf T) (.part (.launch, x) p.piece) := node_unrested hn (by
    rintro ⟨_, _, _, h, _⟩
    have h : w.node (.part (.launch, x) p.piece) = _ := h
    rw [hn] at h; cases h)
  obtain ⟨e, hr⟩ := hc
  have ht := sys_node (cs := cs) hn
  have hpar : (Node.relay (.stream j (w.portOf x p)) {} none (.sender j' ch)).task.Partial (proj (.part (.launch, x) p.piece) (coreOf T) ++ [e]) := by
    have := hr.exec.tasks _ _ ht
    rwa [proj_append, proj_one, if_pos rfl] at this
  have vac : (∀ h, e.q ≠ .streamRead h) → False := by
    intro h1
    refine core_stops hno hrest hr ⟨?_, ?_, ?_, ?_⟩
    · rintro y h d r g; cases p <;> cases g
    · rintro y h r g; cases p <;> cases g
    · rintro y p h r _ rfl; exact (h1 _ rfl).elim
    · rintro y r g; cases p <;> cases g
  rcases relay_awaits hpar with hq | ⟨k, ch', rfl⟩
  case inr => exact (vac (by simp)).elim
  by_cases hw : ∃ h, e.q = .streamRead h
  case neg => exact (vac fun h g => hw ⟨h, g⟩).elim
  obtain ⟨h, he⟩ := hw
  rw [he] at hq
  have hh : h = w.portOf x p := by
    have := reading_sources ((A.wired hC).ok (.part (.launch, x) p.piece) _ hn) hq
    simpa [Node.sources, Pull.source] using this.symm
  subst hh
  have hempty : outPipe x p T = [] := by
    cases ho : outPipe x p T with
    | nil => rfl
    | cons b bs => exact absurd ⟨.draw x p [b], .draw ht hq (by rw [ho]; exact ⟨bs, rfl⟩) (by simp), by rintro _ _ ⟨⟩⟩ hno
  refine ⟨fun hs => ?_, hempty, _, hq⟩
  obtain ⟨r, hread⟩ := (hT.drawnPort x p).reads.next (hT.fine x p)
  refine core_stops hno hrest (hT.core.step hst ht (hq.step r) (st' := st) (by simp [Verif.exec]) (by rintro _ g; cases p <;> cases g)) ⟨?_, ?_, ?_, ?_⟩
  · rintro y h d r g; cases p <;> cases g
  · rintro y h r g; cases p <;> cases g
  · intro y q h r' g g'
    have hpq : y = x ∧ q = p := by cases p <;> cases q <;> simp [Port.piece] at g ⊢ <;> exact g.symm
    obtain ⟨rfl, rfl⟩ := hpq
    cases g'
    exact ⟨hread, Or.inr ⟨hs, hempty⟩⟩
  · rintro y r g; cases p <;> cases g

theorem relayOver_node (A : Rigged c hs w) (hC : Complete hs) {τ : List (Who × Ev)} {x : Str} {p : Piece} (hp : p ∈ relayPieces) (h : ¬ w.RelayOver cs τ x p) :
    ∃ k, w.node (.part (.launch, x) p) = some k ∧ ¬ k.task.Done (proj (.part (.launch, x) p) τ) := by
  unfold Waiter.RelayOver at h
  rw [Classical.not_forall] at h
  obtain ⟨t, h⟩ := h
  rw [Classical.not_imp] at h
  obtain ⟨k, hk, rfl⟩ := A.launchNode hC hp h.1
  exact ⟨k, hk, h.2⟩

/-- The exit part of a launch whose relays have ended goes on as long as the channels allow. -/
theorem Rigged.exit_stops (A : Rigged c hs w) (hC : Complete hs) (hT : w.WorldRun cs cap room prog T) (hst : execAll cap Store.init ((coreOf T).map Prod.snd) = some st)
    (hno : ¬ w.Lively cs cap room prog st T) {r : CompRef} {e : PushEnd} (he : w.sys cs (.part r .exit) = some (exitTask e)) (hd : ¬ (exitTask e).Done (proj (.part r .exit) (coreOf T)))
    (hdone : ∀ p ∈ relayPieces, ∀ t, w.sys cs (.part r p) = some t → t.Done (proj (.part r p) (coreOf T))) :
    ¬ ((st .data e.chan).closed = true ∨ hasRoom (cap .data e.chan) (st .data e.chan).q.length) := by
  intro hcl
  have hr := hT.core
  obtain ⟨x, rfl⟩ : ∃ x, r = (.launch, x) := by
    rcases A.others hC he node_no_exit with ⟨r', _, _, _, g, hl, _⟩ | ⟨_, _, g, _⟩ | ⟨_, _, g, _⟩ | ⟨_, _, g, _⟩
    · simp only [Who.part.injEq, and_true] at g
      subst g
      obtain ⟨ty, x⟩ := r
      simp only at hl
      exact ⟨x, by rw [hl]⟩
    all_goals cases g
  have hk : w.comps.get (.launch, x) ≠ none := by
    intro h; simp [Waiter.sys, h] at he
  have hrest : ¬ w.Resting cs st (coreOf T) (.part (.launch, x) .exit) := by
    rintro ((⟨_, _, _, h, _⟩ | ⟨_, h, _⟩) | ⟨_, _, h, _⟩)
    · have h : w.node (.part (.launch, x) .exit) = _ := h
      rw [node_no_exit] at h; cases h
    · cases h
    · cases h
  have gate : ∀ r, Who.part (.launch, x) .exit = .part r .exit → ∀ p ∈ relayPieces, ∀ t, w.sys cs (.part r p) = some t → t.Done (proj (.part r p) (coreOf T)) := by
    rintro r ⟨⟩; exact hdone
  obtain ⟨c, hexit⟩ : Exited (historyOf x T) := by
    refine Classical.byContradiction fun hx => ?_
    rcases program_waits hno hk hx with ⟨_, h3⟩ | ⟨q, h3, _⟩
    · exact h3 (hdone _ (by simp [relayPieces]))
    · exact h3 (hdone _ q.relays)
  obtain ⟨y, st', h1, h2⟩ := exit_goes (cap := cap) (st := st) (hr.exec.tasks _ _ he) hd hcl
  by_cases hq : y.q = .status
  · have hw : (exitTask e).Awaits (proj (.part (.launch, x) .exit) (coreOf T)) .status := by
      rcases h1.last with h | ⟨_, _, _, _, _, h⟩
      · rwa [hq] at h
      · simp [exitTask, dropEvs] at h
    refine core_stops hno hrest (hr.step hst he (hw.step (statusOf c)) (st' := st) (by simp [Verif.exec]) gate) ⟨?_, ?_, ?_, ?_⟩
    · rintro y h d r g; cases g
    · rintro y h r g; cases g
    · rintro y p h r g; cases p <;> cases g
    · rintro y r g g'
      simp only [Who.part.injEq, Prod.mk.injEq, true_and, and_true] at g
      subst g
      cases g'
      exact ⟨c, hexit, rfl⟩
  · refine core_stops hno hrest (hr.step hst he h1 h2 gate) ⟨?_, ?_, ?_, ?_⟩
    · rintro y h d r g; cases g
    · rintro y h r g; cases g
    · rintro y p h r g; cases p <;> cases g
    · rintro y r _ rfl; exact absurd rfl hq

/-- The reason behind C85. -/
theorem Rigged.all_over (A : Rigged c hs w) (hC : Complete hs) (M : Attended cs w) (hcf : NoWayBack hs) (hT : w.WorldRun cs cap room prog T) (hroom : 0 < room)
    (hst : execAll cap Store.init ((coreOf T).map Prod.snd) = some st) (hcap : ∀ k ch, cap k ch ≠ some 0)
    (hj : ∀ i inputs pushs spy, w.node i = some (.junction inputs pushs spy) → ∀ f ∈ acts (proj i (coreOf T)), f.ruins pushs = false)
    (hno : ¬ w.Lively cs cap room prog st T) (hun : ∀ r, ¬ w.Unheard cs cap st (coreOf T) r) (hpa : ∀ r, ¬ w.Paused cs st (coreOf T) r) : w.AllOver cs T := by
  have hr := hT.core
  have launched : ∀ {x p n}, w.node (.part (.launch, x) p) = some n → w.comps.get (.launch, x) ≠ none := by
    intro x p n hn h
    simp [Waiter.node, h] at hn
  have portIdle : ∀ {x} {p : Port} {n}, w.node (.part (.launch, x) p.piece) = some n → ¬ w.net.Idle st (coreOf T) (.part (.launch, x) p.piece) := by
    intro x p n hn
    obtain ⟨_, _, _, rfl⟩ := A.portNode hn
    rintro ⟨_, _, _, h, _⟩
    have h : w.node (.part (.launch, x) p.piece) = _ := h
    rw [hn] at h; cases h
  have leads : ∀ {x} {p : Port} {n}, w.node (.part (.launch, x) p.piece) = some n → LeadsOn hs (fun _ => True) (.part (.launch, x) .input) (.part (.launch, x) p.piece) := by
    intro x p n hn
    obtain ⟨_, h, hh, hx, hf, hwr⟩ := A.launch_stream hn (by cases p <;> simp [Port.piece])
    have := LeadsOn.program (via := fun _ => True) hh (congrArg Prod.fst hf) hx trivial
    rwa [hf, hwr] at this
  have over : w.Over cs (coreOf T) := by
    refine A.over_held (L := LeadsOn hs fun _ => True) (Blk := fun i => ¬ w.net.Idle st (coreOf T) i ∧ w.CanStep cs cap (coreOf T) i) hC M (fun h => .inside h) hcf hr hst hcap hj
      ⟨⟨?_⟩, hun⟩ hpa (fun i n hn hd hid hc => ⟨hid, hc⟩) ?_ ?_
    · rintro i t hn hx ht hd hrest ⟨e, hc⟩
      have hp : ∀ x p, p ∈ relayPieces → i ≠ .part (.launch, x) p := by
        rintro x p hp rfl
        obtain ⟨n, hn', _⟩ := A.launchNode hC hp ht
        rw [hn] at hn'; cases hn'
      refine core_stops hno hrest hc ⟨?_, ?_, ?_, ?_⟩
      · intro y h d r g; exact absurd g (hp _ _ (by simp [relayPieces]))
      · intro y h r g; exact absurd g (hp _ _ (by simp [relayPieces]))
      · intro y p h r g; exact absurd g (hp _ _ p.relays)
      · intro y r g; exact absurd g (hx _)
    · rintro i n hn hd ⟨hid, hc⟩
      have hi : (∃ x, i = .part (.launch, x) .input) ∨ ∃ x p, i = .part (.launch, x) (Port.piece p) := by
        refine Classical.byContradiction fun h => ?_
        rw [not_or, not_exists, not_exists] at h
        obtain ⟨e, hc⟩ := hc
        refine core_stops hno (node_unrested hn hid) hc ⟨?_, ?_, ?_, ?_⟩
        · intro y _ d r g; exact absurd g (h.1 _)
        · intro y _ r g; exact absurd g (h.1 _)
        · intro y p _ r g; exact absurd ⟨p, g⟩ (h.2 _)
        · rintro y r rfl; rw [node_no_exit] at hn; cases hn
      rcases hi with ⟨x, rfl⟩ | ⟨x, p, rfl⟩
      · right
        obtain ⟨h1, h2, _⟩ := A.input_waits hC hT hst hno hn hc
        rcases program_waits hno (launched hn) (fun h => h1 (Or.inr h)) with ⟨h3, _⟩ | ⟨p, h3, h4⟩
        · rw [h3] at h2; simp at h2; omega
        · obtain ⟨k, hk, hkd⟩ := relayOver_node A hC p.relays h3
          refine ⟨_, k, hk, fun _ => leads hk, hkd, portIdle hk, ?_, ?_⟩
          · rintro ⟨_, hb⟩
            rw [(A.port_waits hC hT hst hno hk hb).2.1] at h4
            simp at h4; omega
          · obtain ⟨_, _, _, rfl⟩ := A.portNode hk
            exact ⟨_, rfl⟩
      · obtain ⟨h1, h2, _⟩ := A.port_waits hC hT hst hno hn hc
        have hsrc : ∃ h, n.sources = [.handle h] := by
          obtain ⟨_, _, _, rfl⟩ := A.portNode hn
          exact ⟨_, rfl⟩
        rcases program_waits hno (launched hn) (fun h => h1 (Or.inr h)) with ⟨_, h3⟩ | ⟨q, h3, h4⟩
        · left
          obtain ⟨k, hk, hkd⟩ := relayOver_node A hC (by simp [relayPieces]) h3
          exact ⟨hsrc, _, k, hk, leads hn, hkd⟩
        · right
          obtain ⟨k, hk, hkd⟩ := relayOver_node A hC q.relays h3
          refine ⟨_, k, hk, fun h => ?_, hkd, portIdle hk, ?_, ?_⟩
          · obtain ⟨_, hs⟩ := hsrc
            exact absurd hs (h _)
          · rintro ⟨_, hb⟩
            rw [(A.port_waits hC hT hst hno hk hb).2.1] at h4
            simp at h4; omega
          · obtain ⟨_, _, _, rfl⟩ := A.portNode hk
            exact ⟨_, rfl⟩
    · exact fun r e => A.exit_stops hC hT hst hno
  refine ⟨over, fun x hk => Classical.byContradiction fun hx => ?_⟩
  rcases program_waits hno hk hx with ⟨_, h3⟩ | ⟨q, h3, _⟩
  · exact h3 fun t ht => over _ t ht
  · exact h3 fun t ht => over _ t ht

end
end Verif
