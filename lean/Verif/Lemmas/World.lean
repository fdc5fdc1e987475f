import Verif.Model.World
import Verif.Lemmas.WorldReads
import Verif.Lemmas.Last
import Verif.Lemmas.Jam
/-!
# What holds of pipes and programs at all times
-/
namespace Verif

@[simp] theorem coreOf_append (a b : List Happening) : coreOf (a ++ b) = coreOf a ++ coreOf b := by simp [coreOf]
@[simp] theorem historyOf_append (x : Str) (a b : List Happening) : historyOf x (a ++ b) = historyOf x a ++ historyOf x b := by simp [historyOf]
@[simp] theorem fedTo_append (x : Str) (a b : List Happening) : fedTo x (a ++ b) = fedTo x a ++ fedTo x b := by simp [fedTo]
@[simp] theorem drawnFrom_append (x : Str) (p : Port) (a b : List Happening) : drawnFrom x p (a ++ b) = drawnFrom x p a ++ drawnFrom x p b := by simp [drawnFrom]
@[simp] theorem takenIn_append (a b : List PEv) : takenIn (a ++ b) = takenIn a ++ takenIn b := by simp [takenIn]
@[simp] theorem putOut_append (p : Port) (a b : List PEv) : putOut p (a ++ b) = putOut p a ++ putOut p b := by simp [putOut]

@[simp] theorem coreOf_core (i : Who) (e : Ev) : coreOf [.core i e] = [(i, e)] := rfl
@[simp] theorem coreOf_feed (x : Str) (d : Bytes) : coreOf [.feed x d] = [] := rfl
@[simp] theorem coreOf_draw (x : Str) (p : Port) (d : Bytes) : coreOf [.draw x p d] = [] := rfl
@[simp] theorem coreOf_prog (x : Str) (e : PEv) : coreOf [.prog x e] = [] := rfl
@[simp] theorem historyOf_core (x : Str) (i : Who) (e : Ev) : historyOf x [.core i e] = [] := rfl
@[simp] theorem historyOf_feed (x y : Str) (d : Bytes) : historyOf x [.feed y d] = [] := rfl
@[simp] theorem historyOf_draw (x y : Str) (p : Port) (d : Bytes) : historyOf x [.draw y p d] = [] := rfl
@[simp] theorem historyOf_prog (x y : Str) (e : PEv) : historyOf x [.prog y e] = if y = x then [e] else [] := by
  unfold historyOf; by_cases h : y = x <;> simp [h]
@[simp] theorem fedTo_core (x : Str) (i : Who) (e : Ev) : fedTo x [.core i e] = [] := rfl
@[simp] theorem fedTo_feed (x y : Str) (d : Bytes) : fedTo x [.feed y d] = if y = x then d else [] := by simp [fedTo]
@[simp] theorem fedTo_draw (x y : Str) (p : Port) (d : Bytes) : fedTo x [.draw y p d] = [] := rfl
@[simp] theorem fedTo_prog (x y : Str) (e : PEv) : fedTo x [.prog y e] = [] := rfl
@[simp] theorem drawnFrom_core (x : Str) (p : Port) (i : Who) (e : Ev) : drawnFrom x p [.core i e] = [] := rfl
@[simp] theorem drawnFrom_feed (x y : Str) (p : Port) (d : Bytes) : drawnFrom x p [.feed y d] = [] := rfl
@[simp] theorem drawnFrom_draw (x y : Str) (p q : Port) (d : Bytes) : drawnFrom x p [.draw y q d] = if y = x ∧ q = p then [d] else [] := by
  unfold drawnFrom; by_cases h : y = x ∧ q = p <;> simp [h]
@[simp] theorem drawnFrom_prog (x y : Str) (p : Port) (e : PEv) : drawnFrom x p [.prog y e] = [] := rfl

theorem Exited.mono {a b : List PEv} (h : Exited a) : Exited (a ++ b) := by
  obtain ⟨c, hc⟩ := h
  exact ⟨c, List.mem_append_left _ hc⟩
theorem ShutIn.mono {a b : List PEv} (h : ShutIn a) : ShutIn (a ++ b) := h.imp (List.mem_append_left _) (Exited.mono)
theorem Shut.mono {p : Port} {a b : List PEv} (h : Shut p a) : Shut p (a ++ b) := h.imp (List.mem_append_left _) (Exited.mono)

section
variable {w : Waiter} {cs : List Capture} {cap : Caps} {room : Nat} {prog : Str → Program} {T : List Happening}

/-- The activities run as before. -/
theorem Waiter.WorldRun.core (h : w.WorldRun cs cap room prog T) : w.Run cs cap (coreOf T) := by
  induction h with
  | start =>
    refine ⟨⟨rfl, ?_⟩, ?_, ?_⟩
    · intro i t _
      exact Or.inl ⟨_, [], [], .nil, by cases h : t.body t.init <;> simp [Prog.Partial], rfl⟩
    · intro x hx; cases hx
    · intro τ₁ τ₂ r e h; simp [coreOf] at h
  | next _ ha ih =>
    cases ha with
    | core h _ => simpa using h
    | _ => simpa using ih

theorem Waiter.WorldRun.prefix {a b : List Happening} (h : w.WorldRun cs cap room prog (a ++ b)) : w.WorldRun cs cap room prog a := by
  rcases List.eq_nil_or_concat b with rfl | ⟨b', x, rfl⟩
  · simpa using h
  · rw [List.concat_eq_append, ← List.append_assoc] at h
    generalize hT : a ++ b' ++ [x] = T at h
    cases h with
    | start => simp at hT
    | next h _ =>
      obtain ⟨rfl, _⟩ := snoc_inj hT
      exact h.prefix
termination_by b.length
decreasing_by subst_vars; simp

/-- What has been read from a program it has written. -/
theorem Waiter.WorldRun.drawn (h : w.WorldRun cs cap room prog T) (x : Str) (p : Port) : (drawnFrom x p T).flatten <+: putOut p (historyOf x T) := by
  induction h with
  | start => simp [drawnFrom]
  | @next T a _ ha ih =>
    cases ha with
    | core _ _ => simpa using ih
    | feed => simpa using ih
    | @draw y q d t h h1 h2 h3 h4 =>
      simp only [drawnFrom_append, drawnFrom_draw, historyOf_append, historyOf_draw, List.append_nil]
      split
      · next e =>
        obtain ⟨rfl, rfl⟩ := e
        obtain ⟨u, hu⟩ := ih
        obtain ⟨v, hv⟩ := h3
        refine ⟨v, ?_⟩
        unfold outPipe at hv
        rw [← hu] at hv ⊢
        simp only [List.drop_left] at hv
        simp [← hv]
      · simpa using ih
    | prog =>
      simp only [drawnFrom_append, drawnFrom_prog, List.append_nil, historyOf_append, putOut_append]
      exact ih.trans (List.prefix_append _ _)

theorem Waiter.WorldRun.fine (h : w.WorldRun cs cap room prog T) (x : Str) (p : Port) : ∀ d ∈ drawnFrom x p T, d ≠ [] := by
  induction h with
  | start => intro d hd; cases hd
  | next _ ha ih =>
    cases ha with
    | draw h1 h2 h3 h4 =>
      intro d hd
      simp only [drawnFrom_append, drawnFrom_draw, List.mem_append] at hd
      rcases hd with hd | hd
      · exact ih d hd
      · split at hd
        · simp at hd; subst hd; exact h4
        · cases hd
    | _ => simpa using ih

/-- What a program has read has gone into the pipe. -/
theorem Waiter.WorldRun.taken (h : w.WorldRun cs cap room prog T) (x : Str) : takenIn (historyOf x T) <+: fedTo x T := by
  induction h with
  | start => simp [historyOf, takenIn]
  | @next T a _ ha ih =>
    cases ha with
    | core _ _ => simpa using ih
    | draw => simpa using ih
    | feed =>
      simp only [fedTo_append, historyOf_append, historyOf_feed, List.append_nil]
      exact ih.trans (List.prefix_append _ _)
    | @prog y e h1 h2 h3 h4 =>
      simp only [fedTo_append, fedTo_prog, historyOf_append, historyOf_prog, List.append_nil, takenIn_append]
      split
      · next e' =>
        subst e'
        cases e with
        | took d =>
          obtain ⟨u, hu⟩ := ih
          obtain ⟨_, v, hv⟩ := h4
          refine ⟨v, ?_⟩
          unfold inPipe at hv
          rw [← hu] at hv ⊢
          simp only [List.drop_left] at hv
          simp [takenIn, ← hv]
        | _ => simpa [takenIn] using ih
      · simpa [takenIn] using ih

variable {c : Config} {hs : List Hop}

theorem Rigged.inputNode (A : Rigged c hs w) {x : Str} {m : Node} (hm : w.node (.part (.launch, x) .input) = some m) :
    ∃ j ch j', m = .relay (.receiver j ch) {} none (.io j' (childOf (w.idOf (.launch, x))).stdin) := by
  obtain ⟨r, p', k, e1, hme, hk, hpl, hkn⟩ := A.node_inv hm
  simp only [Who.part.injEq] at e1
  obtain ⟨e1, e2⟩ := e1
  subst e1 e2
  rw [expected_launch _ _ _ _ rfl] at hpl
  rw [plain_launch hpl] at hkn
  simp only [Comp.node, LaunchEnds.pipe, LaunchEnds.toInput] at hkn
  split at hkn
  · cases hkn
  · cases hkn
    exact ⟨_, _, _, rfl⟩

theorem Rigged.portNode (A : Rigged c hs w) {x : Str} {p : Port} {m : Node} (hm : w.node (.part (.launch, x) p.piece) = some m) :
    ∃ j j' ch, m = .relay (.stream j (w.portOf x p)) {} none (.sender j' ch) := by
  obtain ⟨r, p', k, e1, hme, hk, hpl, hkn⟩ := A.node_inv hm
  simp only [Who.part.injEq] at e1
  obtain ⟨e1, e2⟩ := e1
  subst e1 e2
  rw [expected_launch _ _ _ _ rfl] at hpl
  rw [plain_launch hpl] at hkn
  cases p
  all_goals
    simp only [Port.piece, Comp.node, LaunchEnds.pipe, fromStream] at hkn
    split at hkn
    · cases hkn
    · cases hkn
      exact ⟨_, _, _, rfl⟩

theorem Rigged.launchNode (A : Rigged c hs w) (hC : Complete hs) {x : Str} {p : Piece} (hp : p ∈ relayPieces) {t : Task} (ht : w.sys cs (.part (.launch, x) p) = some t) :
    ∃ n, w.node (.part (.launch, x) p) = some n ∧ t = n.task := by
  cases hn : w.node (.part (.launch, x) p) with
  | some n => rw [sys_node hn] at ht; cases ht; exact ⟨n, rfl, rfl⟩
  | none =>
    exfalso
    rcases A.others hC ht hn with ⟨_, _, _, _, he, _⟩ | ⟨_, _, he, _⟩ | ⟨_, _, he, _⟩ | ⟨_, _, he, _⟩
    · simp only [Who.part.injEq] at he; obtain ⟨_, rfl⟩ := he; simp [relayPieces] at hp
    · simp only [Who.part.injEq] at he; obtain ⟨_, rfl⟩ := he; simp [relayPieces] at hp
    · cases he
    · simp only [Who.part.injEq] at he; obtain ⟨_, rfl⟩ := he; simp [relayPieces] at hp

theorem Port.relays (p : Port) : p.piece ∈ relayPieces := by cases p <;> simp [Port.piece, relayPieces]

theorem proj_one (i j : Who) (e : Ev) : proj i [(j, e)] = if j = i then [e] else [] := by
  unfold proj; by_cases h : j = i <;> simp [h]

theorem acceptedBy_none {s : End} {e : Ev} (h : ∀ d, act e ≠ .offer s d .ok) : acceptedBy s [e] = [] := by
  unfold acceptedBy offers acts
  simp only [List.map_cons, List.map_nil]
  generalize act e = a at h
  cases a with
  | offer t d r =>
    simp only [List.filterMap_cons, List.filterMap_nil]
    split
    · rfl
    · next heq =>
      exfalso
      split at heq
      · next hh => obtain ⟨h1, h2⟩ := hh; exact h d (by rw [← h1, h2])
      · cases heq
  | _ => rfl

theorem act_write {h : Nat} {d : Bytes} {e : Ev} (he : act e = .offer (.handle h) d .ok) : e = ⟨.ioWrite h d, .ok⟩ := by
  obtain ⟨q, r⟩ := e
  cases q with
  | recv k c => cases k <;> cases r <;> simp [act] at he
  | tryRecv k c => cases k <;> cases r <;> simp [act] at he
  | send k c v => cases k <;> simp [act] at he
  | streamRead h => cases r <;> simp [act] at he
  | ioWrite h d => cases r <;> simp [act] at he; obtain ⟨rfl, rfl⟩ := he; rfl
  | _ => simp [act] at he

/-- Writes to a program: what has gone into the pipe is what was written, and a part of what is being written. -/
structure Waiter.Fed (w : Waiter) (T : List Happening) (x : Str) (t : Task) : Prop where
  given : w.given T x <+: fedTo x T
  begun : ¬ ShutIn (historyOf x T) → (∀ h m, t.Awaits (proj (.part (.launch, x) .input) (coreOf T)) (.ioWrite h m) → w.begun T x <+: m) ∧
    ((∀ h m, ¬ t.Awaits (proj (.part (.launch, x) .input) (coreOf T)) (.ioWrite h m)) → w.begun T x = [])

theorem Rigged.fed (A : Rigged c hs w) (hC : Complete hs) (h : w.WorldRun cs cap room prog T) {x : Str} {t : Task} (ht : w.sys cs (.part (.launch, x) .input) = some t) : w.Fed T x t := by
  obtain ⟨n, hn, rfl⟩ := A.launchNode hC (by simp [relayPieces]) ht
  obtain ⟨j, ch, j', rfl⟩ := A.inputNode hn
  induction h with
  | start =>
    have e1 : w.given [] x = [] := rfl
    have e2 : w.begun [] x = [] := by simp [Waiter.begun, fedTo]
    exact ⟨by rw [e1]; exact List.nil_prefix, fun _ => ⟨fun _ _ _ => by rw [e2]; exact List.nil_prefix, fun _ => e2⟩⟩
  | @next T a hT ha ih =>
    -- unchanged as far as the activities are concerned
    have same : ∀ {b : Happening}, coreOf [b] = [] → fedTo x [b] = [] → w.Fed (T ++ [b]) x (Node.relay (.receiver j ch) {} none (.io j' (childOf (w.idOf (.launch, x))).stdin)).task := by
      intro b h1 h2
      have e1 : w.given (T ++ [b]) x = w.given T x := by simp [Waiter.given, h1]
      have e2 : fedTo x (T ++ [b]) = fedTo x T := by simp [h2]
      have e3 : w.begun (T ++ [b]) x = w.begun T x := by simp only [Waiter.begun, e1, e2]
      have e4 : coreOf (T ++ [b]) = coreOf T := by simp [h1]
      refine ⟨by rw [e1, e2]; exact ih.given, fun hs => ?_⟩
      rw [e3, e4]
      exact ih.begun fun g => hs (by rw [historyOf_append]; exact g.mono)
    cases ha with
    | draw => exact same rfl rfl
    | prog => exact same rfl rfl
    | @feed y d m t' h h1 h2 h3 h4 h5 h6 =>
      by_cases hy : y = x
      · subst hy
        rw [ht] at h1
        cases h1
        have e1 : w.given (T ++ [.feed y d]) y = w.given T y := by simp [Waiter.given]
        have e2 : fedTo y (T ++ [.feed y d]) = fedTo y T ++ d := by simp
        have e3 : w.begun (T ++ [.feed y d]) y = w.begun T y ++ d := by
          simp only [Waiter.begun, e1, e2]
          rw [List.drop_append_of_le_length ih.given.length_le]
        refine ⟨by rw [e1, e2]; exact ih.given.trans (List.prefix_append _ _), fun hs => ?_⟩
        simp only [coreOf_append, coreOf_feed, List.append_nil]
        refine ⟨fun h' m' hq => ?_, fun hno => absurd h2 (hno _ _)⟩
        have : (.ioWrite h' m' : Req) = .ioWrite h m := h2.next (e := ⟨.ioWrite h' m', .ok⟩) (hq.step .ok)
        cases this
        rw [e3]; exact h3
      · exact same rfl (by simp [hy])
    | @core i e h1 h2 =>
      by_cases hi : i = .part (.launch, x) .input
      · subst hi
        have hpar : (Node.relay (.receiver j ch) {} none (.io j' (childOf (w.idOf (.launch, x))).stdin)).task.Partial (proj (.part (.launch, x) .input) (coreOf T) ++ [e]) := by
          have := h1.exec.tasks _ _ ht
          rwa [proj_append, proj_one, if_pos rfl] at this
        have e0 : coreOf (T ++ [.core (.part (.launch, x) .input) e]) = coreOf T ++ [(.part (.launch, x) .input, e)] := by simp
        have e2 : fedTo x (T ++ [.core (.part (.launch, x) .input) e]) = fedTo x T := by simp
        have e1 : w.given (T ++ [.core (.part (.launch, x) .input) e]) x = w.given T x ++ (acceptedBy (.handle (childOf (w.idOf (.launch, x))).stdin) [e]).flatten := by
          simp [Waiter.given, proj_one]
        have e5 : historyOf x (T ++ [.core (.part (.launch, x) .input) e]) = historyOf x T := by simp
        by_cases hok : ∃ d, act e = .offer (.handle (childOf (w.idOf (.launch, x))).stdin) d .ok
        · obtain ⟨d, hd⟩ := hok
          have he := act_write hd
          rcases h2.write x _ d .ok rfl he with ⟨_, hb⟩ | ⟨hb, _⟩
          · have e6 : w.given (T ++ [.core (.part (.launch, x) .input) e]) x = fedTo x T := by
              have : acceptedBy (.handle (childOf (w.idOf (.launch, x))).stdin) [e] = [d] := by simp [acceptedBy, offers, acts, hd]
              rw [e1, this]
              obtain ⟨u, hu⟩ := ih.given
              rw [← hb, Waiter.begun, ← hu]
              simp
            have e7 : w.begun (T ++ [.core (.part (.launch, x) .input) e]) x = [] := by simp [Waiter.begun, e6]
            refine ⟨by rw [e6, e2]; exact List.prefix_rfl, fun _ => ⟨fun _ _ _ => by rw [e7]; exact List.nil_prefix, fun _ => e7⟩⟩
          · cases hb
        · rw [acceptedBy_none (fun d hd => hok ⟨d, hd⟩)] at e1
          simp only [List.flatten_nil, List.append_nil] at e1
          have e3 : w.begun (T ++ [.core (.part (.launch, x) .input) e]) x = w.begun T x := by simp only [Waiter.begun, e1, e2]
          refine ⟨by rw [e1, e2]; exact ih.given, fun hs => ?_⟩
          rw [e5] at hs
          have hempty : w.begun T x = [] := by
            refine (ih.begun hs).2 fun h m hq => ?_
            have := hq.next (e := e) (u := []) hpar
            obtain ⟨q, r⟩ := e
            simp only at this
            subst this
            have hto := (node_conduct ((A.wired hC).ok (.part (.launch, x) .input) _ hn) (hq.step .ok)).to ⟨.handle h, m, .ok⟩ (by simp [offers, acts, act])
            simp [Node.targets, Push.target] at hto
            subst hto
            rcases h2.write x _ m r rfl rfl with ⟨rfl, _⟩ | ⟨rfl, g⟩
            · exact hok ⟨m, rfl⟩
            · exact hs g
          rw [e3, hempty]
          exact ⟨fun _ _ _ => List.nil_prefix, fun _ => rfl⟩
      · have e0 : proj (.part (.launch, x) .input) (coreOf (T ++ [.core i e])) = proj (.part (.launch, x) .input) (coreOf T) := by simp [proj_one, hi]
        have e1 : w.given (T ++ [.core i e]) x = w.given T x := by simp only [Waiter.given, e0]
        have e2 : fedTo x (T ++ [.core i e]) = fedTo x T := by simp
        have e3 : w.begun (T ++ [.core i e]) x = w.begun T x := by simp only [Waiter.begun, e1, e2]
        have e5 : historyOf x (T ++ [.core i e]) = historyOf x T := by simp
        refine ⟨by rw [e1, e2]; exact ih.given, fun hs => ?_⟩
        rw [e3, e0]
        rw [e5] at hs
        exact ih.begun hs

theorem answers_other {h : Nat} {e : Ev} (he : ∀ r, e ≠ ⟨.streamRead h, r⟩) : answers h [e] = [] := by
  unfold answers
  simp only [List.filterMap_cons, List.filterMap_nil]
  split
  · rfl
  · next heq =>
    exfalso
    split at heq
    · next h' r =>
      split at heq
      · next g => subst g; exact he r rfl
      · cases heq
    · cases heq

/-- Reads from a program: lines as they have come, and nothing else unless nothing more comes. -/
structure Waiter.Drawn (w : Waiter) (T : List Happening) (x : Str) (p : Port) : Prop where
  reads : ReadsFrom (w.portOf x p) (drawnFrom x p T) (proj (.part (.launch, x) p.piece) (coreOf T))
  whole : (∀ r ∈ answers (w.portOf x p) (proj (.part (.launch, x) p.piece) (coreOf T)), ∃ d, r = .line (d ++ [10])) ∨ Shut p (historyOf x T) ∧ outPipe x p T = []

theorem Waiter.WorldRun.drawnPort (h : w.WorldRun cs cap room prog T) (x : Str) (p : Port) : w.Drawn T x p := by
  induction h with
  | start =>
    refine ⟨?_, Or.inl ?_⟩
    · unfold ReadsFrom; rfl
    · intro r hr; cases hr
  | @next T a hT ha ih =>
    cases ha with
    | feed => exact ⟨by simpa using ih.reads, by simpa [outPipe] using ih.whole⟩
    | @draw y q d t h h1 h2 h3 h4 =>
      by_cases hy : y = x ∧ q = p
      · obtain ⟨rfl, rfl⟩ := hy
        have hl := ih.whole.resolve_right fun g => by
          rw [g.2] at h3
          exact h4 (List.prefix_nil.mp h3)
        refine ⟨?_, Or.inl ?_⟩
        · simp only [drawnFrom_append, drawnFrom_draw, coreOf_append, coreOf_draw, List.append_nil, and_self, if_true]
          exact ih.reads.more (hT.fine y q) hl h4
        · simpa using hl
      · have e1 : drawnFrom x p (T ++ [.draw y q d]) = drawnFrom x p T := by rw [drawnFrom_append, drawnFrom_draw, if_neg hy, List.append_nil]
        refine ⟨by rw [e1]; simpa using ih.reads, ?_⟩
        unfold outPipe
        rw [e1]
        simpa [outPipe] using ih.whole
    | @prog y e h1 h2 h3 h4 =>
      refine ⟨by simpa using ih.reads, ?_⟩
      rcases ih.whole with g | ⟨g1, g2⟩
      · left; simpa using g
      · right
        refine ⟨by rw [historyOf_append]; exact g1.mono, ?_⟩
        have : putOut p (historyOf x (T ++ [.prog y e])) = putOut p (historyOf x T) := by
          simp only [historyOf_append, historyOf_prog, putOut_append]
          split
          · next hy =>
            subst hy
            cases e with
            | put q d =>
              by_cases hq : q = p
              · subst hq; exact absurd g1 h4.1
              · simp [putOut, hq]
            | _ => simp [putOut]
          · simp [putOut]
        unfold outPipe at g2 ⊢
        rw [this]
        simpa using g2
    | @core i e h1 h2 =>
      have e1 : drawnFrom x p (T ++ [.core i e]) = drawnFrom x p T := by simp
      have e2 : outPipe x p (T ++ [.core i e]) = outPipe x p T := by simp [outPipe]
      have e3 : historyOf x (T ++ [.core i e]) = historyOf x T := by simp
      have e4 : proj (.part (.launch, x) p.piece) (coreOf (T ++ [.core i e])) = proj (.part (.launch, x) p.piece) (coreOf T) ++ proj (.part (.launch, x) p.piece) [(i, e)] := by simp
      by_cases hr : i = .part (.launch, x) p.piece ∧ ∃ r, e = ⟨.streamRead (w.portOf x p), r⟩
      · obtain ⟨rfl, r, rfl⟩ := hr
        rw [proj_one, if_pos rfl] at e4
        obtain ⟨g1, g2⟩ := h2.read x p _ r rfl rfl
        refine ⟨by rw [e1, e4]; exact g1, ?_⟩
        rw [e2, e3, e4]
        rcases ih.whole with g | g
        · refine g2.imp (fun ⟨d, hd⟩ r' hr' => ?_) (fun g => g)
          rw [answers_append, List.mem_append] at hr'
          rcases hr' with hr' | hr'
          · exact g r' hr'
          · simp [answers] at hr'
            subst hr'
            exact ⟨d, hd⟩
        · exact Or.inr g
      · have e5 : answers (w.portOf x p) (proj (.part (.launch, x) p.piece) (coreOf (T ++ [.core i e]))) = answers (w.portOf x p) (proj (.part (.launch, x) p.piece) (coreOf T)) := by
          rw [e4, answers_append, proj_one]
          split
          · next g => rw [answers_other (fun r h => hr ⟨g, r, h⟩), List.append_nil]
          · simp [answers]
        refine ⟨?_, by rw [e2, e3, e5]; exact ih.whole⟩
        have := ih.reads
        unfold ReadsFrom at this ⊢
        rw [e5, e1]; exact this

end
end Verif
