import Verif.Lemmas.WorldFinite
import Verif.Lemmas.WorldProgress
import Verif.Lemmas.Rested
import Verif.Lemmas.Transit
/-!
# Why a fair schedule comes to an end
-/
namespace Verif

/-- When everything has ended nothing can happen. -/
theorem Waiter.AllOver.still {w : Waiter} {cs : List Capture} {cap : Caps} {room : Nat} {prog : Str → Program} {T : List Happening} (h : w.AllOver cs T) {a : Happening} :
    ¬ w.Next cs cap room prog T a := by
  intro ha
  cases ha with
  | @core i e h1 _ =>
    obtain ⟨t, ht⟩ := Option.ne_none_iff_exists'.mp (h1.known (i, e) (by simp))
    have := h1.exec.tasks i t ht
    rw [proj_append, proj_cons_self] at this
    exact (h.1 i t ht).stops this
  | feed h1 h2 => exact (h.1 _ _ h1).no_awaits h2 .ok
  | draw h1 h2 => exact (h.1 _ _ h1).no_awaits h2 .eof
  | prog h1 h2 => exact h2 (h.2 _ h1)

section
variable {c : Config} {hs : List Hop} {w : Waiter} {cs : List Capture} {cap : Caps} {room : Nat} {prog : Str → Program} {σ : Nat → Option Happening}

theorem Waiter.Run.silent {τ : List (Who × Ev)} (hr : w.Run cs cap τ) {i : Who} (h : w.sys cs i = none) : proj i τ = [] := by
  rw [List.eq_nil_iff_forall_not_mem]
  intro e he
  exact hr.known _ (mem_proj.mp he) h

/-- What everybody receives is limited. -/
theorem Rigged.worldBound (A : Rigged c hs w) (hC : Complete hs) (hcf : NoWayBack hs) (runs : ∀ n, w.WorldRun cs cap room prog (soFar σ n)) (hp : ∀ x, w.comps.get (.launch, x) ≠ none → (prog x).Finite)
    (hB : ∀ x nd h, w.node (.part (.faucet, x) .main) = some nd → .handle h ∈ nd.sources → ∃ B, ∀ n, (receivedFrom (.handle h) (proj (.part (.faucet, x) .main) (coreOf (soFar σ n)))).length ≤ B) (k : Nat) :
    ∀ i nd, w.node i = some nd → rankIn (LeadsOn hs fun _ => True) (w.everyone cs) i < k → ∃ M, ∀ n, (received (proj i (coreOf (soFar σ n)))).length ≤ M := by
  have W := A.wired hC
  have mem_everyone : ∀ {i n}, w.node i = some n → i ∈ w.everyone cs := fun {i n} hn => sys_everyone (by rw [sys_node hn]; simp)
  induction k with
  | zero => intro i nd _ h; omega
  | succ k ih =>
    intro i nd hn hk
    have srcs : ∀ s ∈ nd.sources, ∃ K, ∀ n, True → (receivedFrom s (proj i (coreOf (soFar σ n)))).length ≤ K := by
      intro s hs'
      cases s with
      | chan ch =>
        by_cases hint : ∃ a, w.net.Edge a ch i
        · obtain ⟨a, he⟩ := hint
          obtain ⟨m, hm⟩ : ∃ m, w.node a = some m := by obtain ⟨m, _, hm, _⟩ := he; exact ⟨m, hm⟩
          have hlt : rankIn (LeadsOn hs fun _ => True) (w.everyone cs) a < rankIn (LeadsOn hs fun _ => True) (w.everyone cs) i := by
            refine rankIn_lt hcf (mem_everyone hm) (.inside ?_)
            rcases (A.edges hC a ch i).mp he with ⟨h, h1, h2, rfl, rfl, _⟩ | ⟨x, h1, _, rfl, rfl⟩
            · exact .hop (List.mem_of_getElem? h1) h2
            · exact .buffer h1
          obtain ⟨M, hM⟩ := ih a m hm (by omega)
          refine ⟨M, fun n _ => ?_⟩
          obtain ⟨E, U⟩ := A.run hC (runs n).core
          have := (C55_channel W E U he).1.length_le
          have := hM n
          omega
        · refine ⟨1, fun n _ => ?_⟩
          obtain ⟨r, p, k, rfl, hme, _, _, hkn⟩ := A.node_inv hn
          rcases (A.sources hn ch).mp hs' with ⟨h, h1, h2⟩ | ⟨h1, h2, h3⟩
          · by_cases hx : h.isExit
            · have := A.exitOnce hC (runs n).core h1 hx (by rw [h2]; exact hn)
              rwa [h2] at this
            · exact absurd ⟨_, (A.edges hC _ ch _).mpr (Or.inl ⟨h, h1, hx, rfl, h2.symm, nd, by rw [h2]; exact hn⟩)⟩ hint
          · obtain ⟨ty, x⟩ := r
            simp only at h1
            subst h1
            subst h2
            exact absurd ⟨_, (A.edges hC _ ch _).mpr (Or.inr ⟨x, hme, by rw [← A.chans]; exact h3, rfl, rfl⟩)⟩ hint
      | handle h =>
        rcases A.handles hn hs' with ⟨x, rfl⟩ | ⟨x, p, rfl⟩
        · obtain ⟨B, hB⟩ := hB x nd h hn hs'
          exact ⟨B, fun n _ => hB n⟩
        · have hin : ∃ M, ∀ n, (received (proj (.part (.launch, x) .input) (coreOf (soFar σ n)))).length ≤ M := by
            cases ht : w.sys cs (.part (.launch, x) .input) with
            | none => exact ⟨0, fun n => by rw [(runs n).core.silent ht]; simp [received, acts]⟩
            | some t =>
              obtain ⟨m, hm, _⟩ := A.launchNode hC (by simp [relayPieces]) ht
              refine ih _ m hm ?_
              have hl : LeadsOn hs (fun _ => True) (.part (.launch, x) .input) (.part (.launch, x) p.piece) := by
                obtain ⟨_, h, hh, hx, hf, hwr⟩ := A.launch_stream hn (by cases p <;> simp [Port.piece])
                have := LeadsOn.program (via := fun _ => True) hh (congrArg Prod.fst hf) hx trivial
                rwa [hf, hwr] at this
              have := rankIn_lt hcf (mem_everyone hm) hl
              omega
          obtain ⟨M, hM⟩ := hin
          obtain ⟨_, N, hN⟩ := A.historyBound hC runs (hp x (by intro h; simp [Waiter.node, h] at hn)) hM
          refine ⟨(putOut p (historyOf x (soFar σ N))).length, fun n _ => ?_⟩
          obtain ⟨j, j', ch, rfl⟩ := A.portNode hn
          have hh : h = w.portOf x p := by simpa [Node.sources, Pull.source] using hs'
          subst hh
          obtain ⟨chunks, h1, h2, h3⟩ := (runs n).portReads x p
          have h4 := (h3.lines h1).1.length_le
          have h5 := specLines_few chunks.flatten
          have h6 := (putOut_prefix (p := p) (hN n)).length_le
          rw [h2] at h4 h5
          omega
    obtain ⟨K, hK⟩ := total_bound (P := fun _ : Nat => True) srcs
    refine ⟨K, fun n => ?_⟩
    obtain ⟨E, U⟩ := A.run hC (runs n).core
    have h1 := received_sum (fun s d h => (w.net.conduct W E hn).got s d h)
    exact Nat.le_trans h1 (hK n trivial)

theorem NoWayBack.circleFree (h : NoWayBack hs) : CircleFree hs := by
  have mono : ∀ {i j}, Relation.TransGen (Leads hs) i j → Relation.TransGen (LeadsOn hs fun _ => True) i j := by
    intro i j hij
    induction hij with
    | single h => exact .single (.inside h)
    | tail _ h ih => exact .tail ih (.inside h)
  exact fun i hi => h i (mono hi)

/-- A program's exit status is never unknown. -/
theorem Waiter.WorldRun.known_status {T : List Happening} (h : w.WorldRun cs cap room prog T) {x : Str} {s : StatusRes} (hm : (⟨.status, s⟩ : Ev) ∈ proj (.part (.launch, x) .exit) (coreOf T)) :
    s ≠ .err := by
  induction h with
  | start => cases hm
  | @next T a hT ha ih =>
    rw [coreOf_append, proj_append, List.mem_append] at hm
    rcases hm with hm | hm
    · exact ih hm
    · cases ha with
      | core hr hans =>
        rw [coreOf_core] at hm
        have h1 := mem_proj.mp hm
        rw [List.mem_singleton, Prod.mk.injEq] at h1
        obtain ⟨c, _, rfl⟩ := hans.status x s h1.1.symm h1.2.symm
        cases c <;> simp [statusOf]
      | feed => cases hm
      | draw => cases hm
      | prog => cases hm

/-- A program's exit status is asked for a few times at most. -/
theorem Rigged.asked (A : Rigged c hs w) (hC : Complete hs) {T : List Happening} (h : w.WorldRun cs cap room prog T) (r : CompRef) : timesAsked (proj (.part r .exit) (coreOf T)) ≤ 3 := by
  cases ht : w.sys cs (.part r .exit) with
  | none => rw [h.core.silent ht]; simp [timesAsked]
  | some t =>
    rcases A.others hC ht node_no_exit with ⟨r', e, _, _, g, hl, rfl, _, _⟩ | ⟨_, _, g, _⟩ | ⟨_, _, g, _⟩ | ⟨_, _, g, _⟩
    case inl =>
      simp only [Who.part.injEq, and_true] at g
      subst g
      obtain ⟨ty, x⟩ := r
      simp only at hl
      subst hl
      obtain ⟨k, s, m, b, _, hpre⟩ := exit_partial (h.core.exec.tasks _ _ ht)
      refine Nat.le_trans List.countP_le_length ?_
      cases htr : proj (.part (.launch, x) .exit) (coreOf T) with
      | nil => simp
      | cons y ys =>
        rw [htr] at hpre
        have hk : k = 0 := by
          cases k with
          | zero => rfl
          | succ k =>
            exfalso
            have he : ∃ l, exitScript e (k + 1) s m b = ⟨.status, .err⟩ :: l := by
              cases b <;> exact ⟨_, by simp [exitScript, inVain, List.replicate_succ]; rfl⟩
            obtain ⟨l, hl⟩ := he
            rw [hl, List.cons_prefix_cons] at hpre
            exact h.known_status (x := x) (by rw [htr, hpre.1]; exact List.mem_cons_self) rfl
        subst hk
        have := hpre.length_le
        cases b <;> simp [exitScript, inVain] at this ⊢ <;> omega
    all_goals cases g

/-- How often anybody gets anything forward is limited. -/
theorem Rigged.worldMoves (A : Rigged c hs w) (M : Attended cs w) (hC : Complete hs) (hcf : NoWayBack hs) (hlh : ∀ a ∈ cs, a.low < a.high)
    (runs : ∀ n, w.WorldRun cs cap room prog (soFar σ n)) (hp : ∀ x, w.comps.get (.launch, x) ≠ none → (prog x).Finite)
    (hB : ∀ x nd h, w.node (.part (.faucet, x) .main) = some nd → .handle h ∈ nd.sources → ∃ B, ∀ n, (receivedFrom (.handle h) (proj (.part (.faucet, x) .main) (coreOf (soFar σ n)))).length ≤ B) :
    (∃ K, ∀ i nd, w.node i = some nd → ∀ n, (received (proj i (coreOf (soFar σ n)))).length ≤ K) ∧ ∀ i, ∃ K, ∀ n, (proj i (upTo (coreAt σ) n)).countP (w.moves i) ≤ K := by
  obtain ⟨K, hK⟩ := together (l := w.everyone cs) (P := fun i K => ∀ nd, w.node i = some nd → ∀ n, (received (proj i (coreOf (soFar σ n)))).length ≤ K) (by
    intro i _
    cases hn : w.node i with
    | none => exact ⟨0, fun _ _ nd h => by cases h⟩
    | some nd =>
      obtain ⟨K, hK⟩ := A.worldBound hC hcf runs hp hB _ i nd hn (Nat.lt_succ_self _)
      exact ⟨K, fun m hm _ _ n => Nat.le_trans (hK n) hm⟩)
  have hall : ∀ i nd, w.node i = some nd → ∀ n, (received (proj i (coreOf (soFar σ n)))).length ≤ K :=
    fun i nd hn n => hK K (Nat.le_refl _) i (sys_everyone (by rw [sys_node hn]; simp)) nd hn n
  refine ⟨⟨K, hall⟩, fun i => ?_⟩
  obtain ⟨L, hL⟩ := A.bounded_by (cap := cap) M hC hcf.circleFree hlh (max K 3) i
  refine ⟨L, fun n => ?_⟩
  rw [← coreOf_soFar]
  refine hL _ (runs n).core ⟨fun i nd h hn => ?_, fun r => ?_⟩
  · exact Nat.le_trans (receivedFrom_received _ _) (Nat.le_trans (hall i nd hn n) (Nat.le_max_left _ _))
  · exact Nat.le_trans (A.asked hC (runs n) r) (Nat.le_max_right _ _)

theorem Waiter.WorldRun.last {T : List Happening} {a : Happening} (h : w.WorldRun cs cap room prog (T ++ [a])) : w.Next cs cap room prog T a := by
  generalize hT : T ++ [a] = U at h
  cases h with
  | start => simp at hT
  | next _ h =>
    obtain ⟨rfl, rfl⟩ := snoc_inj hT
    exact h

theorem scheduled (runs : ∀ n, w.WorldRun cs cap room prog (soFar σ n)) {n : Nat} {a : Happening} (h : σ n = some a) : w.Next cs cap room prog (soFar σ n) a := by
  have := runs (n + 1)
  rw [soFar, h] at this
  exact this.last

/-- It is an activity that acts. -/
def Happening.IsCore (a : Happening) : Prop := ∃ i e, a = .core i e

/-- How much a program and its pipes have done. -/
def doneAt (σ : Nat → Option Happening) (x : Str) (n : Nat) : Nat :=
  (fedTo x (soFar σ n)).length + (historyOf x (soFar σ n)).length + (drawnFrom x .out (soFar σ n)).flatten.length + (drawnFrom x .err (soFar σ n)).flatten.length

/-- The launch whose program or pipe makes something happen. -/
def Happening.launch : Happening → Option Str
  | .core _ _ => none
  | .feed x _ => some x
  | .draw x _ _ => some x
  | .prog x _ => some x

theorem Rigged.launches (A : Rigged c hs w) (hC : Complete hs) {T : List Happening} {a : Happening} {x : Str} (h : w.Next cs cap room prog T a) (hx : a.launch = some x) :
    w.comps.get (.launch, x) ≠ none := by
  have key : ∀ {p t}, p ∈ relayPieces → w.sys cs (.part (.launch, x) p) = some t → w.comps.get (.launch, x) ≠ none := by
    intro p t hp ht
    obtain ⟨n, hn, _⟩ := A.launchNode hC hp ht
    intro h
    simp [Waiter.node, h] at hn
  cases h with
  | core => cases hx
  | feed h1 => cases hx; exact key (by simp [relayPieces]) h1
  | @draw y p d t k h1 => cases hx; exact key p.relays h1
  | prog h1 => cases hx; exact h1

theorem doneAt_step (runs : ∀ n, w.WorldRun cs cap room prog (soFar σ n)) (x : Str) (n : Nat) :
    doneAt σ x n ≤ doneAt σ x (n + 1) ∧ ∀ a, σ n = some a → a.launch = some x → doneAt σ x n < doneAt σ x (n + 1) := by
  constructor
  · simp only [doneAt, soFar, fedTo_append, historyOf_append, drawnFrom_append, List.length_append, List.flatten_append]
    omega
  · intro a ha hx
    have h := scheduled runs ha
    simp only [doneAt, soFar, ha, fedTo_append, historyOf_append, drawnFrom_append, List.length_append, List.flatten_append, Option.toList_some]
    cases h with
    | core => cases hx
    | @feed y d m t k _ _ _ hd =>
      cases hx
      have := List.length_pos_iff.mpr hd
      simp only [fedTo_feed, if_true]
      omega
    | @draw y p d t k _ _ _ hd =>
      cases hx
      have := List.length_pos_iff.mpr hd
      cases p <;> simp [drawnFrom] <;> omega
    | prog =>
      cases hx
      simp only [historyOf_prog, if_true, List.length_singleton]
      omega

/-- From some time on neither programs nor pipes do anything. -/
theorem Rigged.quietens (A : Rigged c hs w) (hC : Complete hs) (runs : ∀ n, w.WorldRun cs cap room prog (soFar σ n)) (hp : ∀ x, w.comps.get (.launch, x) ≠ none → (prog x).Finite) {K : Nat}
    (hK : ∀ i nd, w.node i = some nd → ∀ n, (received (proj i (coreOf (soFar σ n)))).length ≤ K) : ∃ n, ∀ m, n ≤ m → ∀ a, σ m = some a → a.IsCore := by
  obtain ⟨n, hn⟩ := together (l := w.comps.map fun k => k.1.2) (P := fun x m => ∀ a, σ m = some a → a.launch ≠ some x) (by
    intro x _
    by_cases hx : w.comps.get (.launch, x) = none
    · exact ⟨0, fun m _ a ha hl => A.launches hC (scheduled runs ha) hl hx⟩
    have hin : ∀ n, (received (proj (.part (.launch, x) .input) (coreOf (soFar σ n)))).length ≤ K := by
      intro n
      cases ht : w.sys cs (.part (.launch, x) .input) with
      | none => rw [(runs n).core.silent ht]; simp [received, acts]
      | some t =>
        obtain ⟨m, hm, _⟩ := A.launchNode hC (by simp [relayPieces]) ht
        exact hK _ m hm n
    obtain ⟨⟨F, hF⟩, N, hN⟩ := A.historyBound hC runs (hp x hx) hin
    have hb : ∀ n, doneAt σ x n ≤ F + (historyOf x (soFar σ N)).length + (putOut .out (historyOf x (soFar σ N))).length + (putOut .err (historyOf x (soFar σ N))).length := by
      intro n
      have h1 := hF n
      have h2 := (hN n).length_le
      have h3 := ((runs n).drawn x .out).length_le
      have h4 := ((runs n).drawn x .err).length_le
      have h5 := (putOut_prefix (p := .out) (hN n)).length_le
      have h6 := (putOut_prefix (p := .err) (hN n)).length_le
      unfold doneAt
      omega
    obtain ⟨n, hn⟩ := settles (fun n => (doneAt_step runs x n).1) hb
    refine ⟨n, fun m hm a ha hx => ?_⟩
    have h1 := (doneAt_step runs x m).2 a ha hx
    have h2 := hn m hm
    have h3 := hn (m + 1) (by omega)
    omega)
  refine ⟨n, fun m hm a ha => ?_⟩
  cases hx : a.launch with
  | none => cases a <;> first | exact ⟨_, _, rfl⟩ | cases hx
  | some x =>
    obtain ⟨k, hk⟩ := Option.ne_none_iff_exists'.mp (A.launches hC (scheduled runs ha) hx)
    exact absurd hx (hn m hm x (List.mem_map.mpr ⟨_, Table.get_mem hk, rfl⟩) a ha)

theorem cores {u : List Happening} (h : ∀ a ∈ u, a.IsCore) : (∀ x, historyOf x u = []) ∧ (∀ x, fedTo x u = []) ∧ ∀ x p, drawnFrom x p u = [] := by
  induction u with
  | nil => exact ⟨fun _ => rfl, fun _ => rfl, fun _ _ => rfl⟩
  | cons a u ih =>
    obtain ⟨i, e, rfl⟩ := h a (by simp)
    obtain ⟨h1, h2, h3⟩ := ih fun b hb => h b (by simp [hb])
    rw [show Happening.core i e :: u = [.core i e] ++ u from rfl]
    refine ⟨fun x => ?_, fun x => ?_, fun x p => ?_⟩
    · rw [historyOf_append, h1]; rfl
    · rw [fedTo_append, h2]; rfl
    · rw [drawnFrom_append, h3]; rfl

/-- What matters to programs, pipes and whoever does nothing. -/
structure Same (w : Waiter) (cs : List Capture) (T T' : List Happening) : Prop where
  history : ∀ x, historyOf x T' = historyOf x T
  fed : ∀ x, fedTo x T' = fedTo x T
  drawn : ∀ x p, drawnFrom x p T' = drawnFrom x p T
  relay : ∀ x p, p ∈ relayPieces → proj (.part (.launch, x) p) (coreOf T') = proj (.part (.launch, x) p) (coreOf T)

theorem Same.inPipe {T T' : List Happening} (S : Same w cs T T') (x : Str) : inPipe x T' = inPipe x T := by unfold Verif.inPipe; rw [S.history, S.fed]
theorem Same.outPipe {T T' : List Happening} (S : Same w cs T T') (x : Str) (p : Port) : outPipe x p T' = outPipe x p T := by unfold Verif.outPipe; rw [S.history, S.drawn]
theorem Same.begun {T T' : List Happening} (S : Same w cs T T') (x : Str) : w.begun T' x = w.begun T x := by
  unfold Waiter.begun Waiter.given; rw [S.relay _ _ (by simp [relayPieces]), S.fed]
theorem Same.relayOver {T T' : List Happening} (S : Same w cs T T') {x : Str} {p : Piece} (hp : p ∈ relayPieces) : w.RelayOver cs (coreOf T') x p ↔ w.RelayOver cs (coreOf T) x p := by
  unfold Waiter.RelayOver; rw [S.relay _ _ hp]

theorem Same.serves {T T' : List Happening} (S : Same w cs T T') {x : Str} {e : PEv} (h : w.Serves cs room T x e) : w.Serves cs room T' x e := by
  cases e with
  | took d => simpa only [Waiter.Serves, S.history, S.inPipe] using h
  | sawEnd => simpa only [Waiter.Serves, S.history, S.inPipe, S.relayOver (x := x) (p := .input) (by simp [relayPieces])] using h
  | put p d => simpa only [Waiter.Serves, S.history, S.outPipe, S.relayOver (x := x) p.relays] using h
  | refused p => simpa only [Waiter.Serves, S.history, S.relayOver (x := x) p.relays] using h
  | _ => trivial

theorem Same.answered {T T' : List Happening} (S : Same w cs T T') {i : Who} {e : Ev} (h : w.Answered T i e) : w.Answered T' i e := by
  refine ⟨fun x k d r hi he => ?_, h.flush, fun x p k r hi he => ?_, fun x r hi he => ?_⟩
  · rw [S.begun, S.history]; exact h.write x k d r hi he
  · have := h.read x p k r hi he
    subst hi
    rw [S.history, S.outPipe, S.drawn, S.relay _ _ p.relays]; exact this
  · rw [S.history]; exact h.status x r hi he

/-- A fair schedule comes to an end, or somebody waits for a manager or a regulator. -/
theorem Rigged.worldEnds (A : Rigged c hs w) (M : Attended cs w) (hC : Complete hs) (hcf : NoWayBack hs) (hlh : ∀ a ∈ cs, a.low < a.high) (hcap : ∀ k ch, cap k ch ≠ some 0) (hroom : 0 < room)
    (F : w.FairWorld cs cap room prog σ) (hp : ∀ x, w.comps.get (.launch, x) ≠ none → (prog x).Finite)
    (hB : ∀ x nd h, w.node (.part (.faucet, x) .main) = some nd → .handle h ∈ nd.sources → ∃ B, ∀ n, (receivedFrom (.handle h) (proj (.part (.faucet, x) .main) (coreOf (soFar σ n)))).length ≤ B)
    (hj : ∀ n i inputs pushs spy, w.node i = some (.junction inputs pushs spy) → ∀ f ∈ acts (proj i (coreOf (soFar σ n))), f.ruins pushs = false) :
    ∃ n st, execAll cap Store.init ((coreOf (soFar σ n)).map Prod.snd) = some st ∧
      (w.AllOver cs (soFar σ n) ∨ (∃ r, w.Unheard cs cap st (coreOf (soFar σ n)) r) ∨ ∃ r, w.Paused cs st (coreOf (soFar σ n)) r) := by
  have runs := F.runs
  have cruns : ∀ n, w.Run cs cap (upTo (coreAt σ) n) := fun n => by rw [← coreOf_soFar]; exact (runs n).core
  obtain ⟨⟨K, hK⟩, hmv⟩ := A.worldMoves M hC hcf hlh runs hp hB
  obtain ⟨n1, h1⟩ := Waiter.calmed cruns hmv
  obtain ⟨n2, h2⟩ := A.quietens hC runs hp hK
  obtain ⟨st, C⟩ := h1 (max n1 n2) (Nat.le_max_left _ _)
  have quiet : ∀ m, max n1 n2 ≤ m → ∀ a, σ m = some a → a.IsCore := fun m hm => h2 m (by omega)
  generalize max n1 n2 = n at C quiet
  have hst := C.quiet n (Nat.le_refl _)
  refine ⟨n, st, by rw [coreOf_soFar]; exact hst, Classical.byContradiction fun hno => ?_⟩
  rw [not_or, not_or, not_exists, not_exists] at hno
  have hl : w.Lively cs cap room prog st (soFar σ n) := Classical.byContradiction fun h =>
    hno.1 (A.all_over hC M hcf (runs n) hroom (by rw [coreOf_soFar]; exact hst) hcap (hj n) h hno.2.1 hno.2.2)
  have relay : ∀ x p, p ∈ relayPieces → ∀ m, n ≤ m → proj (.part (.launch, x) p) (upTo (coreAt σ) m) = proj (.part (.launch, x) p) (upTo (coreAt σ) n) := by
    intro x p hp m hm
    cases ht : w.sys cs (.part (.launch, x) p) with
    | none => rw [(cruns m).silent ht, (cruns n).silent ht]
    | some t =>
      rcases C.each _ t ht with h | ⟨g, _, hg⟩
      · exact h.1 m hm
      · obtain ⟨nd, hn, _⟩ := A.launchNode hC hp ht
        have := (hg 0).1
        have hmove : ∀ e, w.moves (.part (.launch, x) p) e = true := by
          simp only [relayPieces, List.mem_cons, List.not_mem_nil, or_false] at hp
          rcases hp with rfl | rfl | rfl
          · obtain ⟨_, _, _, rfl⟩ := A.inputNode hn
            intro e; simp [Waiter.moves, hn]
          · obtain ⟨_, _, _, rfl⟩ := A.portNode (p := .out) hn
            intro e; simp [Waiter.moves, hn]
          · obtain ⟨_, _, _, rfl⟩ := A.portNode (p := .err) hn
            intro e; simp [Waiter.moves, hn]
        rw [hmove] at this; cases this
  have same : ∀ m, n ≤ m → Same w cs (soFar σ n) (soFar σ m) := by
    intro m hm
    obtain ⟨u, hu, hu2⟩ := soFar_le (σ := σ) hm
    obtain ⟨g1, g2, g3⟩ := cores (u := u) fun a ha => by obtain ⟨k, hk, hk2⟩ := hu2 a ha; exact quiet k hk a hk2
    refine ⟨fun x => ?_, fun x => ?_, fun x p => ?_, fun x p hp => ?_⟩
    · rw [hu, historyOf_append, g1, List.append_nil]
    · rw [hu, fedTo_append, g2, List.append_nil]
    · rw [hu, drawnFrom_append, g3, List.append_nil]
    · rw [coreOf_soFar, coreOf_soFar]; exact relay x p hp m hm
  obtain ⟨a, ha, hrest⟩ := hl
  have outside : ∀ g, (∀ m, n ≤ m → ∃ b, b.agent = g ∧ w.Next cs cap room prog (soFar σ m) b) → ∃ i, g = .core i := by
    intro g hg
    obtain ⟨m, b, hm, hb, rfl⟩ := F.fair g n hg
    obtain ⟨i, e, rfl⟩ := quiet m hm b hb
    exact ⟨i, rfl⟩
  cases ha with
  | @core i e hr hans =>
    have hx : w.sys cs i ≠ none := hr.known (i, e) (by simp)
    obtain ⟨t, ht⟩ := Option.ne_none_iff_exists'.mp hx
    have hcr := coreOf_soFar (σ := σ) n
    rcases C.each i t ht with ⟨hsame, never⟩ | ⟨g, g1, g2⟩
    · obtain ⟨m, b, hm, hb, hbi⟩ := F.fair (.core i) n (by
        intro m hm
        refine ⟨.core i e, rfl, .core ?_ ((same m hm).answered hans)⟩
        have h1 := hr.exec.chans
        rw [List.map_append, execAll_append, hcr, hst] at h1
        obtain ⟨st', hs'⟩ := Option.isSome_iff_exists.mp h1
        have h2 : Verif.exec cap st e = some st' := by
          simp [execAll] at hs'
          split at hs'
          · cases hs'
          · next h => rw [h, hs']
        have h3 := hr.exec.tasks i t ht
        rw [proj_append, show proj i [(i, e)] = [e] by simp [proj], hcr, ← hsame m hm] at h3
        rw [coreOf_soFar]
        refine (cruns m).step (C.quiet m hm) ht h3 h2 ?_
        rintro r rfl p hp' t' ht'
        have h4 := hr.exits (coreOf (soFar σ n)) [] r e rfl p hp' t' ht'
        rw [hcr] at h4
        rw [done_later cruns ht' h4 hm]; exact h4)
      obtain ⟨j, e', rfl⟩ := quiet m hm b hb
      cases hbi
      exact never m hm e' (by simp [coreAt, hb])
    · refine hrest i e rfl ?_
      rw [hcr]
      exact A.resting hC M hst (by rw [← hcr]; exact hj n) ht g1 g2
  | @feed x d m t k h3 h4 h5 h6 h7 h8 =>
    obtain ⟨i, hi⟩ := outside (.feed x) (by
      intro m hm
      have S := same m hm
      exact ⟨.feed x d, rfl, .feed h3 (by rw [S.relay _ _ (by simp [relayPieces])]; exact h4) (by rw [S.begun]; exact h5) h6 (by rw [S.history]; exact h7) (by rw [S.inPipe]; exact h8)⟩)
    cases hi
  | @draw x p d t k h3 h4 h5 h6 =>
    obtain ⟨i, hi⟩ := outside (.draw x p) (by
      intro m hm
      have S := same m hm
      exact ⟨.draw x p d, rfl, .draw h3 (by rw [S.relay _ _ p.relays]; exact h4) (by rw [S.outPipe]; exact h5) h6⟩)
    cases hi
  | @prog x e h3 h4 h5 h6 =>
    obtain ⟨i, hi⟩ := outside (.prog x) (by
      intro m hm
      have S := same m hm
      exact ⟨.prog x e, rfl, .prog h3 (by rw [S.history]; exact h4) (by rw [S.history]; exact h5) (S.serves h6)⟩)
    cases hi

/-- What a faucet reads. -/
theorem Rigged.faucetStream (A : Rigged c hs w) {x : Str} {nd : Node} (hn : w.node (.part (.faucet, x) .main) = some nd) {h : Nat} (hh : .handle h ∈ nd.sources) :
    h = 3 * w.idOf (.faucet, x) ∧ ∃ g ∈ hs, g.from = (.faucet, x) := by
  obtain ⟨r, p, k, e1, hme, hk, hpl, hkn⟩ := A.node_inv hn
  simp only [Who.part.injEq] at e1
  obtain ⟨e1, e2⟩ := e1
  subst e1 e2
  rw [expected_faucet _ _ _ _ rfl] at hpl
  rw [plain_faucet hpl] at hkn
  generalize (pushEnds w.idOf hs.zipIdx fun h => h.from = (ComponentType.faucet, x)).head? = o at hkn
  cases o with
  | none => simp [Comp.node] at hkn
  | some o =>
    simp [Comp.node] at hkn
    subst hkn
    have ht : .chan o.chan ∈ (Node.regulator (.stream ⟨o.src, o.dst⟩ (3 * w.idOf (.faucet, x))) o.push none none).targets := by simp [Node.targets, push_target]
    refine ⟨by simpa [Node.sources, Pull.source] using hh, ?_⟩
    rcases (A.targets hn _).mp ht with ⟨g, h3, h4⟩ | ⟨h3, _⟩
    · exact ⟨g, List.mem_of_getElem? h3, (Hop.writer_iff.mp h4).1⟩
    · cases h3

end
end Verif
