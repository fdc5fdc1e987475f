import Verif.Lemmas.Lull
import Verif.Lemmas.Flushes
import Verif.Spec.Stall
import Verif.Lemmas.Jam
import Verif.Lemmas.JunctionShare
import Verif.Lemmas.WorldFinal
import Verif.Lemmas.WorldDoze
import Verif.Props.RuntimeFlow
/-!
# Going on for ever, with inputs that never end
-/
namespace Verif
section
variable {c : Config} {hs : List Hop} {w : Waiter} {cs : List Capture} {cap : Caps} {idle : Nat → Prop} {σ : Nat → Option (Who × Ev)}

/-- The channels after a trace. -/
def storeOf (cap : Caps) (τ : List (Who × Ev)) : Store := (execAll cap Store.init (τ.map Prod.snd)).getD Store.init

theorem storeOf_eq {τ : List (Who × Ev)} (h : (execAll cap Store.init (τ.map Prod.snd)).isSome = true) : execAll cap Store.init (τ.map Prod.snd) = some (storeOf cap τ) := by
  obtain ⟨st, hst⟩ := Option.isSome_iff_exists.mp h
  rw [storeOf, hst]; rfl

/-- What happens to the channels at one time. -/
theorem storeOf_succ (runs : ∀ n, w.Run cs cap (upTo σ n)) (n : Nat) :
    (σ n = none ∧ storeOf cap (upTo σ (n + 1)) = storeOf cap (upTo σ n)) ∨ ∃ x, σ n = some x ∧ Verif.exec cap (storeOf cap (upTo σ n)) x.2 = some (storeOf cap (upTo σ (n + 1))) := by
  cases h : σ n with
  | none => left; exact ⟨rfl, by rw [upTo, h]; simp⟩
  | some x =>
    right
    refine ⟨x, rfl, ?_⟩
    have h1 := storeOf_eq (runs n).exec.chans
    have h2 := storeOf_eq (runs (n + 1)).exec.chans
    generalize storeOf cap (upTo σ (n + 1)) = s2 at h2 ⊢
    rw [upTo, h, List.map_append, execAll_append, h1] at h2
    simp only [Option.toList_some, List.map_cons, List.map_nil, Option.bind_some, execAll] at h2
    split at h2
    · cases h2
    · next h3 => rw [h3, h2]

theorem Waiter.Fair.but (hσ : w.Fair cs cap σ) (idle : Nat → Prop) : w.FairBut idle cs cap σ :=
  ⟨hσ.runs, fun i n h => hσ.fair i n fun m hm => by obtain ⟨e, he, _⟩ := h m hm; exact ⟨e, he⟩⟩

theorem Waiter.FairBut.fair_all (hσ : w.FairBut (fun _ => False) cs cap σ) : w.Fair cs cap σ :=
  ⟨hσ.runs, fun i n h => hσ.fair i n fun m hm => by
    obtain ⟨e, he⟩ := h m hm
    refine ⟨e, he, fun hs => ?_⟩
    unfold Req.stalls at hs
    split at hs <;> exact hs⟩

theorem Waiter.FairBut.more {idle' : Nat → Prop} (hσ : w.FairBut idle cs cap σ) (hi : ∀ h, idle h → idle' h) : w.FairBut idle' cs cap σ := by
  refine ⟨hσ.runs, fun i n h => hσ.fair i n fun m hm => ?_⟩
  obtain ⟨e, he, hn⟩ := h m hm
  refine ⟨e, he, fun hs => hn ?_⟩
  unfold Req.stalls at hs ⊢
  split at hs
  · exact hi _ hs
  · exact hi _ hs
  · exact hi _ hs
  · exact hs

/-- Who says nothing from some time on can, again and again, do nothing. -/
theorem Waiter.FairBut.often (hσ : w.FairBut idle cs cap σ) {i : Who} {N : Nat} (hsil : ∀ m, N ≤ m → proj i (upTo σ m) = proj i (upTo σ N)) (k : Nat) : ∃ m, k ≤ m ∧ N ≤ m ∧ ¬ w.CanStepBut idle cs cap (upTo σ m) i := by
  refine Classical.byContradiction fun h => ?_
  obtain ⟨m, e, hm, he⟩ := hσ.fair i (max k N) (by
    intro m hm
    refine Classical.byContradiction fun h' => h ⟨m, by omega, by omega, h'⟩)
  have h1 := hsil m (by omega)
  have h2 := hsil (m + 1) (by omega)
  rw [upTo, he, proj_append, h1] at h2
  simp [proj] at h2

/-- Whoever does something only finitely often is silent in the end; otherwise what is done can be numbered. -/
theorem silent_or_numbered (i : Who) : (∃ N, ∀ m, N ≤ m → proj i (upTo σ m) = proj i (upTo σ N)) ∨
    ∀ N, ∃ g : Nat → Ev, ∀ k, ∃ m, N ≤ m ∧ proj i (upTo σ m) = proj i (upTo σ N) ++ first g k := by
  by_cases hinf : ∀ n, ∃ m, n ≤ m ∧ ∃ e, σ m = some (i, e)
  · right
    intro N
    obtain ⟨g, hg⟩ := numbered (T := fun n => proj i (upTo σ (N + n))) (by
      intro n
      rcases proj_upTo_succ (σ := σ) i (N + n) with h | ⟨e, _, h⟩
      · exact Or.inl h
      · exact Or.inr ⟨e, h⟩) (by
      intro n
      obtain ⟨m, hm, e, he⟩ := hinf (N + n)
      refine ⟨m - N, by omega, ?_⟩
      have h1 : N + (m - N) = m := by omega
      have h2 : N + (m - N + 1) = m + 1 := by omega
      show (proj i (upTo σ (N + (m - N + 1)))).length = (proj i (upTo σ (N + (m - N)))).length + 1
      rw [h1, h2, upTo, he, proj_append]
      simp [proj])
    refine ⟨g, fun k => ?_⟩
    obtain ⟨n, hn⟩ := hg k
    exact ⟨N + n, by omega, hn⟩
  · left
    obtain ⟨n, hn⟩ := Classical.not_forall.mp hinf
    refine ⟨n, fun m hm => ?_⟩
    obtain ⟨u, hu1, hu2⟩ := proj_since (σ := σ) i hm
    cases u with
    | nil => simpa using hu1
    | cons e u =>
      obtain ⟨k, hk, he⟩ := hu2 e (by simp)
      exact absurd ⟨k, hk, e, he⟩ hn

/-- A queue into which nothing is put any more does not get longer, and stays closed. -/
theorem queue_shrinks (runs : ∀ n, w.Run cs cap (upTo σ n)) {k : Kind} {ch N : Nat} (hno : ∀ m, N ≤ m → ∀ x, σ m = some x → sentOf k ch x.2 = none) {n m : Nat} (hn : N ≤ n) (hm : n ≤ m) :
    (storeOf cap (upTo σ m) k ch).q.length ≤ (storeOf cap (upTo σ n) k ch).q.length ∧ ((storeOf cap (upTo σ n) k ch).closed = true → (storeOf cap (upTo σ m) k ch).closed = true) := by
  induction hm with
  | refl => exact ⟨Nat.le_refl _, id⟩
  | @step m hm ih =>
    rcases storeOf_succ runs m with ⟨_, h⟩ | ⟨x, hx, h⟩
    · rw [Nat.succ_eq_add_one, h]; exact ih
    · obtain ⟨h1, h2, _⟩ := exec_chan h k ch
      rw [hno m (Nat.le_trans hn hm) x hx] at h1
      have h3 := congrArg List.length h1
      simp only [Option.toList_none, List.append_nil, List.length_append] at h3
      refine ⟨by have := ih.1; simp only [Nat.succ_eq_add_one]; omega, fun hc => ?_⟩
      rw [Nat.succ_eq_add_one, h2, ih.2 hc]; rfl

/-- A queue out of which nothing is taken any more stays non-empty. -/
theorem queue_stays (runs : ∀ n, w.Run cs cap (upTo σ n)) {k : Kind} {ch n : Nat} (hno : ∀ m, n ≤ m → ∀ x, σ m = some x → gotOf k ch x.2 = none) {m : Nat} (hm : n ≤ m)
    (hq : (storeOf cap (upTo σ n) k ch).q ≠ []) : (storeOf cap (upTo σ m) k ch).q ≠ [] := by
  induction hm with
  | refl => exact hq
  | @step m hm ih =>
    rcases storeOf_succ runs m with ⟨_, h⟩ | ⟨x, hx, h⟩
    · rw [Nat.succ_eq_add_one, h]; exact ih
    · obtain ⟨h1, _⟩ := exec_chan h k ch
      rw [hno m hm x hx] at h1
      intro h0
      rw [Nat.succ_eq_add_one] at h0
      rw [h0] at h1
      simp at h1
      exact ih h1.1

/-- A whole round of the count looks into both channels of notices. -/
theorem count_looks {sender : Option Nat} {mIn mOut : Nat} {s s' : Total} {tr : List Ev} (h : (totalBody sender mIn mOut s).Runs tr (.inl s')) :
    (∃ r, (⟨.tryRecv .mon mIn, r⟩ : Ev) ∈ tr) ∧ ∃ r, (⟨.tryRecv .mon mOut, r⟩ : Ev) ∈ tr := by
  rw [total_tree] at h
  obtain ⟨r, t1, rfl, h⟩ := h
  refine ⟨⟨r, by simp⟩, ?_⟩
  have second : ∀ {size moved}, (countSecond sender mIn mOut s size moved).Runs t1 (.inl s') → ∃ r, (⟨.tryRecv .mon mOut, r⟩ : Ev) ∈ t1 := by
    intro size moved h
    obtain ⟨r, t2, rfl, _⟩ := h
    exact ⟨r, by simp⟩
  have : ∃ r, (⟨.tryRecv .mon mOut, r⟩ : Ev) ∈ t1 := by
    cases r with
    | got m =>
      cases m with
      | read _ => cases h.2
      | wrote _ => exact second h
    | empty => exact second h
    | closed => exact second h
  obtain ⟨r', hr'⟩ := this
  exact ⟨r', by simp [hr']⟩

/-- A task that goes on for ever does not close anything, if it does not before its end. -/
theorem Task.keeps {t : Task} {tr : List Ev} {g : Nat → Ev} (h : ∀ k, t.Partial (tr ++ first g k)) (hq : ∀ {u k c}, ¬ t.Awaits u (.close k c)) (i : Nat) (k : Kind) (c : Nat) : (g i).q ≠ .close k c := by
  intro he
  have h1 := h (i + 1)
  rw [first_succ, ← List.append_assoc] at h1
  rcases h1.last with h1 | ⟨r, t1, t2, h2, h3, _⟩
  · rw [he] at h1; exact hq h1
  · have h4 := h (t1.length + (dropEvs t.drops).length + i + 1)
    obtain ⟨v, hv⟩ : ∃ v, tr ++ first g (t1.length + (dropEvs t.drops).length + i + 1) = t1 ++ v := by
      have e : first g (t1.length + (dropEvs t.drops).length + i + 1) = first g i ++ first (fun j => g (i + j)) (t1.length + (dropEvs t.drops).length + 1) := by
        rw [← first_add]; congr 1; omega
      exact ⟨t2 ++ first (fun j => g (i + j)) (t1.length + (dropEvs t.drops).length + 1), by rw [e, ← List.append_assoc, h3, List.append_assoc]⟩
    rw [hv] at h4
    have h5 := (Task.after h2 h4).length_le
    have h6 := congrArg List.length hv
    simp [first] at h6
    omega

/-- A pipeline that is not managed and goes on for ever, nothing failing; some files and streams may never answer. -/
structure Waiter.Endless (c : Config) (hs : List Hop) (w : Waiter) (cap : Caps) (idle : Nat → Prop) (σ : Nat → Option (Who × Ev)) : Prop where
  rig : Assembled c hs w
  complete : Complete hs
  unmanaged : w.Unmanaged
  caps : ∀ k ch, cap k ch ≠ some 0
  fair : w.FairBut idle [] cap σ
  fine : ∀ n i, ∀ f ∈ acts (proj i (upTo σ n)), f.trouble = false

/-- If the channel goes to a junction, no input of it has a smaller number. -/
def Waiter.Least (w : Waiter) (b : Who) (ch : Nat) : Prop :=
  ∀ inputs pushs spy, w.node b = some (.junction inputs pushs spy) → ∃ x ∈ inputs, x.1.source = some (.chan ch) ∧ ∀ y ∈ inputs, x.2 ≤ y.2

/-- Of these components, each writes only to channels of the least number, to others of them, and to files and streams that answer. -/
structure Waiter.Onward (w : Waiter) (idle : Nat → Prop) (G : Who → Prop) : Prop where
  least : ∀ a ch b, G a → w.net.Edge a ch b → w.Least b ch ∧ G b
  answers : ∀ a n h, G a → w.node a = some n → .handle h ∈ n.targets → ¬ idle h

/-- Who reads from a file or stream reads from nothing else. -/
theorem handle_source {n : Node} (hok : n.Ok) {h : Nat} (hs : .handle h ∈ n.sources) : n.sources = [.handle h] ∧ ∀ inputs pushs spy, n ≠ .junction inputs pushs spy := by
  cases n with
  | relay pull mon spy push =>
    have : pull.source = some (.handle h) := by simpa [Node.sources] using hs
    simp [Node.sources, this]
  | regulator pull push spy ctl =>
    have : pull.source = some (.handle h) := by simpa [Node.sources] using hs
    simp [Node.sources, this]
  | junction inputs pushs spy =>
    exfalso
    obtain ⟨x, hx1, hx2⟩ := List.mem_filterMap.mp (show End.handle h ∈ inputs.filterMap fun x => x.1.source from hs)
    obtain ⟨_, hin, _⟩ := id hok
    obtain ⟨j, c', e⟩ := hin x hx1
    rw [e] at hx2
    simp [Pull.source] at hx2

namespace Waiter.Endless
variable (H : Waiter.Endless c hs w cap idle σ)
include H

theorem st (n : Nat) : execAll cap Store.init ((upTo σ n).map Prod.snd) = some (storeOf cap (upTo σ n)) := storeOf_eq (H.fair.runs n).exec.chans

theorem part {i : Who} {n : Node} (hn : w.node i = some n) (m : Nat) : n.task.Partial (proj i (upTo σ m)) := (H.fair.runs m).exec.tasks i _ (sys_node hn)

theorem nofail {i : Who} {n : Node} (hn : w.node i = some n) (m : Nat) : ∀ f ∈ acts (proj i (upTo σ m)), f.fails = false := by
  obtain ⟨E, U⟩ := H.rig.run H.complete (H.fair.runs m)
  exact fun f hf => C55_no_failures (H.rig.wired H.complete) E U (H.rig.inside H.complete (H.fair.runs m) (H.fine m)) i n f hn hf

theorem facts {a b : Who} {ch : Nat} (he : w.net.Edge a ch b) (m : Nat) : EdgeFacts (upTo σ m) a ch b := by
  obtain ⟨E, U⟩ := H.rig.run H.complete (H.fair.runs m)
  exact w.net.facts (H.rig.wired H.complete) E U he

/-- What a node has as an output leads to another. -/
theorem target {i : Who} {n : Node} (hn : w.node i = some n) {ch : Nat} (ht : .chan ch ∈ n.targets) : ∃ b, w.net.Edge i ch b := by
  have A := H.rig
  have hC := H.complete
  obtain ⟨r, p, k, rfl, hme, _, _, hkn⟩ := A.node_inv hn
  rcases (A.targets hn ch).mp ht with ⟨h, g1, g2⟩ | ⟨g1, g2, g3⟩
  · refine ⟨h.reader, (A.edges hC _ ch _).mpr (Or.inl ⟨h, g1, ?_, g2.symm, rfl⟩)⟩
    rintro ⟨hx1, hx2⟩
    have : p = .exit := by
      have := (Hop.writer_iff.mp g2).2
      rw [show r.1 = .launch by rw [← hx1, ← (Hop.writer_iff.mp g2).1]; rfl, hx2] at this
      exact this.symm
    subst this
    cases k <;> simp [Comp.node] at hkn
  · obtain ⟨ty, x⟩ := r
    simp only at g1
    subst g1
    exact ⟨_, (A.edges hC _ ch _).mpr (Or.inr ⟨x, hme, by rw [← A.chans]; exact g3, by rw [g2], rfl⟩)⟩

/-- Only the reader takes out of a channel. -/
theorem reader {i : Who} {n : Node} (hn : w.node i = some n) {ch : Nat} (hs' : .chan ch ∈ n.sources) (m : Nat) : ∃ a, EdgeFacts (upTo σ m) a ch i := by
  have A := H.rig
  have hC := H.complete
  obtain ⟨r, p, k, rfl, hme, _, _, hkn⟩ := A.node_inv hn
  rcases (A.sources hn ch).mp hs' with ⟨h, h1, h2⟩ | ⟨h1, h2, h3⟩
  · by_cases hx : h.isExit
    · rw [← h2]
      exact ⟨_, (A.toRigged.exitFacts hC (H.fair.runs m) h1 hx (by rw [h2]; exact hn)).1⟩
    · exact ⟨_, H.facts ((A.edges hC _ ch _).mpr (Or.inl ⟨h, h1, hx, rfl, h2.symm⟩)) m⟩
  · obtain ⟨ty, x⟩ := r
    simp only at h1
    subst h1
    subst h2
    exact ⟨_, H.facts ((A.edges hC _ ch _).mpr (Or.inr ⟨x, hme, by rw [← A.chans]; exact h3, rfl, rfl⟩)) m⟩

/-- What is told to the count is taken, so that there is room for more in the end. -/
theorem told {x : Str} (hm : Mentioned hs (.buffer, x)) {i : Who} {ch : Nat}
    (hx : (ch = 2 * w.idOf (.buffer, x) ∧ i = .part (.buffer, x) .input) ∨ (ch = 2 * w.idOf (.buffer, x) + 1 ∧ i = .part (.buffer, x) .output))
    {N : Nat} (hsil : ∀ m, N ≤ m → proj i (upTo σ m) = proj i (upTo σ N)) :
    ∃ n, N ≤ n ∧ ∀ m, n ≤ m → (storeOf cap (upTo σ m) .mon ch).closed = true ∨ hasRoom (cap .mon ch) (storeOf cap (upTo σ m) .mon ch).q.length := by
  have A := H.rig
  have hC := H.complete
  have T := attended_none H.unmanaged
  have fi : ∀ m, N ≤ m → (gotOn .mon ch (proj (.part (.buffer, x) .count) (upTo σ m))).length + (storeOf cap (upTo σ m) .mon ch).q.length = (sentOn .mon ch (proj i (upTo σ N))).length := by
    intro m hNm
    obtain ⟨a, b, _, _, B⟩ := A.toRigged.bufferOwn hC T (H.fair.runs m) hm
    obtain ⟨f1, f2, _⟩ := B.fifos (H.st m)
    rcases hx with ⟨rfl, rfl⟩ | ⟨rfl, rfl⟩
    · rw [hsil m hNm] at f1
      rw [f1, List.length_append]
    · rw [hsil m hNm] at f2
      rw [f2, List.length_append]
  have grow : ∀ {n m}, n ≤ m → (gotOn .mon ch (proj (.part (.buffer, x) .count) (upTo σ n))).length ≤ (gotOn .mon ch (proj (.part (.buffer, x) .count) (upTo σ m))).length := by
    intro n m hnm
    obtain ⟨u, hu, _⟩ := proj_since (σ := σ) (.part (.buffer, x) .count) hnm
    rw [hu, gotOn_append, List.length_append]
    exact Nat.le_add_right _ _
  refine Classical.byContradiction fun hnot => ?_
  have bad : ∀ m, N ≤ m → ∃ n, m ≤ n ∧ (storeOf cap (upTo σ n) .mon ch).closed = false ∧ ¬ hasRoom (cap .mon ch) (storeOf cap (upTo σ n) .mon ch).q.length := by
    intro m hNm
    refine Classical.byContradiction fun h => hnot ⟨m, hNm, fun n hn => Classical.byContradiction fun h' => h ⟨n, hn, ?_⟩⟩
    rw [not_or] at h'
    exact ⟨by simpa using h'.1, h'.2⟩
  have full : ∀ m, N ≤ m → (storeOf cap (upTo σ m) .mon ch).q ≠ [] := by
    intro m hNm h0
    obtain ⟨n, h1, _, h2⟩ := bad m hNm
    have e1 := fi m hNm
    have e2 := fi n (by omega)
    have e3 := grow h1
    rw [h0, List.length_nil] at e1
    exact h2 (caps_room H.caps (List.eq_nil_of_length_eq_zero (by omega)))
  obtain ⟨f, hf, hcs⟩ := A.toRigged.counts hC T hm
  have hff : f = false := by
    cases f with
    | false => rfl
    | true => simp at hf
  subst hff
  have hopen : ∀ {m}, N ≤ m → ¬ (w.counting x false).Done (proj (.part (.buffer, x) .count) (upTo σ m)) := by
    intro m hNm hd
    obtain ⟨n, h1, h2, _⟩ := bad m hNm
    obtain ⟨u, hu, _⟩ := proj_since (σ := σ) (.part (.buffer, x) .count) h1
    have h3 := done_drops hd (k := .mon) (ch := ch) (by rcases hx with ⟨rfl, _⟩ | ⟨rfl, _⟩ <;> simp [Waiter.counting, totalTask])
    have := closing_closed_kind (H.st n) (i := .part (.buffer, x) .count) (k := .mon) (ch := ch) (by rw [hu, closings_append]; exact List.mem_append_left _ h3)
    rw [h2] at this; cases this
  have hpart : ∀ m, (w.counting x false).Partial (proj (.part (.buffer, x) .count) (upTo σ m)) := fun m => (H.fair.runs m).exec.tasks _ _ hcs
  have more : ∀ n, N ≤ n → ∃ m, n ≤ m ∧ (gotOn .mon ch (proj (.part (.buffer, x) .count) (upTo σ n))).length < (gotOn .mon ch (proj (.part (.buffer, x) .count) (upTo σ m))).length := by
    intro n hNn
    rcases silent_or_numbered (σ := σ) (.part (.buffer, x) .count) with ⟨n', hs'⟩ | hnum
    · exfalso
      obtain ⟨m, h1, _, h3⟩ := H.fair.often hs' N
      obtain ⟨e, st', h4, h5⟩ := total_goes (cap := cap) (st := storeOf cap (upTo σ m)) (hpart m) (hopen h1) (by simp)
      refine h3 ⟨e, (H.fair.runs m).step (H.st m) hcs h4 h5 (by simp), ?_⟩
      rcases Task.only (t := w.counting x false) (P := fun q => ¬ q.stalls idle) (fun s => (total_requests s).mono (by
        rintro q (⟨_, rfl⟩ | ⟨_, rfl⟩ | ⟨_, rfl⟩ | ⟨_, _, _, rfl⟩) <;> exact _root_.id)) (fun _ _ => _root_.id) h4 e (by simp) with h
      exact h
    · obtain ⟨g, hg⟩ := hnum n
      have hp : ∀ k, (w.counting x false).Partial (proj (.part (.buffer, x) .count) (upTo σ n) ++ first g k) := by
        intro k
        obtain ⟨m, _, hm'⟩ := hg k
        rw [← hm']; exact hpart m
      have hk := Task.keeps hp (by
        intro u k c hq
        have hm' : TotalReq none (.close k c) := Task.only_awaits (t := w.counting x false) (fun s => total_requests s) hq
        rcases hm' with ⟨_, h⟩ | ⟨_, h⟩ | ⟨_, h⟩ | ⟨_, _, _, h⟩ <;> cases h)
      obtain ⟨⟨k, s, hr⟩, hround⟩ := Task.rounds hp hk
      obtain ⟨j, s', hj⟩ := hround hr
      have hl := count_looks hj
      obtain ⟨r, l, hgl⟩ : ∃ r l, g l = ⟨.tryRecv .mon ch, r⟩ := by
        have : ∃ r, (⟨.tryRecv .mon ch, r⟩ : Ev) ∈ first (fun i => g (k + i)) j := by
          rcases hx with ⟨rfl, _⟩ | ⟨rfl, _⟩
          · exact hl.1
          · exact hl.2
        obtain ⟨r, hr⟩ := this
        simp only [first, List.mem_map] at hr
        obtain ⟨l, _, hl⟩ := hr
        exact ⟨r, k + l, hl⟩
      obtain ⟨m, h1, h2⟩ := hg (l + 1)
      obtain ⟨u, hu1, hu2⟩ := proj_since (σ := σ) (.part (.buffer, x) .count) h1
      rw [h2, List.append_cancel_left_eq] at hu1
      obtain ⟨k', hk1, hk2⟩ := hu2 (g l) (by rw [← hu1, first_succ]; simp)
      refine ⟨k' + 1, by omega, Nat.lt_of_le_of_lt (grow hk1) ?_⟩
      rcases storeOf_succ H.fair.runs k' with ⟨h, _⟩ | ⟨y, hy, hex⟩
      · rw [hk2] at h; cases h
      · rw [hk2] at hy; cases hy
        rw [upTo, hk2, proj_append, gotOn_append, List.length_append]
        rw [hgl] at hex ⊢
        cases r with
        | got v => simp [proj, gotOn, gotOf]
        | empty => exact absurd (exec_try_empty hex).1 (full k' (by omega))
        | closed => exact absurd (exec_try_closed hex).1 (full k' (by omega))
  have many : ∀ L, ∃ m, N ≤ m ∧ L ≤ (gotOn .mon ch (proj (.part (.buffer, x) .count) (upTo σ m))).length := by
    intro L
    induction L with
    | zero => exact ⟨N, Nat.le_refl _, Nat.zero_le _⟩
    | succ L ih =>
      obtain ⟨m, h1, h2⟩ := ih
      obtain ⟨m', h3, h4⟩ := more m h1
      exact ⟨m', by omega, by omega⟩
  obtain ⟨m, h1, h2⟩ := many ((sentOn .mon ch (proj i (upTo σ N))).length + 1)
  have := fi m h1
  omega

/-- A node that says nothing any more, though it has not ended, waits for its only input, provided that there is, again and again, room in what it writes to. -/
theorem waits {i : Who} {n : Node} (hn : w.node i = some n) {N : Nat} (hsil : ∀ m, N ≤ m → proj i (upTo σ m) = proj i (upTo σ N)) (hnd : ¬ n.task.Done (proj i (upTo σ N)))
    (hout : ∀ h, .handle h ∈ n.targets → ¬ idle h)
    (hroom : ∀ ch b, w.net.Edge i ch b → ∃ m, N ≤ m ∧ hasRoom (cap .data ch) (storeOf cap (upTo σ m) .data ch).q.length) :
    (∃ ch, n.task.Awaits (proj i (upTo σ N)) (.recv .data ch) ∧ n.sources = [.chan ch] ∧ ∀ k, ∃ m, k ≤ m ∧ (storeOf cap (upTo σ m) .data ch).q = []) ∨
    ∃ h, n.task.Awaits (proj i (upTo σ N)) (.streamRead h) ∧ n.sources = [.handle h] ∧ idle h := by
  have A := H.rig
  have hC := H.complete
  have hok : n.Ok := (A.wired hC).ok i n hn
  have step : ∀ {m e st'}, N ≤ m → n.task.Partial (proj i (upTo σ N) ++ [e]) → Verif.exec cap (storeOf cap (upTo σ m)) e = some st' → ¬ e.q.stalls idle → w.CanStepBut idle [] cap (upTo σ m) i := by
    intro m e st' hm hp he hst
    rw [← hsil m hm] at hp
    refine ⟨e, (H.fair.runs m).step (H.st m) (sys_node hn) hp he ?_, hst⟩
    rintro r rfl
    rw [node_no_exit] at hn; cases hn
  rcases (H.part hn N).now (node_speaks hok) with h | ⟨q, hq⟩ | ⟨k', c', h⟩
  · exact absurd h hnd
  · by_cases hst : q.stalls idle
    · right
      cases q with
      | streamRead h =>
        have h1 := (node_conduct hok (hq.step (.line []))).got (.handle h) [] (by simp [acts, act])
        exact ⟨h, hq, (handle_source hok h1).1, hst⟩
      | ioWrite h d =>
        exfalso
        have h1 := (node_conduct hok (hq.step .ok)).to ⟨.handle h, d, .ok⟩ (by simp [offers, acts, act])
        exact hout h h1 hst
      | ioFlush h => exact absurd hst (hout h (node_flushes hq))
      | _ => exact hst.elim
    left
    have himp : ∀ k, ∃ m, k ≤ m ∧ N ≤ m ∧ Impossible cap (storeOf cap (upTo σ m)) q := by
      intro k
      obtain ⟨m, h1, h2, h3⟩ := H.fair.often hsil k
      refine ⟨m, h1, h2, fun r => ?_⟩
      cases he : Verif.exec cap (storeOf cap (upTo σ m)) ⟨q, r⟩ with
      | none => rfl
      | some st' => exact absurd (step h2 (hq.step r) he hst) h3
    obtain ⟨m0, _, hm0, hi0⟩ := himp 0
    rcases impossible_cases hi0 with ⟨k, ch, rfl, h1, h2⟩ | ⟨k, ch, v, rfl, h1, h2⟩
    · rcases A.toRigged.kinds hC H.unmanaged hn (hq.step none) (e := ⟨.recv k ch, none⟩) (by simp) rfl with rfl | ⟨rfl, x, hm, hx⟩
      · refine ⟨ch, hq, ?_, fun k => ?_⟩
        · rcases node_awaits hok hq hi0 rfl with ⟨h3, _⟩ | ⟨_, _, _, d, hd⟩
          · exact h3
          · cases hd
        · obtain ⟨m, g1, _, g2⟩ := himp k
          rcases impossible_cases g2 with ⟨_, _, he, h3, _⟩ | ⟨_, _, _, he, _⟩
          · cases he; exact ⟨m, g1, h3⟩
          · cases he
      · exfalso
        obtain ⟨s, t1, t2, _, h3, _⟩ := hq
        have noMon : (n.task.body s).Only NoNews := by
          rcases hx with ⟨_, rfl⟩ | ⟨_, rfl⟩ <;>
          · obtain ⟨a, b, m, hk⟩ := A.bufferNodes hC rfl hm
            simp only [Waiter.node, hk, Comp.node, Option.some.injEq] at hn
            subst hn
            exact relay_noMon
        exact Prog.Only.awaits noMon h3 ch rfl
    · exfalso
      rcases A.toRigged.kinds hC H.unmanaged hn (hq.step true) (e := ⟨.send k ch v, true⟩) (by simp) rfl with rfl | ⟨rfl, x, hm, hx⟩
      · rcases node_awaits hok hq hi0 rfl with ⟨_, _, _, _, h3⟩ | ⟨h3, _⟩
        · cases h3
        · obtain ⟨b, he⟩ := H.target hn h3
          obtain ⟨m, hm, hr⟩ := hroom ch b he
          have hno : ∀ m, N ≤ m → ∀ x, σ m = some x → sentOf .data ch x.2 = none := by
            intro m hm x hx
            cases hs' : sentOf .data ch x.2 with
            | none => rfl
            | some d =>
              exfalso
              have hxi := (H.facts he (m + 1)).sent x (by rw [upTo, hx]; simp) (by rw [hs']; simp)
              have h1 := hsil m hm
              have h2 := hsil (m + 1) (by omega)
              rw [upTo, hx, proj_append, h1] at h2
              simp [proj, hxi] at h2
          obtain ⟨m', g1, g2, g3⟩ := himp m
          rcases impossible_cases g3 with ⟨_, _, e, _⟩ | ⟨_, _, _, e, _, h4⟩
          · cases e
          · cases e
            have := (queue_shrinks H.fair.runs hno hm g1).1
            refine h4 ?_
            unfold hasRoom at hr ⊢
            cases hc : cap .data ch with
            | none => trivial
            | some x => rw [hc] at hr; simp at hr ⊢; omega
      · obtain ⟨n', _, h3⟩ := H.told hm hx hsil
        obtain ⟨m', g1, _, g3⟩ := himp n'
        rcases impossible_cases g3 with ⟨_, _, e, _⟩ | ⟨_, _, _, e, h4, h5⟩
        · cases e
        · cases e
          rcases h3 m' g1 with h | h
          · rw [h] at h4; cases h4
          · exact h5 h
  · obtain ⟨m, _, h2, h3⟩ := H.fair.often hsil 0
    exact absurd (step h2 h (by simp [Verif.exec]; rfl) _root_.id) h3

/-- A node that receives only so much says nothing any more in the end, or is a junction that only looks and sleeps. -/
theorem rests {i : Who} {n : Node} (hn : w.node i = some n) {M : Nat} (hM : ∀ m, (received (proj i (upTo σ m))).length ≤ M) (N0 : Nat) :
    (∃ N, N0 ≤ N ∧ ∀ m, N ≤ m → proj i (upTo σ m) = proj i (upTo σ N)) ∨
    ∃ inputs pushs spy, n = .junction inputs pushs spy ∧ ∃ N g, N0 ≤ N ∧ (∀ k, n.task.Partial (proj i (upTo σ N) ++ first g k)) ∧ (∀ j, (act (g j)).idles = true) ∧
      (∀ k, ∃ m, N ≤ m ∧ proj i (upTo σ m) = proj i (upTo σ N) ++ first g k) ∧ ∀ j, ∃ k, N ≤ k ∧ σ k = some (i, g j) := by
  obtain ⟨K, hK⟩ := node_busy ((H.rig.wired H.complete).ok i n hn)
  have hK' : ∀ m, busy (proj i (upTo σ m)) ≤ K * (M + 1) ∧ ((∀ inputs pushs spy, n ≠ .junction inputs pushs spy) → (proj i (upTo σ m)).length ≤ K * (M + 1)) := by
    intro m
    have h1 := hK _ (H.part hn m)
    have h2 := Nat.mul_le_mul_left K (Nat.add_le_add_right (hM m) 1)
    exact ⟨Nat.le_trans h1.1 h2, fun h => Nat.le_trans (h1.2 h) h2⟩
  rcases silent_or_numbered (σ := σ) i with ⟨N, hN⟩ | hnum
  · left
    refine ⟨max N0 N, by omega, fun m hm => ?_⟩
    rw [hN m (by omega), hN (max N0 N) (by omega)]
  · right
    have hj : ∃ inputs pushs spy, n = .junction inputs pushs spy := by
      refine Classical.byContradiction fun h => ?_
      obtain ⟨g, hg⟩ := hnum 0
      obtain ⟨m, _, hm⟩ := hg (K * (M + 1) + 1)
      have := (hK' m).2 (fun a b d e => h ⟨a, b, d, e⟩)
      rw [hm, List.length_append] at this
      simp [first] at this
      omega
    obtain ⟨inputs, pushs, spy, e⟩ := hj
    obtain ⟨N1, hN1⟩ := settles (f := fun m => busy (proj i (upTo σ m))) (by
      intro m
      rcases proj_upTo_succ (σ := σ) i m with h | ⟨e, _, h⟩ <;> rw [h]
      · exact Nat.le_refl _
      · rw [busy_append]; exact Nat.le_add_right _ _) (fun m => (hK' m).1)
    obtain ⟨g, hg⟩ := hnum (max N0 N1)
    refine ⟨inputs, pushs, spy, e, max N0 N1, g, by omega, fun k => ?_, fun j => ?_, hg, fun j => ?_⟩
    · obtain ⟨m, _, hm⟩ := hg k
      rw [← hm]; exact H.part hn m
    · obtain ⟨m, h1, hm⟩ := hg (j + 1)
      have h2 := hN1 m (by omega)
      have h3 := hN1 (max N0 N1) (by omega)
      rw [hm, busy_append, h3, first_succ, busy_append] at h2
      have h4 : busy [g j] = 0 := by omega
      cases hid : (act (g j)).idles with
      | true => rfl
      | false => simp [busy, acts, hid] at h4
    · obtain ⟨m, h1, hm⟩ := hg (j + 1)
      obtain ⟨u, hu1, hu2⟩ := proj_since (σ := σ) i h1
      rw [hm, List.append_cancel_left_eq] at hu1
      exact hu2 _ (by rw [← hu1, first_succ]; simp)

/-- There is, again and again, room in a channel out of which everything is taken and into which nothing is put. -/
theorem room {i b : Who} {ch : Nat} (he : w.net.Edge i ch b) {N : Nat} (hsil : ∀ m, N ≤ m → proj i (upTo σ m) = proj i (upTo σ N))
    (ht : ∀ N, (storeOf cap (upTo σ N) .data ch).q ≠ [] → ∃ m, N ≤ m ∧ (receivedFrom (.chan ch) (proj b (upTo σ N))).length < (receivedFrom (.chan ch) (proj b (upTo σ m))).length) :
    ∃ m, N ≤ m ∧ hasRoom (cap .data ch) (storeOf cap (upTo σ m) .data ch).q.length := by
  have key : ∀ L m, N ≤ m → (storeOf cap (upTo σ m) .data ch).q.length ≤ L → ∃ m, N ≤ m ∧ hasRoom (cap .data ch) (storeOf cap (upTo σ m) .data ch).q.length := by
    intro L
    induction L with
    | zero => exact fun m hm h => ⟨m, hm, caps_room H.caps (List.eq_nil_of_length_eq_zero (by omega))⟩
    | succ L ih =>
      intro m hm h
      by_cases h0 : (storeOf cap (upTo σ m) .data ch).q = []
      · exact ⟨m, hm, caps_room H.caps h0⟩
      · obtain ⟨m', h1, h2⟩ := ht m h0
        refine ih m' (by omega) ?_
        have F := H.facts he m
        have F' := H.facts he m'
        have e1 := congrArg List.length (edge_prefix (H.st m) F.sent F.got)
        have e2 := congrArg List.length (edge_prefix (H.st m') F'.sent F'.got)
        rw [hsil m hm, List.length_append] at e1
        rw [hsil m' (by omega), List.length_append] at e2
        omega
  exact key _ N (Nat.le_refl _) (Nat.le_refl _)

/-- What is in a channel is taken out, if what the reader writes is. -/
theorem taken_if {b : Who} {n : Node} (hn : w.node b = some n) {ch : Nat} (hs' : .chan ch ∈ n.sources) (hl : w.Least b ch) (hout : ∀ h, .handle h ∈ n.targets → ¬ idle h)
    (ht : ∀ ch' b', w.net.Edge b ch' b' → ∀ N, (storeOf cap (upTo σ N) .data ch').q ≠ [] → ∃ m, N ≤ m ∧ (receivedFrom (.chan ch') (proj b' (upTo σ N))).length < (receivedFrom (.chan ch') (proj b' (upTo σ m))).length)
    {N : Nat} (hq : (storeOf cap (upTo σ N) .data ch).q ≠ []) :
    ∃ m, N ≤ m ∧ (receivedFrom (.chan ch) (proj b (upTo σ N))).length < (receivedFrom (.chan ch) (proj b (upTo σ m))).length := by
  refine Classical.byContradiction fun hnot => ?_
  have hok : n.Ok := (H.rig.wired H.complete).ok b n hn
  have hsame : ∀ m, N ≤ m → (receivedFrom (.chan ch) (proj b (upTo σ m))).length ≤ (receivedFrom (.chan ch) (proj b (upTo σ N))).length := by
    intro m hm
    exact Nat.le_of_not_lt fun h => hnot ⟨m, hm, h⟩
  have hno : ∀ m, N ≤ m → ∀ x, σ m = some x → gotOf .data ch x.2 = none := by
    intro m hm x hx
    cases hg : gotOf .data ch x.2 with
    | none => rfl
    | some d =>
      exfalso
      obtain ⟨a, F⟩ := H.reader hn hs' (m + 1)
      have hxb := F.got x (by rw [upTo, hx]; simp) (by rw [hg]; simp)
      have h1 := hsame (m + 1) (by omega)
      obtain ⟨u, hu, _⟩ := proj_since (σ := σ) b hm
      rw [upTo, hx, proj_append, hu, receivedFrom_append, receivedFrom_append] at h1
      have : receivedFrom (.chan ch) (proj b (some x).toList) = [d] := by
        rw [← gotOn_data]
        simp [proj, hxb, gotOn, hg]
      rw [this] at h1
      simp at h1
      omega
  have hfull : ∀ m, N ≤ m → (storeOf cap (upTo σ m) .data ch).q ≠ [] := fun m hm => queue_stays H.fair.runs hno hm hq
  have hended : ∀ m, Act.ended (.chan ch) ∉ acts (proj b (upTo σ m)) := by
    intro m hm
    have : Act.ended (.chan ch) ∈ acts (proj b (upTo σ (max m N))) := by
      obtain ⟨u, hu, _⟩ := proj_since (σ := σ) b (show m ≤ max m N by omega)
      rw [hu, acts_append, List.mem_append]; exact Or.inl hm
    exact hfull _ (by omega) (ended_empty (H.st _) this).1
  have hempty : ∀ k, N ≤ k → σ k ≠ some (b, ⟨.tryRecv .data ch, .empty⟩) := by
    intro k hk he
    rcases storeOf_succ H.fair.runs k with ⟨h, _⟩ | ⟨x, hx, h⟩
    · rw [h] at he; cases he
    · rw [he] at hx; cases hx
      exact hfull k hk (exec_try_empty h).1
  -- it receives only so much
  have hM : ∃ M, ∀ m, (received (proj b (upTo σ m))).length ≤ M := by
    have grows : ∀ m, (received (proj b (upTo σ m))).length ≤ (received (proj b (upTo σ (max m N)))).length := by
      intro m
      obtain ⟨u, hu, _⟩ := proj_since (σ := σ) b (show m ≤ max m N by omega)
      rw [hu, received_append, List.length_append]; omega
    suffices h : ∃ M, ∀ m, N ≤ m → (received (proj b (upTo σ m))).length ≤ M by
      obtain ⟨M, hM⟩ := h
      exact ⟨M, fun m => Nat.le_trans (grows m) (hM _ (by omega))⟩
    have single : n.sources = [.chan ch] → ∃ M, ∀ m, N ≤ m → (received (proj b (upTo σ m))).length ≤ M := by
      intro hsrc
      refine ⟨(receivedFrom (.chan ch) (proj b (upTo σ N))).length, fun m hm => ?_⟩
      have h1 := hsame m hm
      rw [receivedFrom_only (tr := proj b (upTo σ m)) (fun s' d hd => by
        have := (w.net.conduct (H.rig.wired H.complete) (H.rig.run H.complete (H.fair.runs m)).1 hn).got s' d hd
        rw [hsrc] at this; simpa using this)] at h1
      exact h1
    cases n with
    | relay pull mon spy push =>
      refine single ?_
      have : pull.source = some (.chan ch) := by simpa [Node.sources] using hs'
      simp [Node.sources, this]
    | regulator pull push spy ctl =>
      refine single ?_
      have : pull.source = some (.chan ch) := by simpa [Node.sources] using hs'
      simp [Node.sources, this]
    | junction inputs pushs spy =>
      obtain ⟨x, hx1, hx2, hx3⟩ := hl _ _ _ hn
      obtain ⟨_, hin, hdi, hse, hnd, hne⟩ := _root_.id hok
      refine ⟨(received (proj b (upTo σ N))).length + (Node.junction inputs pushs spy).sources.length * 2, fun m hm => ?_⟩
      obtain ⟨u, hu, hu2⟩ := proj_since (σ := σ) b hm
      have hp := H.part hn m
      have hnf := H.nofail hn m
      have hend := hended m
      have hcon := (w.net.conduct (H.rig.wired H.complete) (H.rig.run H.complete (H.fair.runs m)).1 hn).got
      have hs1 := hsame m hm
      rw [hu] at hp hnf hend hcon hs1 ⊢
      rw [receivedFrom_append, List.length_append] at hs1
      rw [received_append, List.length_append]
      have h1 := received_sum (srcs := (Node.junction inputs pushs spy).sources) (tr := u) (fun s d h => hcon s d (by rw [acts_append, List.mem_append]; exact Or.inr h))
      have h2 : ∀ s ∈ (Node.junction inputs pushs spy).sources, (receivedFrom s u).length ≤ 2 := by
        intro s _
        have := junction_shares hdi hse (junctionTask_partial hp) (q := x.1) (n := x.2) (e' := .chan ch) hx1 hx2 hx3
          (by
            intro hem
            obtain ⟨e, he, hact⟩ := List.mem_map.mp hem
            obtain ⟨k, hk, hke⟩ := hu2 e he
            obtain ⟨ch2, rfl⟩ := empty_event hact
            have : ch2 = ch := by simpa [act] using hact
            subst this
            exact hempty k hk hke) hend
          (by
            intro hg
            obtain ⟨f, hf1, hf2⟩ := hg.fails hse hne
            rw [hnf f hf1] at hf2; cases hf2) s
        omega
      have h3 := sum_const h2
      omega
  obtain ⟨M, hM⟩ := hM
  rcases H.rests hn hM N with ⟨N', hN', hsil⟩ | ⟨inputs, pushs, spy, rfl, N', g, hN', hpar, hid, _, hat⟩
  · obtain ⟨ch', _, h2, h3⟩ | ⟨_, _, h2, _⟩ := H.waits hn hsil (by
      intro hd
      exact hended _ ((node_finished hok hd (H.nofail hn N')).ended _ hs')) hout (fun ch' b' he => H.room he hsil (ht ch' b' he))
    rotate_left
    · rw [h2] at hs'
      simp at hs'
    rw [h2] at hs'
    simp only [List.mem_singleton, End.chan.injEq] at hs'
    subst hs'
    obtain ⟨m, h4, h5⟩ := h3 N
    exact hfull m h4 h5
  · obtain ⟨j, hj⟩ := (junction_rest hok hpar hid).2 ch hs' ⟨hended N', fun c' hc' hcl => by
      cases hc'
      rcases node_closes hok (H.part hn N') hs' hcl with h | ⟨f, hf1, hf2⟩
      · exact hended N' h
      · rw [H.nofail hn N' f hf1] at hf2; cases hf2⟩
    obtain ⟨k, hk, hke⟩ := hat j
    rw [hj] at hke
    exact hempty k (by omega) hke

/-- What is in a channel is taken out. -/
theorem taken (hcf : CircleFree hs) {G : Who → Prop} (hG : w.Onward idle G) : ∀ L b n ch, w.node b = some n → .chan ch ∈ n.sources → w.Least b ch → G b → (w.everyone []).length + 1 ≤ rankIn (Leads hs) (w.everyone []) b + L →
    ∀ N, (storeOf cap (upTo σ N) .data ch).q ≠ [] → ∃ m, N ≤ m ∧ (receivedFrom (.chan ch) (proj b (upTo σ N))).length < (receivedFrom (.chan ch) (proj b (upTo σ m))).length := by
  have A := H.rig
  have hC := H.complete
  have mem_everyone : ∀ {i n}, w.node i = some n → i ∈ w.everyone [] := fun {i n} hn => sys_everyone (by rw [sys_node hn]; simp)
  have edge : ∀ a ch b, w.net.Edge a ch b → rankIn (Leads hs) (w.everyone []) a < rankIn (Leads hs) (w.everyone []) b := by
    intro a ch b he
    have ha : a ∈ w.everyone [] := by obtain ⟨n, _, hn, _⟩ := he; exact mem_everyone hn
    refine rankIn_lt hcf ha ?_
    rcases (A.edges hC a ch b).mp he with ⟨h, h1, h2, rfl, rfl⟩ | ⟨x, h1, _, rfl, rfl⟩
    · exact .hop (List.mem_of_getElem? h1) h2
    · exact .buffer h1
  intro L
  induction L with
  | zero =>
    intro b n ch hn _ _ _ hL
    have : rankIn (Leads hs) (w.everyone []) b ≤ (w.everyone []).length := rankIn_le
    omega
  | succ L ih =>
    intro b n ch hn hs' hl hb hL N hq
    refine H.taken_if hn hs' hl (fun h => hG.answers b n h hb hn) (fun ch' b' he N hq => ?_) hq
    have := edge b ch' b' he
    obtain ⟨hl', hb'⟩ := hG.least b ch' b' hb he
    obtain ⟨_, m, _, hm, _, h1⟩ := he
    exact ih b' m ch' hm h1 hl' hb' (by omega) N hq

/-- Everything a component has received gets to whoever reads from it. -/
theorem passes (hcf : CircleFree hs) {G : Who → Prop} (hG : w.Onward idle G) {a b : Who} (ha : G a) {ch : Nat} (he : w.net.Edge a ch b) (N : Nat) :
    ∃ m, N ≤ m ∧ received (proj a (upTo σ N)) <+: receivedFrom (.chan ch) (proj b (upTo σ m)) := by
  refine Classical.byContradiction fun hnot => ?_
  have htk : ∀ ch b, w.net.Edge a ch b → ∀ N, (storeOf cap (upTo σ N) .data ch).q ≠ [] → ∃ m, N ≤ m ∧ (receivedFrom (.chan ch) (proj b (upTo σ N))).length < (receivedFrom (.chan ch) (proj b (upTo σ m))).length := by
    intro ch b he
    obtain ⟨hl, hb⟩ := hG.least a ch b ha he
    obtain ⟨_, m, _, hm, _, h1⟩ := he
    exact H.taken hcf hG _ b m ch hm h1 hl hb (Nat.le_add_left _ _)
  obtain ⟨n, _, hn, _, htg, _⟩ := _root_.id he
  have hn : w.node a = some n := hn
  have hok : n.Ok := (H.rig.wired H.complete).ok a n hn
  have flow : ∀ m, offeredTo (.chan ch) (proj a (upTo σ m)) = receivedFrom (.chan ch) (proj b (upTo σ m)) ++ (storeOf cap (upTo σ m) .data ch).q := by
    intro m
    have F := H.facts he m
    rw [← edge_prefix (H.st m) F.sent F.got, acceptedBy_all]
    intro o ho
    have := H.nofail hn m _ (mem_offers.mp ho)
    obtain ⟨t, d, wo⟩ := o
    cases wo <;> simp [Act.fails] at this ⊢
  have copies : ∀ m, _ := fun m => (node_conduct hok (H.part hn m)).copies _ htg
  have grows : ∀ {m m'}, m ≤ m' → received (proj a (upTo σ m)) <+: received (proj a (upTo σ m')) := by
    intro m m' h
    obtain ⟨u, hu, _⟩ := proj_since (σ := σ) a h
    rw [hu, received_append]; exact List.prefix_append _ _
  have less : ∀ m, N ≤ m → (receivedFrom (.chan ch) (proj b (upTo σ m))).length < (received (proj a (upTo σ N))).length := by
    intro m hm
    refine Nat.lt_of_not_le fun h => hnot ⟨m, hm, ?_⟩
    have h1 := (copies m).1
    rw [flow m] at h1
    exact List.prefix_of_prefix_length_le (grows hm) ((List.prefix_append _ _).trans h1) h
  obtain ⟨N1, hN1⟩ := settles (f := fun k => (receivedFrom (.chan ch) (proj b (upTo σ (N + k)))).length) (by
    intro k
    obtain ⟨u, hu, _⟩ := proj_since (σ := σ) b (show N + k ≤ N + (k + 1) by omega)
    rw [hu, receivedFrom_append, List.length_append]; omega) (fun k => Nat.le_of_lt (less (N + k) (by omega)))
  have hq : ∀ m, N + N1 ≤ m → (storeOf cap (upTo σ m) .data ch).q = [] := by
    intro m hm
    refine Classical.byContradiction fun h => ?_
    obtain ⟨m', h1, h2⟩ := htk ch b he m h
    have h3 := hN1 (m - N) (by omega)
    have h4 := hN1 (m' - N) (by omega)
    rw [show N + (m - N) = m by omega] at h3
    rw [show N + (m' - N) = m' by omega] at h4
    omega
  have short : ∀ m, N + N1 ≤ m → (offeredTo (.chan ch) (proj a (upTo σ m))).length < (received (proj a (upTo σ m))).length := by
    intro m hm
    have h1 := less m (by omega)
    have h2 := (grows (show N ≤ m by omega)).length_le
    rw [flow m, hq m hm, List.append_nil]; omega
  have hM : ∀ m, (received (proj a (upTo σ m))).length ≤ (received (proj a (upTo σ N))).length := by
    intro m
    have h1 := (grows (show m ≤ max m (N + N1) by omega)).length_le
    have h2 := (copies (max m (N + N1))).2
    rw [flow, hq _ (by omega), List.append_nil] at h2
    have := less (max m (N + N1)) (by omega)
    omega
  rcases H.rests hn hM (N + N1) with ⟨N', hN', hsil⟩ | ⟨inputs, pushs, spy, rfl, N', g, hN', hpar, hid, hg, _⟩
  · have hs1 := short N' hN'
    by_cases hd : n.task.Done (proj a (upTo σ N'))
    · rw [(node_finished hok hd (H.nofail hn N')).all _ htg] at hs1
      omega
    · obtain ⟨ch', h1, _⟩ | ⟨h', h1, _⟩ := H.waits hn hsil hd (fun h => hG.answers a n h ha hn) (fun ch' b' he => H.room he hsil (htk ch' b' he))
      · rw [waiting_passed (r := some []) hok (H.part hn N') h1 rfl htg] at hs1
        omega
      · rw [waiting_passed (q := .streamRead h') (r := .line []) hok (H.part hn N') h1 rfl htg] at hs1
        omega
  · obtain ⟨⟨s, hs1, hs2⟩, hall⟩ := junction_rest hok hpar hid
    have hchan : ∃ c', s = .chan c' := by
      obtain ⟨x, hx1, hx2⟩ := List.mem_filterMap.mp (show s ∈ inputs.filterMap fun x => x.1.source from hs1)
      obtain ⟨_, hin, _⟩ := _root_.id hok
      obtain ⟨j, c', e⟩ := hin x hx1
      rw [e] at hx2
      exact ⟨c', by simpa [Pull.source] using hx2.symm⟩
    obtain ⟨c', rfl⟩ := hchan
    obtain ⟨j, hj⟩ := hall c' hs1 hs2
    have h1 := hpar (j + 1)
    rw [first_succ, ← List.append_assoc, hj] at h1
    rcases h1.last with h1 | ⟨_, _, t2, _, _, h1⟩
    · obtain ⟨m, hm, e⟩ := hg j
      have := short m (by omega)
      rw [e, waiting_passed (q := .tryRecv .data c') (r := .got []) hok (hpar j) h1 rfl htg] at this
      omega
    · obtain ⟨_, _, _, h2⟩ := mem_dropEvs h1 _ (List.mem_append_right _ (List.mem_singleton.mpr rfl))
      cases h2

end Waiter.Endless

end
end Verif
