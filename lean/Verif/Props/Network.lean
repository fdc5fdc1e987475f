import Verif.Lemmas.Network
import Verif.Lemmas.Replay
/-!
# Property C55: networks of components

For every network of relays, regulators and junctions, with any connections (also in circles), any capacities and
any schedule.
-/
namespace Verif
section
variable {ι : Type} [DecidableEq ι] {N : Network ι} {cap : Caps} {τ : List (ι × Ev)}

/-- **C55**, at every moment: what the reader of a channel has taken from it is an initial segment of what the
component writing to it has received; the rest, as long as the reader has not given the channel up, is in the
channel, except at most one message the writer is holding. -/
theorem C55_channel (hw : N.Wired) (hx : Execution cap N.sys τ) (hu : N.Undisturbed τ) {a c b} (he : N.Edge a c b) :
    receivedFrom (.chan c) (proj b τ) <+: received (proj a τ) ∧
    ((Kind.data, c) ∉ closings (proj b τ) → ∃ st q held, execAll cap Store.init (τ.map Prod.snd) = some st ∧
      q = (st .data c).q ∧ (∀ n, cap .data c = some n → q.length ≤ n) ∧ held.length ≤ 1 ∧
      received (proj a τ) = receivedFrom (.chan c) (proj b τ) ++ q ++ held) := by
  have F := N.facts hw hx hu he
  obtain ⟨n, m, hn, hm, ht, hs⟩ := he
  obtain ⟨c1, c2⟩ := (N.conduct hw hx hn).copies _ ht
  obtain ⟨st, hst⟩ := Option.isSome_iff_exists.mp hx.chans
  have e1 := edge_prefix hst F.sent F.got
  have e2 := accepted_prefix hst c a
  refine ⟨?_, fun hc => ?_⟩
  · exact (List.prefix_append _ _).trans ((e1 ▸ e2).trans c1)
  · have e3 := edge_open hst F.on F.writer hc
    obtain ⟨held, hh⟩ := c1
    refine ⟨st, _, held, hst, rfl, ?_, ?_, ?_⟩
    · intro n hn; exact room_le hst .data c hn (by simp [Store.init])
    · have := congrArg List.length hh; simp at this; omega
    · rw [← e1, e3]; exact hh.symm

theorem receivedFrom_only {tr : List Ev} {s : End} (h : ∀ s' d, Act.got s' d ∈ acts tr → s' = s) : receivedFrom s tr = received tr := by
  unfold receivedFrom received
  revert h
  induction acts tr with
  | nil => simp
  | cons x l ih =>
    intro h
    have ih := ih fun s' d hd => h s' d (by simp [hd])
    cases x with
    | got s' d =>
      have := h s' d (by simp)
      subst this
      simp [ih]
    | _ => simpa using ih

/-- **C55**, at every moment: along a branch, what a component has received is an initial segment of what any
component before it has received. -/
theorem C55_branch (hw : N.Wired) (hx : Execution cap N.sys τ) (hu : N.Undisturbed τ) {a b} (hp : N.Path a b) :
    received (proj b τ) <+: received (proj a τ) := by
  induction hp with
  | here => exact List.prefix_rfl
  | @step b c d m _ he hm hs ih =>
    have h1 := (C55_channel hw hx hu he).1
    rw [receivedFrom_only (s := .chan c) (tr := proj d τ) (fun s' x hd => by
      have := (N.conduct hw hx hm).got s' x hd
      rw [hs] at this; simpa using this)] at h1
    exact h1.trans ih

theorem refused_event {e : Ev} {c d w} (h : act e = .offer (.chan c) d w) (hw : w ≠ .ok) : e = ⟨.send .data c d, false⟩ := by
  obtain ⟨q, r⟩ := e
  cases q with
  | recv k c' => cases k <;> cases r <;> simp [act] at h
  | tryRecv k c' => cases k <;> cases r <;> simp [act] at h
  | send k c' v =>
    cases k <;> cases r <;> simp [act] at h
    · obtain ⟨rfl, rfl, _⟩ := h; rfl
    · exact absurd h.2.2.symm hw
  | ioWrite h d => cases r <;> simp [act] at h
  | streamRead h => cases r <;> simp [act] at h
  | _ => simp [act] at h

/-- **C55**, failures: the first failure in a network comes from outside. A component finds the channel to another
one closed only after something else has failed. -/
theorem C55_failures (hw : N.Wired) (hx : Execution cap N.sys τ) (hu : N.Undisturbed τ)
    {τ1 τ2 : List (ι × Ev)} {a b : ι} {e : Ev} {c d w} (hτ : τ = τ1 ++ (a, e) :: τ2) (he : N.Edge a c b)
    (ha : act e = .offer (.chan c) d w) (hr : w ≠ .ok) :
    ∃ j n f, N.node j = some n ∧ f ∈ acts (proj j τ1) ∧ N.Outside j f := by
  induction hl : τ1.length using Nat.strongRecOn generalizing τ1 τ2 a b e c d w with
  | _ l ih =>
    subst hl
    have F := N.facts hw hx hu he
    have hev := refused_event ha hr
    have hx1 : Execution cap N.sys τ1 := by rw [hτ] at hx; exact hx.prefix
    have hu1 : N.Undisturbed τ1 := by rw [hτ] at hu; exact hu.prefix
    have F1 := N.facts hw hx1 hu1 he
    have hna : (Kind.data, c) ∉ closings (proj a τ1) := by
      intro hc
      have hpr : proj a τ = proj a τ1 ++ e :: proj a τ2 := by rw [hτ, proj_append, proj_cons_self]
      exact (F.writer _ _ hpr hc).2.2 d w (by simp [ha])
    have hcb : (Kind.data, c) ∈ closings (proj b τ1) := by
      obtain ⟨st, hst⟩ := Option.isSome_iff_exists.mp hx.chans
      rw [hτ, List.map_append] at hst
      obtain ⟨s1, g1, g2⟩ := execAll_split hst
      obtain ⟨s2, g3, _⟩ := execAll_cons g2
      dsimp only at g3
      rw [hev] at g3
      have hc := (exec_send_false g3).1
      rw [closed_iff g1] at hc
      rcases hc with hc | ⟨e', hm, hc⟩
      · simp [Store.init] at hc
      · obtain ⟨x, hx', rfl⟩ := List.mem_map.mp hm
        have hcl : ∀ i, x.1 = i → (Kind.data, c) ∈ closings (proj i τ1) := by
          rintro i rfl
          exact closedIn_closings.mp ⟨x.2, mem_proj.mpr hx', hc⟩
        rcases F1.on x hx' (on_of_closes hc) with hi | hi
        · exact absurd (hcl a hi) hna
        · exact hcl b hi
    obtain ⟨n, m, hn, hm, ht, hs⟩ := he
    rcases node_closes (hw.ok b m hm) (hx1.tasks b m.task (by simp [Network.sys, hm])) hs hcb with hend | ⟨f, hf, hff⟩
    · obtain ⟨st, hst⟩ := Option.isSome_iff_exists.mp hx1.chans
      exact absurd (edge_complete hst F1.on F1.writer F1.reader F1.sent F1.got hend).2.2 hna
    · by_cases hin : ∃ c' b' d' w', N.Edge b c' b' ∧ f = .offer (.chan c') d' w'
      · obtain ⟨c', b', d', w', he', rfl⟩ := hin
        obtain ⟨e', hme, hact⟩ := List.mem_map.mp hf
        obtain ⟨σ1, σ2, rfl⟩ := List.append_of_mem (mem_proj.mp hme)
        obtain ⟨j, k, g, h1, h2, h3⟩ := ih σ1.length (by simp) (τ1 := σ1) (τ2 := σ2 ++ (a, e) :: τ2)
          (by rw [hτ]; simp) he' hact (by rintro rfl; simp [Act.fails] at hff) rfl
        exact ⟨j, k, g, h1, by rw [proj_append, acts_append]; exact List.mem_append_left _ h2, h3⟩
      · exact ⟨b, m, f, hm, hf, hff, fun c' b' d' w' he' h => hin ⟨c', b', d', w', he', h⟩⟩

/-- Nothing fails if nothing fails from outside. -/
theorem C55_no_failures (hw : N.Wired) (hx : Execution cap N.sys τ) (hu : N.Undisturbed τ)
    (hf : ∀ j n f, N.node j = some n → f ∈ acts (proj j τ) → ¬ N.Outside j f) :
    ∀ i n f, N.node i = some n → f ∈ acts (proj i τ) → f.fails = false := by
  intro i n f hn hm
  cases hff : f.fails with
  | false => rfl
  | true =>
    exfalso
    by_cases hin : ∃ c b d w, N.Edge i c b ∧ f = .offer (.chan c) d w
    · obtain ⟨c, b, d, w, he, rfl⟩ := hin
      obtain ⟨e, hme, hact⟩ := List.mem_map.mp hm
      obtain ⟨σ1, σ2, hτ⟩ := List.append_of_mem (mem_proj.mp hme)
      obtain ⟨j, k, g, h1, h2, h3⟩ := C55_failures hw hx hu hτ he hact (by rintro rfl; simp [Act.fails] at hff)
      exact hf j k g h1 (by rw [hτ, proj_append, acts_append]; exact List.mem_append_left _ h2) h3
    · exact hf i n f hn hm ⟨hff, fun c b d w he h => hin ⟨c, b, d, w, he, h⟩⟩

/-- **C55**, at every moment, nothing is lost: as long as nothing has failed from outside, what the writer of a channel has
received is what the reader has taken from the channel, followed by what is in it, followed by at most one message. -/
theorem C55_conserved (hw : N.Wired) (hx : Execution cap N.sys τ) (hu : N.Undisturbed τ)
    (hf : ∀ j n f, N.node j = some n → f ∈ acts (proj j τ) → ¬ N.Outside j f) {a c b} (he : N.Edge a c b) {st : Store}
    (hst : execAll cap Store.init (τ.map Prod.snd) = some st) :
    ∃ held, held.length ≤ 1 ∧ received (proj a τ) = receivedFrom (.chan c) (proj b τ) ++ (st .data c).q ++ held := by
  have F := N.facts hw hx hu he
  by_cases hc : (Kind.data, c) ∈ closings (proj b τ)
  · obtain ⟨n, m, hn, hm, ht, hs⟩ := he
    rcases node_closes (hw.ok b m hm) (hx.tasks b m.task (by simp [Network.sys, hm])) hs hc with hend | ⟨f, h1, h2⟩
    · obtain ⟨e1, e2, _⟩ := edge_complete hst F.on F.writer F.reader F.sent F.got hend
      have e3 := edge_prefix hst F.sent F.got
      obtain ⟨⟨held, hh⟩, c2⟩ := (N.conduct hw hx hn).copies _ ht
      refine ⟨held, ?_, ?_⟩
      · have := congrArg List.length hh; simp at this; omega
      · rw [← e3, e1]; exact hh.symm
    · rw [C55_no_failures hw hx hu hf b m f hm h1] at h2; simp at h2
  · obtain ⟨st', q, held, h1, rfl, _, h2, h3⟩ := (C55_channel hw hx hu he).2 hc
    rw [hst] at h1; simp at h1; subst h1
    exact ⟨held, h2, h3⟩

/-- **C55**, in the end: when the components at both ends of a channel have ended and nothing has failed from
outside, the reader has received from the channel exactly what the writer has received, and its end. -/
theorem C55_complete (hw : N.Wired) (hx : Execution cap N.sys τ) (hu : N.Undisturbed τ)
    (hf : ∀ j n f, N.node j = some n → f ∈ acts (proj j τ) → ¬ N.Outside j f) {a c b} (he : N.Edge a c b)
    (hda : ∀ n, N.node a = some n → n.task.Done (proj a τ)) (hdb : ∀ n, N.node b = some n → n.task.Done (proj b τ)) :
    receivedFrom (.chan c) (proj b τ) = received (proj a τ) ∧ Act.ended (.chan c) ∈ acts (proj b τ) ∧
    (Kind.data, c) ∈ closings (proj a τ) := by
  have F := N.facts hw hx hu he
  obtain ⟨n, m, hn, hm, ht, hs⟩ := he
  have nf := C55_no_failures hw hx hu hf
  have fa := node_finished (hw.ok a n hn) (hda n hn) (fun f h => nf a n f hn h)
  have fb := node_finished (hw.ok b m hm) (hdb m hm) (fun f h => nf b m f hm h)
  obtain ⟨st, hst⟩ := Option.isSome_iff_exists.mp hx.chans
  have hend := fb.ended _ hs
  obtain ⟨_, e2, e3⟩ := edge_complete hst F.on F.writer F.reader F.sent F.got hend
  exact ⟨by rw [e2, fa.all _ ht], hend, e3⟩

/-- **C55**, in the end: every component along a branch has received everything. -/
theorem C55_branch_complete (hw : N.Wired) (hx : Execution cap N.sys τ) (hu : N.Undisturbed τ)
    (hf : ∀ j n f, N.node j = some n → f ∈ acts (proj j τ) → ¬ N.Outside j f)
    (hd : ∀ i n, N.node i = some n → n.task.Done (proj i τ)) {a b} (hp : N.Path a b) :
    received (proj b τ) = received (proj a τ) := by
  induction hp with
  | here => rfl
  | @step b c d m _ he hm hs ih =>
    have h1 := (C55_complete hw hx hu hf he (hd _) (hd _)).1
    rw [receivedFrom_only (s := .chan c) (tr := proj d τ) (fun s' x hd => by
      have := (N.conduct hw hx hm).got s' x hd
      rw [hs] at this; simpa using this)] at h1
    rw [h1, ih]

/-- What a component with a single input writes in the end to any of its outputs, channel or not, is everything the
first component of the branch has received. -/
theorem C55_delivered (hw : N.Wired) (hx : Execution cap N.sys τ) (hu : N.Undisturbed τ)
    (hf : ∀ j n f, N.node j = some n → f ∈ acts (proj j τ) → ¬ N.Outside j f)
    (hd : ∀ i n, N.node i = some n → n.task.Done (proj i τ)) {a b m} (hp : N.Path a b) (hm : N.node b = some m) :
    ∀ t ∈ m.targets, offeredTo t (proj b τ) = received (proj a τ) := by
  intro t ht
  have fb := node_finished (hw.ok b m hm) (hd b m hm) (fun f h => C55_no_failures hw hx hu hf b m f hm h)
  rw [fb.all t ht, C55_branch_complete hw hx hu hf hd hp]

end

/-! ### A fan-out to a relay and a regulator, run to its end -/
namespace FanOut

def split : Node := .junction [(.receiver ⟨1, 2⟩ 0, 0)] [.sender ⟨2, some .out, 3, .terminate⟩ 1, .sender ⟨2, some .err, 4, .consume⟩ 2] none
def left : Node := .relay (.receiver ⟨2, 3⟩ 1) {} none (.io ⟨3, some .out, 5, .terminate⟩ 5)
def right : Node := .regulator (.receiver ⟨2, 4⟩ 2) (.io ⟨4, some .out, 6, .terminate⟩ 6) none none

def node : Nat → Option Node
  | 1 => some split
  | 2 => some left
  | 3 => some right
  | _ => none

def net : Network Nat := ⟨node⟩

def tr1 : List Ev := [⟨.tryRecv .data 0, .empty⟩, ⟨.sleep 0, ()⟩, ⟨.tryRecv .data 0, .got [97]⟩, ⟨.send .data 1 [97], true⟩, ⟨.send .data 2 [97], true⟩,
  ⟨.tryRecv .data 0, .closed⟩, ⟨.close .data 0, ()⟩, ⟨.close .data 1, ()⟩, ⟨.close .data 2, ()⟩]
def tr2 : List Ev := [⟨.recv .data 1, some [97]⟩, ⟨.ioWrite 5 [97], .ok⟩, ⟨.recv .data 1, none⟩, ⟨.ioFlush 5, true⟩, ⟨.close .data 1, ()⟩]
def tr3 : List Ev := [⟨.recv .data 2, some [97]⟩, ⟨.ioWrite 6 [97], .ok⟩, ⟨.recv .data 2, none⟩, ⟨.close .data 2, ()⟩]

def trace : List (Nat × Ev) := (tr1.take 2).map (1, ·) ++ [(0, ⟨.send .data 0 [97], true⟩)] ++ ((tr1.drop 2).take 3).map (1, ·) ++
  (tr3.take 2).map (3, ·) ++ [(0, ⟨.close .data 0, ()⟩)] ++ (tr1.drop 5).map (1, ·) ++ tr2.map (2, ·) ++ (tr3.drop 2).map (3, ·)

theorem nodes {i n} (h : net.node i = some n) : (i = 1 ∧ split = n) ∨ (i = 2 ∧ left = n) ∨ (i = 3 ∧ right = n) := by
  match i, h with
  | 1, h => exact Or.inl ⟨rfl, Option.some.inj h⟩
  | 2, h => exact Or.inr (Or.inl ⟨rfl, Option.some.inj h⟩)
  | 3, h => exact Or.inr (Or.inr ⟨rfl, Option.some.inj h⟩)

theorem wired : net.Wired := by
  refine ⟨?_, ?_, ?_⟩
  · intro i n h
    rcases nodes h with ⟨rfl, rfl⟩ | ⟨rfl, rfl⟩ | ⟨rfl, rfl⟩ <;>
      simp [split, left, right, Node.Ok, Node.sources, Node.targets, Pull.source, Push.target]
  · intro i j n m c h1 h2
    rcases nodes h1 with ⟨rfl, rfl⟩ | ⟨rfl, rfl⟩ | ⟨rfl, rfl⟩ <;> rcases nodes h2 with ⟨rfl, rfl⟩ | ⟨rfl, rfl⟩ | ⟨rfl, rfl⟩ <;>
      simp [split, left, right, Node.targets, Push.target]
  · intro i j n m c h1 h2
    rcases nodes h1 with ⟨rfl, rfl⟩ | ⟨rfl, rfl⟩ | ⟨rfl, rfl⟩ <;> rcases nodes h2 with ⟨rfl, rfl⟩ | ⟨rfl, rfl⟩ | ⟨rfl, rfl⟩ <;>
      simp [split, left, right, Node.sources, Pull.source] <;> omega

theorem edges : net.Edge 1 1 2 ∧ net.Edge 1 2 3 :=
  ⟨⟨_, _, rfl, rfl, by simp [split, left, right, Node.targets, Push.target], by simp [split, left, right, Node.sources, Pull.source]⟩,
   ⟨_, _, rfl, rfl, by simp [split, left, right, Node.targets, Push.target], by simp [split, left, right, Node.sources, Pull.source]⟩⟩

theorem done : ∀ i n, net.node i = some n → n.task.Done (proj i trace) := by
  intro i n h
  rcases nodes h with ⟨rfl, rfl⟩ | ⟨rfl, rfl⟩ | ⟨rfl, rfl⟩ <;>
    exact Task.finished_done (by decide +kernel)

theorem Done_partial {t : Task} {tr : List Ev} (h : t.Done tr) : t.Partial tr := by
  obtain ⟨r, t1, h1, h2⟩ := h; exact Or.inr ⟨r, t1, _, h1, List.prefix_rfl, h2⟩

theorem execution : Execution (fun _ _ => some 8) net.sys trace := by
  refine ⟨by decide +kernel, ?_⟩
  intro i t h
  unfold Network.sys at h
  cases hn : net.node i with
  | none => rw [hn] at h; simp at h
  | some n => rw [hn] at h; simp at h; subst h; exact Done_partial (done i n hn)

theorem undisturbed : net.Undisturbed trace := by
  intro x hx hn a c b he
  obtain ⟨n, m, h1, h2, h3, h4⟩ := he
  have hc : c ≠ 0 := by
    rcases nodes h1 with ⟨rfl, rfl⟩ | ⟨rfl, rfl⟩ | ⟨rfl, rfl⟩ <;>
      simp [split, left, right, Node.targets, Push.target] at h3 <;> omega
  have : ∀ x ∈ trace, x.1 = 0 ∨ x.1 = 1 ∨ x.1 = 2 ∨ x.1 = 3 := by decide +kernel
  have h0 : ∀ x ∈ trace, x.1 = 0 → x.2.q.on = some (.data, 0) := by decide +kernel
  rcases this x hx with h | h | h | h
  · rw [h0 x hx h]; simp; exact fun h => hc h.symm
  all_goals rw [h] at hn; simp [net, node] at hn

/-- The hypotheses of `C55_complete` and `C55_branch_complete` hold here, and both branches deliver the message. -/
example : net.Wired ∧ Execution (fun _ _ => some 8) net.sys trace ∧ net.Undisturbed trace ∧
    (∀ i n, net.node i = some n → n.task.Done (proj i trace)) ∧
    (∀ j n f, net.node j = some n → f ∈ acts (proj j trace) → ¬ net.Outside j f) ∧
    net.Path 1 2 ∧ net.Path 1 3 ∧ received (proj 1 trace) = [[97]] ∧
    offeredTo (.handle 5) (proj 2 trace) = [[97]] ∧ offeredTo (.handle 6) (proj 3 trace) = [[97]] := by
  have nf : ∀ j n f, net.node j = some n → f ∈ acts (proj j trace) → ¬ net.Outside j f := by
    intro j n f hj hf ho
    have : f.fails = false := by
      have h1 : ∀ f ∈ acts (proj 1 trace), f.fails = false := by decide +kernel
      have h2 : ∀ f ∈ acts (proj 2 trace), f.fails = false := by decide +kernel
      have h3 : ∀ f ∈ acts (proj 3 trace), f.fails = false := by decide +kernel
      rcases nodes hj with ⟨rfl, _⟩ | ⟨rfl, _⟩ | ⟨rfl, _⟩
      · exact h1 f hf
      · exact h2 f hf
      · exact h3 f hf
    rw [ho.1] at this; simp at this
  have p2 : net.Path 1 2 := .step .here edges.1 rfl rfl
  have p3 : net.Path 1 3 := .step .here edges.2 rfl rfl
  have r1 : received (proj 1 trace) = [[97]] := by decide +kernel
  refine ⟨wired, execution, undisturbed, done, nf, p2, p3, r1, ?_, ?_⟩
  · rw [← r1]; exact C55_delivered wired execution undisturbed nf done p2 rfl _ (by simp [split, left, right, Node.targets, Push.target])
  · rw [← r1]; exact C55_delivered wired execution undisturbed nf done p3 rfl _ (by simp [split, left, right, Node.targets, Push.target])

end FanOut

end Verif
