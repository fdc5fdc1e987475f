import Verif.Props.RuntimeExample
/-!
# Property C65: which streams the hops carry
-/
namespace Verif

/-- The stream a hop carries what comes out of: the output or error output of its program, or what its faucet opened. Streams are numbered by the identity of their component; of
a program the first is its input, the second its output, the third its error output. -/
def Hop.stream (id : CompRef → Nat) (h : Hop) : Option Nat :=
  match h.src.ty, h.src.port with
  | .launch, .out => some (3 * id h.from + 1)
  | .launch, .err => some (3 * id h.from + 2)
  | .faucet, _ => some (3 * id h.from)
  | _, _ => none

section
variable {c : Config} {hs : List Hop} {w : Waiter} {cs : List Capture} {cap : Caps} {τ : List (Who × Ev)} {R : Map Hop} {w' : Waiter} {order : List (Str × Watch)}

theorem Assembled.writerStream (A : Assembled c hs w) {h : Hop} (hh : h ∈ hs) {s : Nat} (hs' : h.stream w.idOf = some s) :
    ∃ n, w.net.node h.writer = some n ∧ n.sources = [.handle s] := by
  have hm : Mentioned hs h.from := ⟨h, hh, Or.inl rfl⟩
  obtain ⟨k, hk, he⟩ := A.comps h.from hm
  have hty : h.from.1 = h.src.ty := rfl
  cases hr : h.src.ty with
  | faucet =>
    rw [expected_faucet _ _ _ _ (by rw [hty, hr])] at he
    simp only [Hop.stream, hr, Option.some.injEq] at hs'
    subst hs'
    obtain ⟨o, ho⟩ := A.hasFrom ⟨h, hh, rfl⟩
    rw [plain_faucet he, ho] at hk
    exact ⟨_, by simp only [Waiter.net, Hop.writer, hr, Waiter.node, hk, Comp.node]; rfl, rfl⟩
  | launch =>
    rw [expected_launch _ _ _ _ (by rw [hty, hr])] at he
    have hsrc : ∀ p, h.src.port = p → h.src = ⟨.launch, h.from.2, p⟩ := by
      rintro p rfl; show h.src = ⟨.launch, h.src.name, h.src.port⟩; rw [← hr]
    cases hp : h.src.port with
    | exit => simp [Hop.stream, hr, hp] at hs'
    | out =>
      obtain ⟨o, ho⟩ := A.hasPort ⟨h, hh, hsrc _ hp⟩
      rw [plain_launch he, ho] at hk
      simp only [Hop.stream, hr, hp, Option.some.injEq] at hs'
      subst hs'
      exact ⟨_, by simp only [Waiter.net, Hop.writer, hr, hp, Waiter.node, hk, Comp.node, LaunchEnds.pipe, fromStream, relayNode]; rfl, rfl⟩
    | err =>
      obtain ⟨o, ho⟩ := A.hasPort ⟨h, hh, hsrc _ hp⟩
      rw [plain_launch he, ho] at hk
      simp only [Hop.stream, hr, hp, Option.some.injEq] at hs'
      subst hs'
      exact ⟨_, by simp only [Waiter.net, Hop.writer, hr, hp, Waiter.node, hk, Comp.node, LaunchEnds.pipe, fromStream, relayNode]; rfl, rfl⟩
  | _ => simp [Hop.stream, hr] at hs'

theorem Assembled.readerStream (A : Assembled c hs w) {h : Hop} {i : Nat} (hi : hs[i]? = some h) (ht : h.dst.ty = .launch ∨ h.dst.ty = .drain) :
    ∃ n, w.net.node h.reader = some n ∧ n.sources = [.chan i] ∧ ∀ t ∈ n.targets, t = .handle (3 * w.idOf h.to) := by
  have hh := List.mem_of_getElem? hi
  have hm : Mentioned hs h.to := ⟨h, hh, Or.inr rfl⟩
  obtain ⟨k, hk, he⟩ := A.comps h.to hm
  have hty : h.to.1 = h.dst.ty := rfl
  obtain ⟨o, ho⟩ := A.hasTo ⟨h, hh, rfl⟩
  have only : ∀ {p x n}, h.reader = .part h.to p → w.net.node h.reader = some n → n.sources = [x] → n.sources = [.chan i] := by
    intro p x n hp hn hx
    have := (A.sources (r := h.to) (p := p) (n := n) (by rw [← hp]; exact hn) i).mpr (Or.inl ⟨h, hi, hp⟩)
    rw [hx, List.mem_singleton] at this
    rw [hx, this]
  rcases ht with hr | hr
  · rw [expected_launch _ _ _ _ (by rw [hty, hr])] at he
    rw [plain_launch he, ho] at hk
    have hn : w.net.node h.reader = some (.relay o.pull {} none (.io ⟨o.src, none, w.idOf h.to, .finish⟩ (3 * w.idOf h.to))) := by
      simp only [Waiter.net, Hop.reader, hr, Waiter.node, hk, Comp.node, LaunchEnds.pipe, LaunchEnds.toInput, relayNode, PullEnd.pull]; rfl
    refine ⟨_, hn, only (p := .input) (by simp [Hop.reader, hr]) hn (x := .chan o.chan) (by simp [Node.sources, pull_source]), ?_⟩
    simp [Node.targets, Push.target]
  · rw [expected_drain _ _ _ _ (by rw [hty, hr])] at he
    rw [plain_drain he, ho] at hk
    have hn : ∃ dest, w.net.node h.reader = some (.relay o.pull {} none (drainPush dest o (3 * w.idOf h.to))) :=
      ⟨_, by simp only [Waiter.net, Hop.reader, hr, Waiter.node, hk, Comp.node]; rfl⟩
    obtain ⟨dest, hn⟩ := hn
    refine ⟨_, hn, only (p := .main) (by simp [Hop.reader, hr]) hn (x := .chan o.chan) (by simp [Node.sources, pull_source]), ?_⟩
    intro t
    unfold drainPush
    split <;> simp [Node.targets, Push.target]

/-- **C65**, at every moment: what a hop from a port of a program, or from a faucet, has delivered is an initial segment of what was read from the stream of that port. -/
theorem C65_streams (hc : c.connection = hopSets R) (hw : getWaiter c = .ok w) (hp : w.regulatorSettings order = .ok (cs, w')) (hC : Complete (R.map (·.2)))
    (hr : w'.Run cs cap τ) {i : Nat} {h : Hop} (hi : (R.map (·.2))[i]? = some h) {s : Nat} (hs : h.stream w'.idOf = some s) :
    receivedFrom (.chan i) (proj h.reader τ) <+: receivedFrom (.handle s) (proj h.writer τ) := by
  have A := assembled hc hw hp
  obtain ⟨e, u⟩ := A.run hC hr
  obtain ⟨n, hn, hs'⟩ := A.writerStream (List.mem_of_getElem? hi) hs
  have hx : ¬ h.isExit := by
    rintro ⟨h1, h2⟩
    simp [Hop.stream, h1, h2] at hs
  rw [receivedFrom_only (tr := proj h.writer τ) fun s' d hd => by
    have := (w'.net.conduct (A.wired hC) e hn).got s' d hd
    rw [hs'] at this; simpa using this]
  exact C65_hop hc hw hp hC hr hi hx

/-- **C65**, at every moment: whatever the input part of a launch, or a drain, writes goes to the input of its program, or to what it opened, and what it has written is an initial segment of what it got
by the hop that enters it. -/
theorem C65_written (hc : c.connection = hopSets R) (hw : getWaiter c = .ok w) (hp : w.regulatorSettings order = .ok (cs, w')) (hC : Complete (R.map (·.2)))
    (hr : w'.Run cs cap τ) {i : Nat} {h : Hop} (hi : (R.map (·.2))[i]? = some h) (ht : h.dst.ty = .launch ∨ h.dst.ty = .drain) :
    (∀ o ∈ offers (proj h.reader τ), o.to = .handle (3 * w'.idOf h.to)) ∧
    offeredTo (.handle (3 * w'.idOf h.to)) (proj h.reader τ) <+: receivedFrom (.chan i) (proj h.reader τ) := by
  have A := assembled hc hw hp
  obtain ⟨e, u⟩ := A.run hC hr
  obtain ⟨n, hn, hs', ht'⟩ := A.readerStream hi ht
  have Q := w'.net.conduct (A.wired hC) e hn
  refine ⟨fun o ho => ht' _ (Q.to o ho), ?_⟩
  rw [receivedFrom_only (tr := proj h.reader τ) fun s' d hd => by
    have := Q.got s' d hd
    rw [hs'] at this; simpa using this]
  by_cases hm : .handle (3 * w'.idOf h.to) ∈ n.targets
  · exact (Q.copies _ hm).1
  · have : offeredTo (.handle (3 * w'.idOf h.to)) (proj h.reader τ) = [] := by
      unfold offeredTo
      rw [List.filterMap_eq_nil_iff]
      intro o ho
      have := Q.to o ho
      have hne : o.to ≠ .handle (3 * w'.idOf h.to) := fun hx => hm (by rw [← hx]; exact this)
      simp [hne]
    rw [this]
    exact List.nil_prefix

/-! ## An example: that of C65 -/

example : receivedFrom (.chan 3) (proj (.part (.drain, "tub".toList) .main) millTrace) <+: receivedFrom (.handle 10) (proj (.part (.launch, "wheel".toList) .output) millTrace) :=
  C65_streams rfl mill_built mill_prepared mill_complete mill_runs (i := 3)
    (h := ⟨⟨.launch, "wheel".toList, .out⟩, none, ⟨.drain, "tub".toList⟩, ⟨.terminate, 0⟩, none⟩) (by decide +kernel) (by decide +kernel)

example : offeredTo (.handle 9) (proj (.part (.launch, "wheel".toList) .input) millTrace) <+: receivedFrom (.chan 2) (proj (.part (.launch, "wheel".toList) .input) millTrace) :=
  (C65_written rfl mill_built mill_prepared mill_complete mill_runs (i := 2)
    (h := ⟨⟨.buffer, "tank".toList, .out⟩, none, ⟨.launch, "wheel".toList⟩, ⟨.terminate, 0⟩, none⟩) (by decide +kernel) (Or.inl rfl)).2

example : offeredTo (.handle 9) (proj (.part (.launch, "wheel".toList) .input) millTrace) = [[1, 10], [2, 10], [3, 10]] := by decide +kernel

end
end Verif
