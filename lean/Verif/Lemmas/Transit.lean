import Verif.Spec.Transit
import Verif.Props.RuntimeStreams
import Verif.Props.RuntimeEnds
import Verif.Model.Joined
/-!
# What is on its way along hops
-/
namespace Verif

theorem realCaps_hop {hs : List Hop} {ch : Nat} {h : Hop} (hi : hs[ch]? = some h) : realCaps hs .data ch = some h.room := by
  simp [realCaps, hi, Hop.room]

theorem accepted_offered (t : End) (tr : List Ev) : (acceptedBy t tr).length ≤ (offeredTo t tr).length := by
  unfold acceptedBy offeredTo
  induction offers tr with
  | nil => simp
  | cons o l ih =>
    simp only [List.filterMap_cons]
    by_cases h1 : o.to = t
    · by_cases h2 : o.w = .ok <;> simp [h1, h2] <;> omega
    · simpa [h1] using ih

theorem receivedFrom_received (s : End) (tr : List Ev) : (receivedFrom s tr).length ≤ (received tr).length := by
  unfold receivedFrom received
  induction acts tr with
  | nil => simp
  | cons o l ih =>
    simp only [List.filterMap_cons]
    cases o <;> simp only <;> try exact ih
    split <;> simp <;> omega

section
variable {c : Config} {hs : List Hop} {w : Waiter} {cs : List Capture} {cap : Caps} {τ : List (Who × Ev)}

theorem Assembled.hopFacts (A : Assembled c hs w) (hC : Complete hs) (hr : w.Run cs cap τ) {i : Nat} {h : Hop} (hi : hs[i]? = some h) : EdgeFacts τ h.writer i h.reader := by
  by_cases hx : h.isExit
  · exact (A.exitFacts hC hr hi hx).1
  · obtain ⟨e, u⟩ := A.run hC hr
    exact w.net.facts (A.wired hC) e u ((A.edges hC _ _ _).mpr (Or.inl ⟨h, hi, hx, rfl, rfl⟩))

/-- What was put into a hop's channel has been taken out or is in it. -/
theorem Assembled.hopHolds (A : Assembled c hs w) (hC : Complete hs) (hr : w.Run cs (realCaps hs) τ) {i : Nat} {h : Hop} (hi : hs[i]? = some h) :
    (receivedFrom (.chan i) (proj h.reader τ)).length ≤ (acceptedBy (.chan i) (proj h.writer τ)).length ∧
    (acceptedBy (.chan i) (proj h.writer τ)).length ≤ (receivedFrom (.chan i) (proj h.reader τ)).length + h.room := by
  have F := A.hopFacts hC hr hi
  obtain ⟨st, hst⟩ := Option.isSome_iff_exists.mp hr.exec.chans
  have h1 := fifo hst .data i
  have h2 := room_le hst .data i (realCaps_hop hi) (by simp [Store.init])
  rw [sentOn_proj F.sent, gotOn_proj F.got, sentOn_data, gotOn_data] at h1
  have h3 := congrArg List.length h1
  simp [Store.init] at h3
  omega

/-- A regulator or junction has at most one message in its hands. -/
theorem Assembled.between (A : Assembled c hs w) (hC : Complete hs) (hr : w.Run cs cap τ) {a b : Nat} {g h : Hop} (ha : hs[a]? = some g) (hb : hs[b]? = some h) (hgh : g.to = h.from)
    (hv : g.to.1 ∈ [ComponentType.regulator, .junction]) : g.reader = h.writer ∧ ∃ n, w.node h.writer = some n ∧ Conduct n.sources n.targets (proj h.writer τ) ∧
      .chan a ∈ n.sources ∧ .chan b ∈ n.targets := by
  have hw : g.reader = h.writer := by
    have h1 : g.dst.ty = h.src.ty := congrArg Prod.fst hgh
    have h2 : g.to.1 = .regulator ∨ g.to.1 = .junction := by simpa using hv
    have h2 : g.dst.ty = .regulator ∨ g.dst.ty = .junction := h2
    unfold Hop.reader Hop.writer
    rw [← h1, hgh]
    rcases h2 with h2 | h2 <;> simp [h2]
  have hx : ¬ h.isExit := by
    rintro ⟨h1, _⟩
    have h1 : g.to.1 = .launch := by rw [hgh]; exact h1
    rw [h1] at hv; simp at hv
  obtain ⟨e, u⟩ := A.run hC hr
  obtain ⟨n, hn⟩ := A.toRigged.writerNode hC (List.mem_of_getElem? hb) hx
  refine ⟨hw, n, hn, w.net.conduct (A.wired hC) e hn, (A.sources (r := g.to) (by rw [← hw] at hn; exact hn) a).mpr (Or.inl ⟨g, ha, rfl⟩),
    (A.targets (r := h.from) hn b).mpr (Or.inl ⟨h, hb, rfl⟩)⟩

/-- A regulator reads from one hop only. -/
theorem Assembled.regulatorSource (A : Assembled c hs w) (hC : Complete hs) {a : Nat} {g : Hop} (ha : hs[a]? = some g) (hv : g.to.1 = .regulator) {n : Node}
    (hn : w.node g.reader = some n) : n.sources = [.chan a] := by
  have hs' : .chan a ∈ n.sources := (A.sources (r := g.to) hn a).mpr (Or.inl ⟨g, ha, rfl⟩)
  obtain ⟨i, o, m, hk⟩ := A.toRigged.regulatorNode hC hv ⟨g, List.mem_of_getElem? ha, Or.inr rfl⟩
  have hd : g.dst.ty = .regulator := hv
  simp only [Hop.reader, hd, Waiter.node, hk, Comp.node] at hn
  cases hn
  simp only [Node.sources, pull_source, Option.toList_some, List.mem_singleton] at hs' ⊢
  rw [hs']

theorem Waiter.Run.initial {τ₁ τ₂ : List (Who × Ev)} (h : w.Run cs cap (τ₁ ++ τ₂)) : w.Run cs cap τ₁ := by
  have := h.take τ₁.length
  rwa [List.take_left] at this

theorem Along.first {via : List ComponentType} {l : List Nat} {n : Nat} (h : Along hs via l n) : ∃ a g, l.head? = some a ∧ hs[a]? = some g := by
  cases h with
  | hop h => exact ⟨_, _, rfl, h⟩
  | next h => exact ⟨_, _, rfl, h⟩

end
end Verif
