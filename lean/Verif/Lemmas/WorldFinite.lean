import Verif.Spec.FairWorld
import Verif.Lemmas.WorldBytes
import Verif.Lemmas.Bounded
import Verif.Props.Bytes
/-!
# How much can happen if programs do not go on for ever by themselves
-/
namespace Verif

/-! ## What grows -/
section
variable {α : Type} {H : Nat → List α}

theorem chain_le (hm : ∀ n, H n <+: H (n + 1)) {n m : Nat} (h : n ≤ m) : H n <+: H m := by
  induction h with
  | refl => exact List.prefix_rfl
  | step _ ih => exact ih.trans (hm _)

/-- What grows but not beyond some length is complete at some time. -/
theorem chain_top (hm : ∀ n, H n <+: H (n + 1)) {K : Nat} (hb : ∀ n, (H n).length ≤ K) : ∃ N, ∀ m, H m <+: H N := by
  obtain ⟨N, hN⟩ := settles (f := fun n => (H n).length) (fun n => (hm n).length_le) hb
  refine ⟨N, fun m => ?_⟩
  by_cases h : m ≤ N
  · exact chain_le hm h
  · have h1 := chain_le hm (Nat.le_of_not_le h)
    rw [h1.eq_of_length (hN m (by omega)).symm]
    exact List.prefix_rfl

/-- What grows beyond all lengths is an infinite sequence. -/
theorem chain_endless (hm : ∀ n, H n <+: H (n + 1)) (hu : ∀ K, ∃ n, K < (H n).length) : ∃ ρ : Nat → α, ∀ k, ∃ n, (List.range k).map ρ <+: H n := by
  have hch : ∀ K, ∃ n, K < (H n).length := hu
  refine ⟨fun k => (H (Classical.choose (hch k)))[k]'(Classical.choose_spec (hch k)), fun k => ⟨Classical.choose (hch k), ?_⟩⟩
  have hk := Classical.choose_spec (hch k)
  generalize Classical.choose (hch k) = n at hk
  rw [List.prefix_iff_eq_take]
  apply List.ext_getElem
  · simp; omega
  intro j h1 h2
  simp only [List.length_map, List.length_range] at h1
  rw [List.getElem_map, List.getElem_range, List.getElem_take]
  have key : ∀ (n' : Nat) (hj : j < (H n').length), (H n')[j] = (H n)[j]'(by omega) := by
    intro n' hj
    rcases Nat.le_total n n' with h | h
    · exact ((chain_le hm h).getElem (by omega)).symm
    · exact (chain_le hm h).getElem hj
  exact key _ _

end

theorem Program.Lives.prefix {p : Program} {l : List PEv} (h : p.Lives l) : ∀ {a : List PEv}, a <+: l → p.Lives a := by
  induction h with
  | start => intro a ha; rw [List.prefix_nil.mp ha]; exact .start
  | @next l e h1 h2 h3 ih =>
    intro a ha
    rcases List.prefix_concat_iff.mp ha with rfl | ha
    · exact .next h1 h2 h3
    · exact ih ha

theorem takenIn_prefix {a b : List PEv} (h : a <+: b) : takenIn a <+: takenIn b := by
  obtain ⟨t, rfl⟩ := h
  rw [takenIn_append]; exact List.prefix_append _ _
theorem putOut_prefix {p : Port} {a b : List PEv} (h : a <+: b) : putOut p a <+: putOut p b := by
  obtain ⟨t, rfl⟩ := h
  rw [putOut_append]; exact List.prefix_append _ _

/-- A program that has read no more than so much has done no more than so much, whatever the course of events. -/
theorem Program.Finite.bounded {p : Program} (hp : p.Finite) {H : Nat → List PEv} (hm : ∀ n, H n <+: H (n + 1)) (hl : ∀ n, p.Lives (H n)) {N : Nat} (hN : ∀ n, (takenIn (H n)).length ≤ N) :
    ∃ K, ∀ n, (H n).length ≤ K := by
  refine Classical.byContradiction fun hno => ?_
  have hu : ∀ K, ∃ n, K < (H n).length := by
    intro K
    refine Classical.byContradiction fun h => hno ⟨K, fun n => Nat.le_of_not_lt fun h' => h ⟨n, h'⟩⟩
  obtain ⟨ρ, hρ⟩ := chain_endless hm hu
  obtain ⟨n, hn⟩ := hp ρ (fun k => by obtain ⟨n, h⟩ := hρ k; exact (hl n).prefix h) N
  obtain ⟨m, h⟩ := hρ n
  have := (takenIn_prefix h).length_le
  have := hN m
  omega

theorem specLines_few (bs : Bytes) : (specLines bs).length ≤ bs.length := by
  obtain ⟨h1, h2, h3⟩ := specLines_isLinesOf bs
  have hne : ∀ l ∈ specLines bs, l ≠ [] := by
    intro l hl
    rcases List.eq_nil_or_concat (specLines bs) with e | ⟨a, b, e⟩
    · rw [e] at hl; cases hl
    · rw [e, List.concat_eq_append] at hl h2 h3
      rw [List.dropLast_concat] at h2
      rcases List.mem_append.mp hl with hl | hl
      · obtain ⟨d, rfl, _⟩ := h2 l hl; simp
      · rw [List.mem_singleton] at hl
        subst hl
        rcases h3 l (by simp) with ⟨d, rfl, _⟩ | h
        · simp
        · exact h.1
  have : ∀ ls : List Bytes, (∀ l ∈ ls, l ≠ []) → ls.length ≤ ls.flatten.length := by
    intro ls
    induction ls with
    | nil => simp
    | cons l ls ih =>
      intro h
      have := ih fun x hx => h x (by simp [hx])
      have := List.length_pos_iff.mpr (h l (by simp))
      simp only [List.length_cons, List.flatten_cons, List.length_append]
      omega
  have := this _ hne
  rwa [h1] at this

/-! ## Schedules -/
section
variable {c : Config} {hs : List Hop} {w : Waiter} {cs : List Capture} {cap : Caps} {room : Nat} {prog : Str → Program} {σ : Nat → Option Happening}

/-- The steps of the activities in a schedule. -/
def coreAt (σ : Nat → Option Happening) (n : Nat) : Option (Who × Ev) :=
  match σ n with
  | some (.core i e) => some (i, e)
  | _ => none

theorem coreOf_soFar (n : Nat) : coreOf (soFar σ n) = upTo (coreAt σ) n := by
  induction n with
  | zero => rfl
  | succ n ih =>
    rw [soFar, coreOf_append, ih, upTo]
    congr 1
    unfold coreAt
    cases σ n with
    | none => rfl
    | some a => cases a <;> rfl

theorem soFar_le {n m : Nat} (h : n ≤ m) : ∃ u, soFar σ m = soFar σ n ++ u ∧ ∀ a ∈ u, ∃ k, n ≤ k ∧ σ k = some a := by
  induction h with
  | refl => exact ⟨[], by simp, by simp⟩
  | @step m hm ih =>
    obtain ⟨u, h1, h2⟩ := ih
    refine ⟨u ++ (σ m).toList, by rw [soFar, h1, List.append_assoc], fun a ha => ?_⟩
    rcases List.mem_append.mp ha with ha | ha
    · exact h2 a ha
    · exact ⟨m, hm, by simpa using ha⟩

theorem received_chain (i : Who) (n : Nat) : received (proj i (coreOf (soFar σ n))) <+: received (proj i (coreOf (soFar σ (n + 1)))) := by
  rw [soFar, coreOf_append, proj_append, received_append]
  exact List.prefix_append _ _
theorem history_chain (x : Str) (n : Nat) : historyOf x (soFar σ n) <+: historyOf x (soFar σ (n + 1)) := by
  rw [soFar, historyOf_append]
  exact List.prefix_append _ _

/-- What a program does is limited if what its relay receives is. -/
theorem Rigged.historyBound (A : Rigged c hs w) (hC : Complete hs) (runs : ∀ n, w.WorldRun cs cap room prog (soFar σ n)) {x : Str} (hp : (prog x).Finite) {M : Nat}
    (hM : ∀ n, (received (proj (.part (.launch, x) .input) (coreOf (soFar σ n)))).length ≤ M) : (∃ K, ∀ n, (fedTo x (soFar σ n)).length ≤ K) ∧ ∃ N, ∀ n, historyOf x (soFar σ n) <+: historyOf x (soFar σ N) := by
  obtain ⟨N, hN⟩ := chain_top (received_chain (σ := σ) _) hM
  have h1 : ∀ n, (fedTo x (soFar σ n)).length ≤ (received (proj (.part (.launch, x) .input) (coreOf (soFar σ N)))).flatten.length :=
    fun n => ((A.fedReceived hC (runs n) x).trans (flatten_prefix (hN n))).length_le
  obtain ⟨K, hK⟩ := hp.bounded (history_chain (σ := σ) x) (fun n => (runs n).lives x) (fun n => Nat.le_trans ((runs n).taken x).length_le (h1 n))
  exact ⟨⟨_, h1⟩, chain_top (history_chain x) hK⟩

/-- Streams are read from faucets and launches. -/
theorem Rigged.handles (A : Rigged c hs w) {i : Who} {n : Node} (hn : w.node i = some n) {h : Nat} (hh : .handle h ∈ n.sources) :
    (∃ x, i = .part (.faucet, x) .main) ∨ ∃ x p, i = .part (.launch, x) (Port.piece p) := by
  obtain ⟨⟨ty, x⟩, p, k, rfl, hm, hk, hpl, hkn⟩ := A.node_inv hn
  cases ty with
  | faucet =>
    left
    rw [expected_faucet _ _ _ _ rfl] at hpl
    rw [plain_faucet hpl] at hkn
    cases p <;> simp [Comp.node] at hkn
    exact ⟨x, rfl⟩
  | launch =>
    right
    rw [expected_launch _ _ _ _ rfl] at hpl
    rw [plain_launch hpl] at hkn
    cases p with
    | output => exact ⟨x, .out, rfl⟩
    | error => exact ⟨x, .err, rfl⟩
    | input =>
      obtain ⟨j, ch, j', rfl⟩ := A.inputNode hn
      simp [Node.sources, Pull.source] at hh
    | _ => simp [Comp.node] at hkn
  | drain =>
    exfalso
    rw [expected_drain _ _ _ _ rfl] at hpl
    rw [plain_drain hpl] at hkn
    generalize (pullEnds w.idOf hs.zipIdx fun h => h.to = (ComponentType.drain, x)).head?.map Prod.fst = o at hkn
    cases o <;> cases p <;> simp [Comp.node] at hkn
    subst hkn
    simp [Node.sources, pull_source] at hh
  | regulator =>
    exfalso
    rw [expected_regulator _ _ _ _ rfl] at hpl
    obtain ⟨m, rfl⟩ := plain_regulator hpl
    generalize (pullEnds w.idOf hs.zipIdx fun h => h.to = (ComponentType.regulator, x)).head?.map Prod.fst = o at hkn
    generalize (pushEnds w.idOf hs.zipIdx fun h => h.from = (ComponentType.regulator, x)).head? = o' at hkn
    cases o <;> cases o' <;> cases p <;> simp [Comp.node] at hkn
    subst hkn
    simp [Node.sources, pull_source] at hh
  | buffer =>
    exfalso
    rw [expected_buffer _ _ _ _ rfl] at hpl
    obtain ⟨m, rfl⟩ := plain_buffer hpl
    generalize (pullEnds w.idOf hs.zipIdx fun h => h.to = (ComponentType.buffer, x)).head?.map Prod.fst = o at hkn
    generalize (pushEnds w.idOf hs.zipIdx fun h => h.from = (ComponentType.buffer, x)).head? = o' at hkn
    cases o <;> cases o' <;> cases p <;> simp [Comp.node] at hkn
    · subst hkn
      simp [Node.sources, pull_source] at hh
    · subst hkn
      simp [Node.sources, Pull.source] at hh
  | junction =>
    exfalso
    rw [expected_junction _ _ _ _ rfl] at hpl
    rw [plain_junction hpl] at hkn
    cases p <;> simp [Comp.node] at hkn
    subst hkn
    simp [Node.sources, pull_source] at hh

end
end Verif
