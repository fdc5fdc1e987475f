import Verif.Lemmas.WorldEnds
import Verif.Lemmas.WorldDoze
/-!
# Why a fair schedule comes to rest
-/
namespace Verif
section
variable {c : Config} {hs : List Hop} {w : Waiter} {cs : List Capture} {cap : Caps} {room : Nat} {prog : Str → Program} {σ : Nat → Option Happening}

theorem idle_first {g : Nat → Ev} (h : ∀ j, (act (g j)).idles = true) (tr : List Ev) (k : Nat) (t : End) :
    received (tr ++ first g k) = received tr ∧ offeredTo t (tr ++ first g k) = offeredTo t tr := by
  induction k with
  | zero => simp
  | succ k ih =>
    rw [first_succ, ← List.append_assoc, ← ih.1, ← ih.2]
    have := h k
    constructor
    · cases ha : act (g k) <;> simp [ha, Act.idles] at this <;> simp [received, acts, ha]
    · cases ha : act (g k) <;> simp [ha, Act.idles] at this <;> simp [offeredTo, offers, acts, ha]

/-- Who goes on for ever without getting anything forward is at rest and has nothing in hand. -/
theorem Rigged.dozing (A : Rigged c hs w) (hC : Complete hs) (T : Attended cs w) {st : Store} {τ : List (Who × Ev)} (hst : execAll cap Store.init (τ.map Prod.snd) = some st)
    (hj : ∀ i inputs pushs spy, w.node i = some (.junction inputs pushs spy) → ∀ f ∈ acts (proj i τ), f.fails = false) {i : Who} {t : Task} (ht : w.sys cs i = some t)
    {g : Nat → Ev} (h1 : ∀ k, t.Partial (proj i τ ++ first g k)) (h2 : ∀ j, w.moves i (g j) = false ∧ Verif.exec cap st (g j) = some st) : w.Dozes cs st τ i := by
  refine ⟨A.resting hC T hst (fun i inputs pushs spy hn f hf => not_ruins (hj i inputs pushs spy hn f hf)) ht h1 h2, fun nd hn t' ht' => ?_⟩
  have W := A.wired hC
  have e := sys_node (cs := cs) hn
  rw [ht] at e; cases e
  have hok : nd.Ok := W.ok i nd hn
  cases nd with
  | junction inputs pushs spy =>
    have hid : ∀ j, (act (g j)).idles = true := fun j => by simpa [Waiter.moves, hn] using (h2 j).1
    obtain ⟨⟨s, hs', he⟩, J⟩ := junction_rest hok h1 hid
    obtain ⟨y, hy, hys⟩ := List.mem_filterMap.mp hs'
    obtain ⟨jj, c', hp''⟩ := hok.2.1 y hy
    rw [hp''] at hys; cases hys
    obtain ⟨j, hgj⟩ := J c' hs' he
    have hp := h1 (j + 1)
    rw [first_succ, ← List.append_assoc, hgj] at hp
    rcases hp.last with hq | ⟨_, _, t2, _, _, hd⟩
    · have := waiting_passed (q := .tryRecv .data c') (r := .got []) hok (h1 j) hq rfl ht'
      rw [(idle_first hid _ j t').1, (idle_first hid _ j t').2] at this
      rw [← this]
      refine acceptedBy_all fun o hom => ?_
      have := hj i inputs pushs spy hn (.offer o.to o.d o.w) (mem_offers.mp hom)
      obtain ⟨_, _, wo⟩ := o
      cases wo <;> simp [Act.fails] at this ⊢
    · exfalso
      have : (⟨.tryRecv .data c', .empty⟩ : Ev) ∈ dropEvs (Node.junction inputs pushs spy).task.drops := hd.subset (by simp)
      simp [dropEvs] at this
  | _ =>
    have := (h2 0).1
    simp [Waiter.moves, hn] at this

/-- How often anybody gets anything forward is limited if what programs are given is. -/
theorem Rigged.limitedMoves (A : Rigged c hs w) (M : Attended cs w) (hC : Complete hs) (hcf : CircleFree hs) (hlh : ∀ a ∈ cs, a.low < a.high)
    (runs : ∀ n, w.WorldRun cs cap room prog (soFar σ n)) (hp : ∀ x, w.comps.get (.launch, x) ≠ none → (prog x).Finite)
    (hB : ∀ x nd h, w.node (.part (.faucet, x) .main) = some nd → .handle h ∈ nd.sources → ∃ B, ∀ n, (receivedFrom (.handle h) (proj (.part (.faucet, x) .main) (coreOf (soFar σ n)))).length ≤ B)
    (hin : ∀ x, w.comps.get (.launch, x) ≠ none → ∃ K, ∀ n, (received (proj (.part (.launch, x) .input) (coreOf (soFar σ n)))).length ≤ K) (i : Who) :
    ∃ K, ∀ n, (proj i (upTo (coreAt σ) n)).countP (w.moves i) ≤ K := by
  have W := A.wired hC
  obtain ⟨K, hK⟩ := together (l := w.everyone cs) (P := fun i K => ∀ nd, w.node i = some nd → ∀ h n, (receivedFrom (.handle h) (proj i (coreOf (soFar σ n)))).length ≤ K) (by
    intro i _
    cases hn : w.node i with
    | none => exact ⟨0, fun _ _ nd h => by cases h⟩
    | some nd =>
      obtain ⟨K, hK⟩ := together (l := nd.sources) (P := fun s K => ∀ h, s = .handle h → ∀ n, (receivedFrom (.handle h) (proj i (coreOf (soFar σ n)))).length ≤ K) (by
        intro s hs'
        cases s with
        | chan ch => exact ⟨0, fun _ _ h e => by cases e⟩
        | handle h =>
          rcases A.handles hn hs' with ⟨x, rfl⟩ | ⟨x, p, rfl⟩
          · obtain ⟨B, hB⟩ := hB x nd h hn hs'
            exact ⟨B, fun m hm _ e n => by cases e; exact Nat.le_trans (hB n) hm⟩
          · have hx : w.comps.get (.launch, x) ≠ none := by intro h; simp [Waiter.node, h] at hn
            obtain ⟨M, hM⟩ := hin x hx
            obtain ⟨_, N, hN⟩ := A.historyBound hC runs (hp x hx) hM
            refine ⟨(putOut p (historyOf x (soFar σ N))).length, fun m hm _ e n => ?_⟩
            cases e
            obtain ⟨j, j', ch, rfl⟩ := A.portNode hn
            have hh : h = w.portOf x p := by simpa [Node.sources, Pull.source] using hs'
            subst hh
            obtain ⟨chunks, h1, h2, h3⟩ := (runs n).portReads x p
            have h4 := (h3.lines h1).1.length_le
            have h5 := specLines_few chunks.flatten
            have h6 := (putOut_prefix (p := p) (hN n)).length_le
            rw [h2] at h4 h5
            omega)
      refine ⟨K, fun m hm nd' e h n => ?_⟩
      cases e
      by_cases hh : .handle h ∈ nd.sources
      · exact hK m hm _ hh h rfl n
      · obtain ⟨E, U⟩ := A.run hC (runs n).core
        have : receivedFrom (.handle h) (proj i (coreOf (soFar σ n))) = [] := by
          rw [List.eq_nil_iff_forall_not_mem]
          intro d hd
          obtain ⟨a, ha, hb⟩ := List.mem_filterMap.mp hd
          cases a <;> simp at hb
          obtain ⟨rfl, rfl⟩ := hb
          exact hh ((w.net.conduct W E hn).got _ _ ha)
        rw [this]; simp)
  obtain ⟨L, hL⟩ := A.bounded_by (cap := cap) M hC hcf hlh (max K 3) i
  refine ⟨L, fun n => ?_⟩
  rw [← coreOf_soFar]
  refine hL _ (runs n).core ⟨fun i nd h hn => ?_, fun r => ?_⟩
  · exact Nat.le_trans (hK K (Nat.le_refl _) i (sys_everyone (by rw [sys_node hn]; simp)) nd hn h n) (Nat.le_max_left _ _)
  · exact Nat.le_trans (A.asked hC (runs n) r) (Nat.le_max_right _ _)

/-- From some time on neither programs nor pipes do anything, if what programs are given is limited. -/
theorem Rigged.limitedQuiet (A : Rigged c hs w) (hC : Complete hs) (runs : ∀ n, w.WorldRun cs cap room prog (soFar σ n)) (hp : ∀ x, w.comps.get (.launch, x) ≠ none → (prog x).Finite)
    (hin : ∀ x, w.comps.get (.launch, x) ≠ none → ∃ K, ∀ n, (received (proj (.part (.launch, x) .input) (coreOf (soFar σ n)))).length ≤ K) : ∃ n, ∀ m, n ≤ m → ∀ a, σ m = some a → a.IsCore := by
  obtain ⟨n, hn⟩ := together (l := w.comps.map fun k => k.1.2) (P := fun x m => ∀ a, σ m = some a → a.launch ≠ some x) (by
    intro x _
    by_cases hx : w.comps.get (.launch, x) = none
    · exact ⟨0, fun m _ a ha hl => A.launches hC (scheduled runs ha) hl hx⟩
    obtain ⟨K, hK⟩ := hin x hx
    obtain ⟨⟨F, hF⟩, N, hN⟩ := A.historyBound hC runs (hp x hx) hK
    have hb : ∀ n, doneAt σ x n ≤ F + (historyOf x (soFar σ N)).length + (putOut .out (historyOf x (soFar σ N))).length + (putOut .err (historyOf x (soFar σ N))).length := by
      intro n
      have h1 := hF n
      have h2 := (hN n).length_le
      have h3 := ((runs n).drawn x .out).length_le
      have h4 := ((runs n).drawn x .err).length_le
      have h5 := (putOut_prefix (p := .out) (hN n)).length_le
      have h6 := (putOut_prefix (p := .err) (hN n)).length_le
      unfold doneAt
      omega
    obtain ⟨n, hn⟩ := settles (fun n => (doneAt_step runs x n).1) hb
    refine ⟨n, fun m hm a ha hx => ?_⟩
    have h1 := (doneAt_step runs x m).2 a ha hx
    have h2 := hn m hm
    have h3 := hn (m + 1) (by omega)
    omega)
  refine ⟨n, fun m hm a ha => ?_⟩
  cases hx : a.launch with
  | none => cases a <;> first | exact ⟨_, _, rfl⟩ | cases hx
  | some x =>
    obtain ⟨k, hk⟩ := Option.ne_none_iff_exists'.mp (A.launches hC (scheduled runs ha) hx)
    exact absurd hx (hn m hm x (List.mem_map.mpr ⟨_, Table.get_mem hk, rfl⟩) a ha)

/-- A fair schedule comes to rest, if what programs are given is limited. -/
theorem Rigged.worldRests (A : Rigged c hs w) (M : Attended cs w) (hC : Complete hs) (hcf : CircleFree hs) (hlh : ∀ a ∈ cs, a.low < a.high)
    (F : w.FairWorld cs cap room prog σ) (hp : ∀ x, w.comps.get (.launch, x) ≠ none → (prog x).Finite)
    (hB : ∀ x nd h, w.node (.part (.faucet, x) .main) = some nd → .handle h ∈ nd.sources → ∃ B, ∀ n, (receivedFrom (.handle h) (proj (.part (.faucet, x) .main) (coreOf (soFar σ n)))).length ≤ B)
    (hin : ∀ x, w.comps.get (.launch, x) ≠ none → ∃ K, ∀ n, (received (proj (.part (.launch, x) .input) (coreOf (soFar σ n)))).length ≤ K)
    (hj : ∀ n i inputs pushs spy, w.node i = some (.junction inputs pushs spy) → ∀ f ∈ acts (proj i (coreOf (soFar σ n))), f.fails = false) :
    ∃ N, ∀ n, N ≤ n → ∃ st, execAll cap Store.init ((coreOf (soFar σ n)).map Prod.snd) = some st ∧ ¬ w.Stirs cs cap room prog st (soFar σ n) := by
  have runs := F.runs
  have cruns : ∀ n, w.Run cs cap (upTo (coreAt σ) n) := fun n => by rw [← coreOf_soFar]; exact (runs n).core
  obtain ⟨n1, h1⟩ := Waiter.calmed cruns (A.limitedMoves M hC hcf hlh runs hp hB hin)
  obtain ⟨n2, h2⟩ := A.limitedQuiet hC runs hp hin
  refine ⟨max n1 n2, fun n hle => ?_⟩
  obtain ⟨st, C⟩ := h1 n (by omega)
  have quiet : ∀ m, n ≤ m → ∀ a, σ m = some a → a.IsCore := fun m hm => h2 m (by omega)
  have hst := C.quiet n (Nat.le_refl _)
  refine ⟨st, by rw [coreOf_soFar]; exact hst, fun hl => ?_⟩
  have relay : ∀ x p, p ∈ relayPieces → ∀ m, n ≤ m → proj (.part (.launch, x) p) (upTo (coreAt σ) m) = proj (.part (.launch, x) p) (upTo (coreAt σ) n) := by
    intro x p hp m hm
    cases ht : w.sys cs (.part (.launch, x) p) with
    | none => rw [(cruns m).silent ht, (cruns n).silent ht]
    | some t =>
      rcases C.each _ t ht with h | ⟨g, _, hg⟩
      · exact h.1 m hm
      · obtain ⟨nd, hn, _⟩ := A.launchNode hC hp ht
        have := (hg 0).1
        have hmove : ∀ e, w.moves (.part (.launch, x) p) e = true := by
          simp only [relayPieces, List.mem_cons, List.not_mem_nil, or_false] at hp
          rcases hp with rfl | rfl | rfl
          · obtain ⟨_, _, _, rfl⟩ := A.inputNode hn
            intro e; simp [Waiter.moves, hn]
          · obtain ⟨_, _, _, rfl⟩ := A.portNode (p := .out) hn
            intro e; simp [Waiter.moves, hn]
          · obtain ⟨_, _, _, rfl⟩ := A.portNode (p := .err) hn
            intro e; simp [Waiter.moves, hn]
        rw [hmove] at this; cases this
  have same : ∀ m, n ≤ m → Same w cs (soFar σ n) (soFar σ m) := by
    intro m hm
    obtain ⟨u, hu, hu2⟩ := soFar_le (σ := σ) hm
    obtain ⟨g1, g2, g3⟩ := cores (u := u) fun a ha => by obtain ⟨k, hk, hk2⟩ := hu2 a ha; exact quiet k hk a hk2
    refine ⟨fun x => ?_, fun x => ?_, fun x p => ?_, fun x p hp => ?_⟩
    · rw [hu, historyOf_append, g1, List.append_nil]
    · rw [hu, fedTo_append, g2, List.append_nil]
    · rw [hu, drawnFrom_append, g3, List.append_nil]
    · rw [coreOf_soFar, coreOf_soFar]; exact relay x p hp m hm
  obtain ⟨a, ha, hrest⟩ := hl
  have outside : ∀ g, (∀ m, n ≤ m → ∃ b, b.agent = g ∧ w.Next cs cap room prog (soFar σ m) b) → ∃ i, g = .core i := by
    intro g hg
    obtain ⟨m, b, hm, hb, rfl⟩ := F.fair g n hg
    obtain ⟨i, e, rfl⟩ := quiet m hm b hb
    exact ⟨i, rfl⟩
  cases ha with
  | @core i e hr hans =>
    have hx : w.sys cs i ≠ none := hr.known (i, e) (by simp)
    obtain ⟨t, ht⟩ := Option.ne_none_iff_exists'.mp hx
    have hcr := coreOf_soFar (σ := σ) n
    rcases C.each i t ht with ⟨hsame, never⟩ | ⟨g, g1, g2⟩
    · obtain ⟨m, b, hm, hb, hbi⟩ := F.fair (.core i) n (by
        intro m hm
        refine ⟨.core i e, rfl, .core ?_ ((same m hm).answered hans)⟩
        have h1 := hr.exec.chans
        rw [List.map_append, execAll_append, hcr, hst] at h1
        obtain ⟨st', hs'⟩ := Option.isSome_iff_exists.mp h1
        have h2 : Verif.exec cap st e = some st' := by
          simp [execAll] at hs'
          split at hs'
          · cases hs'
          · next h => rw [h, hs']
        have h3 := hr.exec.tasks i t ht
        rw [proj_append, show proj i [(i, e)] = [e] by simp [proj], hcr, ← hsame m hm] at h3
        rw [coreOf_soFar]
        refine (cruns m).step (C.quiet m hm) ht h3 h2 ?_
        rintro r rfl p hp' t' ht'
        have h4 := hr.exits (coreOf (soFar σ n)) [] r e rfl p hp' t' ht'
        rw [hcr] at h4
        rw [done_later cruns ht' h4 hm]; exact h4)
      obtain ⟨j, e', rfl⟩ := quiet m hm b hb
      cases hbi
      exact never m hm e' (by simp [coreAt, hb])
    · refine hrest i e rfl ?_
      rw [hcr]
      exact A.dozing hC M hst (by rw [← hcr]; exact hj n) ht g1 g2
  | @feed x d m t k h3 h4 h5 h6 h7 h8 =>
    obtain ⟨i, hi⟩ := outside (.feed x) (by
      intro m hm
      have S := same m hm
      exact ⟨.feed x d, rfl, .feed h3 (by rw [S.relay _ _ (by simp [relayPieces])]; exact h4) (by rw [S.begun]; exact h5) h6 (by rw [S.history]; exact h7) (by rw [S.inPipe]; exact h8)⟩)
    cases hi
  | @draw x p d t k h3 h4 h5 h6 =>
    obtain ⟨i, hi⟩ := outside (.draw x p) (by
      intro m hm
      have S := same m hm
      exact ⟨.draw x p d, rfl, .draw h3 (by rw [S.relay _ _ p.relays]; exact h4) (by rw [S.outPipe]; exact h5) h6⟩)
    cases hi
  | @prog x e h3 h4 h5 h6 =>
    obtain ⟨i, hi⟩ := outside (.prog x) (by
      intro m hm
      have S := same m hm
      exact ⟨.prog x e, rfl, .prog h3 (by rw [S.history]; exact h4) (by rw [S.history]; exact h5) (S.serves h6)⟩)
    cases hi

end
end Verif
