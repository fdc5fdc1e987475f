import Verif.Lemmas.Script
import Verif.Props.Loop
/-!
# Property C56: a loop that fills up
-/
namespace Verif
namespace Ring

/-- Lines are read and given to a junction. -/
def faucet : Node := .regulator (.stream ⟨0, 1⟩ 0) (.sender ⟨0, some .out, 1, .terminate⟩ 0) none none

/-- The junction takes what is read, and what comes back, and gives it to a drain and once more into the loop. -/
def turn (n : Nat) (p : Int) : Node :=
  .junction [(.receiver ⟨0, 1⟩ 0, 0), (.receiver ⟨n + 1, 1⟩ (n + 1), p)]
    [.sender ⟨1, some .out, n + 2, .terminate⟩ (n + 2), .sender ⟨1, some .out, 2, .terminate⟩ 1] none

def relay (i : Nat) : Node := .relay (.receiver ⟨i - 1, i⟩ (i - 1)) {} none (.sender ⟨i, some .out, i + 1, .terminate⟩ i)

def drain (n : Nat) : Node := .relay (.receiver ⟨1, n + 2⟩ (n + 2)) {} none (.io ⟨n + 2, some .out, 0, .terminate⟩ 1)

/-- A loop of a junction and `n` relays; what comes back has priority `p` (the input has 0). -/
def net (n : Nat) (p : Int) : Network Nat where
  node i := if i = 0 then some faucet else if i = 1 then some (turn n p) else if i = n + 2 then some (drain n)
    else if i ≤ n + 1 then some (relay i) else none

section
variable {n : Nat} {p : Int}

theorem nodes {i m} (h : (net n p).node i = some m) :
    (i = 0 ∧ m = faucet) ∨ (i = 1 ∧ m = turn n p) ∨ (i = n + 2 ∧ m = drain n) ∨ (2 ≤ i ∧ i ≤ n + 1 ∧ m = relay i) := by
  simp only [net] at h
  by_cases h0 : i = 0
  · simp [h0] at h; exact Or.inl ⟨h0, h.symm⟩
  · by_cases h1 : i = 1
    · simp [h1] at h; exact Or.inr (Or.inl ⟨h1, h.symm⟩)
    · by_cases h2 : i = n + 2
      · simp [h2] at h; exact Or.inr (Or.inr (Or.inl ⟨h2, h.symm⟩))
      · simp [h0, h1, h2] at h
        exact Or.inr (Or.inr (Or.inr ⟨by omega, h.1, h.2.symm⟩))

theorem node0 : (net n p).node 0 = some faucet := by simp [net]
theorem node1 : (net n p).node 1 = some (turn n p) := by simp [net]
theorem nodeD : (net n p).node (n + 2) = some (drain n) := by simp [net]
theorem nodeR {i : Nat} (h1 : 2 ≤ i) (h2 : i ≤ n + 1) : (net n p).node i = some (relay i) := by
  simp [net, show i ≠ 0 by omega, show i ≠ 1 by omega, show i ≠ n + 2 by omega, h2]

theorem wired (hn : 1 ≤ n) : (net n p).Wired := by
  refine ⟨?_, ?_, ?_⟩
  · intro i m h
    rcases nodes h with ⟨rfl, rfl⟩ | ⟨rfl, rfl⟩ | ⟨rfl, rfl⟩ | ⟨h1, h2, rfl⟩ <;>
      simp [faucet, turn, relay, drain, Node.Ok, Node.sources, Node.targets, Pull.source, Push.target] <;> omega
  · intro i j m k c h1 h2
    rcases nodes h1 with ⟨rfl, rfl⟩ | ⟨rfl, rfl⟩ | ⟨rfl, rfl⟩ | ⟨_, _, rfl⟩ <;>
      rcases nodes h2 with ⟨rfl, rfl⟩ | ⟨rfl, rfl⟩ | ⟨rfl, rfl⟩ | ⟨_, _, rfl⟩ <;>
      simp [faucet, turn, relay, drain, Node.targets, Push.target] <;> omega
  · intro i j m k c h1 h2
    rcases nodes h1 with ⟨rfl, rfl⟩ | ⟨rfl, rfl⟩ | ⟨rfl, rfl⟩ | ⟨_, _, rfl⟩ <;>
      rcases nodes h2 with ⟨rfl, rfl⟩ | ⟨rfl, rfl⟩ | ⟨rfl, rfl⟩ | ⟨_, _, rfl⟩ <;>
      simp [faucet, turn, relay, drain, Node.sources, Pull.source] <;> omega

theorem edge0 : (net n p).Edge 0 0 1 :=
  ⟨_, _, node0, node1, by simp [faucet, Node.targets, Push.target], by simp [turn, Node.sources, Pull.source]⟩

theorem edgeR {i : Nat} (h1 : 1 ≤ i) (h2 : i ≤ n) : (net n p).Edge i i (i + 1) := by
  by_cases h : i = 1
  · subst h
    exact ⟨_, _, node1, nodeR (by omega) (by omega), by simp [turn, Node.targets, Push.target], by simp [relay, Node.sources, Pull.source]⟩
  · exact ⟨_, _, nodeR (by omega) (by omega), nodeR (by omega) (by omega), by simp [relay, Node.targets, Push.target], by simp [relay, Node.sources, Pull.source]⟩

theorem edgeL (hn : 1 ≤ n) : (net n p).Edge (n + 1) (n + 1) 1 :=
  ⟨_, _, nodeR (by omega) (by omega), node1, by simp [relay, Node.targets, Push.target], by simp [turn, Node.sources, Pull.source]⟩

theorem edgeD : (net n p).Edge 1 (n + 2) (n + 2) :=
  ⟨_, _, node1, nodeD, by simp [turn, Node.targets, Push.target], by simp [drain, Node.sources, Pull.source]⟩

/-- Only components act, and only reading and writing of messages happens; only the loop is ever found empty. -/
structure Flow (n : Nat) (p : Int) (C : Nat) (τ : List (Nat × Ev)) : Prop where
  exec : Execution (fun _ _ => some C) (net n p).sys τ
  own : ∀ x ∈ τ, ((net n p).node x.1).isSome = true
  fine : ∀ x ∈ τ, Fine (n + 1) x.2

theorem Fine.act {l : Nat} {e : Ev} (h : Fine l e) : (Verif.act e).fails = false ∧ (∀ k c, Verif.act e ≠ .close k c) := by
  unfold Fine at h
  split at h <;> first | exact absurd h id | skip
  all_goals (next heq => rw [heq]; simp [Act.fails])

variable {C : Nat} {τ : List (Nat × Ev)}

theorem Flow.projs (h : Flow n p C τ) (i : Nat) : ∀ e ∈ proj i τ, Fine (n + 1) e := fun e he => h.fine _ (mem_proj.mp he)

theorem Flow.undisturbed (h : Flow n p C τ) : (net n p).Undisturbed τ := by
  intro x hx hn
  have := h.own x hx
  rw [hn] at this; simp at this

theorem Flow.quiet (h : Flow n p C τ) : ∀ j m f, (net n p).node j = some m → f ∈ acts (proj j τ) → ¬ (net n p).Outside j f := by
  intro j m f _ hf ho
  obtain ⟨e, he, rfl⟩ := List.mem_map.mp hf
  have := (Fine.act (h.projs j e he)).1
  rw [ho.1] at this; simp at this

theorem Flow.opened (h : Flow n p C τ) {st : Store} (hst : execAll (fun _ _ => some C) Store.init (τ.map Prod.snd) = some st) (c : Nat) :
    (st .data c).closed = false := by
  cases hc : (st .data c).closed with
  | false => rfl
  | true =>
    exfalso
    rw [closed_iff hst] at hc
    rcases hc with hc | ⟨e, he, hc⟩
    · simp [Store.init] at hc
    · obtain ⟨x, hx, rfl⟩ := List.mem_map.mp he
      have h1 := closedIn_closings.mp ⟨x.2, mem_proj.mpr hx, hc⟩
      rw [mem_closings] at h1
      obtain ⟨e, he, ha⟩ := List.mem_map.mp h1
      exact (Fine.act (h.projs _ e he)).2 _ _ ha

theorem Flow.part (h : Flow n p C τ) {i m} (hm : (net n p).node i = some m) : m.task.Partial (proj i τ) :=
  h.exec.tasks i m.task (by simp [Network.sys, hm])

/-! ### How much there can be -/

theorem Flow.edge (hn : 1 ≤ n) (h : Flow n p C τ) {a c b} (he : (net n p).Edge a c b) :
    (received (proj a τ)).length ≤ (receivedFrom (.chan c) (proj b τ)).length + (C + 1) ∧
    (receivedFrom (.chan c) (proj b τ)).length ≤ (received (proj a τ)).length := by
  obtain ⟨st, hst⟩ := Option.isSome_iff_exists.mp h.exec.chans
  obtain ⟨held, h1, h2⟩ := C55_conserved (wired hn) h.exec h.undisturbed h.quiet he hst
  have h3 := room_le hst .data c rfl (by simp [Store.init])
  rw [h2]
  simp only [List.length_append]
  omega

theorem Flow.relayed (hn : 1 ≤ n) (h : Flow n p C τ) {i : Nat} (h1 : 2 ≤ i) (h2 : i ≤ n + 1) :
    receivedFrom (.chan (i - 1)) (proj i τ) = received (proj i τ) := by
  refine receivedFrom_only fun s d hd => ?_
  have := ((net n p).conduct (wired hn) h.exec (nodeR h1 h2)).got s d hd
  simpa [relay, Node.sources, Pull.source] using this

theorem two_sources {s s' : End} (hs : s ≠ s') (tr : List Ev) :
    (receivedFrom s tr).length + (receivedFrom s' tr).length ≤ (received tr).length := by
  unfold receivedFrom received
  induction acts tr with
  | nil => simp
  | cons x l ih =>
    cases x with
    | got e d =>
      by_cases h1 : e = s
      · subst h1; simp [List.filterMap_cons, hs]; omega
      · by_cases h2 : e = s'
        · subst h2; simp [List.filterMap_cons, h1]; omega
        · simp [List.filterMap_cons, h1, h2]; omega
    | _ => simpa [List.filterMap_cons] using ih

theorem received_length (tr : List Ev) : (received tr).length ≤ tr.length := by
  unfold received acts
  exact Nat.le_trans (List.length_filterMap_le _ _) (by simp)

theorem Flow.chain (hn : 1 ≤ n) (h : Flow n p C τ) (k : Nat) (hk : k ≤ n) :
    (received (proj 1 τ)).length ≤ (received (proj (k + 1) τ)).length + k * (C + 1) ∧
    (received (proj (k + 1) τ)).length ≤ (received (proj 1 τ)).length := by
  induction k with
  | zero => simp
  | succ k ih =>
    have ih := ih (by omega)
    have h1 := h.edge hn (edgeR (p := p) (i := k + 1) (by omega) (by omega))
    have h2 := h.relayed hn (i := k + 1 + 1) (by omega) (by omega)
    simp only [Nat.add_sub_cancel] at h2
    rw [h2] at h1
    rw [Nat.add_mul]
    omega

theorem Flow.new (hn : 1 ≤ n) (h : Flow n p C τ) : (receivedFrom (.chan 0) (proj 1 τ)).length ≤ (n + 1) * (C + 1) := by
  have h1 := (h.chain hn n (by omega)).1
  have h2 := (h.edge hn (edgeL (p := p) hn)).1
  have h3 := two_sources (s := .chan 0) (s' := .chan (n + 1)) (by simp) (proj 1 τ)
  rw [Nat.add_mul]
  omega

theorem Flow.bound (hn : 1 ≤ n) (hp : 0 ≤ p) (h : Flow n p C τ) : τ.length ≤ (n + 3) * (12 * ((n + 1) * (C + 1)) + 2 * (C + 1)) := by
  have x := h.new hn
  have hJ := (junction_scripted hp (show (0 : Nat) ≠ n + 1 by omega)).length (h.part node1) (h.projs 1)
  have hJr := received_length (proj 1 τ)
  have each : ∀ i ∈ List.range (n + 3), (if ((net n p).node i).isSome then ((proj i τ).filter fun _ => true).length else 0) ≤
      12 * ((n + 1) * (C + 1)) + 2 * (C + 1) := by
    intro i _
    rw [List.filter_eq_self.mpr (by simp)]
    split
    · next hi =>
      obtain ⟨m, hm⟩ := Option.isSome_iff_exists.mp hi
      rcases nodes hm with ⟨rfl, rfl⟩ | ⟨rfl, rfl⟩ | ⟨rfl, rfl⟩ | ⟨h1, h2, rfl⟩
      · have h1 := (faucet_scripted (n + 1)).length (h.part hm) (h.projs 0)
        have h2 := (h.edge hn (edge0 (p := p))).1
        have h3 : receivedFrom (.handle 0) (proj 0 τ) = received (proj 0 τ) := receivedFrom_only fun s d hd => by
          have := ((net n p).conduct (wired hn) h.exec hm).got s d hd
          simpa [faucet, Node.sources, Pull.source] using this
        rw [h3] at h1
        omega
      · omega
      · have h1 := (drain_scripted (n + 1)).length (h.part hm) (h.projs (n + 2))
        have h2 := (h.edge hn (edgeD (p := p))).2
        omega
      · have h3 := (relay_scripted (n + 1)).length (h.part hm) (h.projs i)
        have h4 := (h.chain hn (i - 1) (by omega)).2
        rw [show i - 1 + 1 = i by omega] at h4
        rw [h.relayed hn h1 h2] at h3
        omega
    · omega
  have tot := filter_sum (N := net n p) (is := List.range (n + 3)) (fun i m hm => by
    rcases nodes hm with ⟨rfl, rfl⟩ | ⟨rfl, rfl⟩ | ⟨rfl, rfl⟩ | ⟨h1, h2, rfl⟩ <;> simp <;> omega) (fun _ => true) τ
  rw [List.filter_eq_self.mpr (by intro x hx; simp [h.own x hx])] at tot
  have := sum_const each
  rw [List.length_range] at this
  omega

/-- There is a flow that cannot be continued. -/
theorem exists_last (hn : 1 ≤ n) (hp : 0 ≤ p) (C : Nat) : ∃ τ, Flow n p C τ ∧ ∀ x, ¬ Flow n p C (τ ++ [x]) := by
  have : ∀ k τ, Flow n p C τ → (n + 3) * (12 * ((n + 1) * (C + 1)) + 2 * (C + 1)) - τ.length = k →
      ∃ τ, Flow n p C τ ∧ ∀ x, ¬ Flow n p C (τ ++ [x]) := by
    intro k
    induction k using Nat.strongRecOn with
    | _ k ih =>
      intro τ h hk
      by_cases hx : ∃ x, Flow n p C (τ ++ [x])
      · obtain ⟨x, hx⟩ := hx
        have := hx.bound hn hp
        rw [List.length_append] at this
        simp at this
        exact ih _ (by rw [List.length_append]; simp; omega) _ hx rfl
      · exact ⟨τ, h, fun x h => hx ⟨x, h⟩⟩
  refine this _ [] ⟨⟨rfl, ?_⟩, by simp, by simp⟩ rfl
  intro i t _
  exact Or.inl ⟨_, [], [], .nil, by cases t.body t.init <;> exact trivial, rfl⟩

/-! ### It is full -/

theorem Flow.next (h : Flow n p C τ) {st st' : Store} (hst : execAll (fun _ _ => some C) Store.init (τ.map Prod.snd) = some st)
    (hlast : ∀ x, ¬ Flow n p C (τ ++ [x])) {i m q} (hm : (net n p).node i = some m) (ha : m.task.Awaits (proj i τ) q)
    {r : q.Resp} (he : Verif.exec (fun _ _ => some C) st ⟨q, r⟩ = some st') : ¬ Fine (n + 1) ⟨q, r⟩ := by
  intro hf
  apply hlast (i, ⟨q, r⟩)
  refine ⟨⟨?_, ?_⟩, ?_, ?_⟩
  · rw [List.map_append, execAll_append, hst]
    simp [execAll, he]
  · intro j t ht
    rw [proj_append]
    by_cases hij : j = i
    · subst hij
      simp [Network.sys, hm] at ht
      subst ht
      simpa [proj] using ha.step r
    · have : proj j [(i, (⟨q, r⟩ : Ev))] = [] := by simp [proj, Ne.symm hij]
      rw [this, List.append_nil]
      exact h.exec.tasks j t ht
  · intro x hx
    rcases List.mem_append.mp hx with hx | hx
    · exact h.own x hx
    · simp at hx; subst hx; simp [hm]
  · intro x hx
    rcases List.mem_append.mp hx with hx | hx
    · exact h.fine x hx
    · simp at hx; subst hx; exact hf

theorem exec_recv {cap : Caps} {st : Store} {c : Nat} (h : (st .data c).q ≠ []) :
    ∃ d st', Verif.exec cap st ⟨.recv .data c, some d⟩ = some st' := by
  cases hq : (st .data c).q with
  | nil => exact absurd hq h
  | cons d q => exact ⟨d, _, by simp [Verif.exec, hq]; rfl⟩

theorem exec_tryRecv {cap : Caps} {st : Store} {c : Nat} (h : (st .data c).q ≠ []) :
    ∃ d st', Verif.exec cap st ⟨.tryRecv .data c, .got d⟩ = some st' := by
  cases hq : (st .data c).q with
  | nil => exact absurd hq h
  | cons d q => exact ⟨d, _, by simp [Verif.exec, hq]; rfl⟩

theorem exec_send {cap : Caps} {st : Store} {c : Nat} {d : Bytes} (h1 : (st .data c).closed = false) (h2 : hasRoom (cap .data c) (st .data c).q.length) :
    ∃ st', Verif.exec cap st ⟨.send .data c d, true⟩ = some st' := ⟨_, by simp [Verif.exec, h1, h2]; rfl⟩

theorem full_nonempty {C : Nat} {st : Store} {c : Nat} (h : ¬ hasRoom (some (C + 1)) (st .data c).q.length) : (st .data c).q ≠ [] := by
  intro h0
  rw [h0] at h
  simp [hasRoom] at h

theorem Flow.full (hn : 1 ≤ n) (hp : 0 ≤ p) (h : Flow n p (C + 1) τ) {st : Store}
    (hst : execAll (fun _ _ => some (C + 1)) Store.init (τ.map Prod.snd) = some st) (hlast : ∀ x, ¬ Flow n p (C + 1) (τ ++ [x])) :
    (∀ i, i ≤ n + 1 → ∃ m d, (net n p).node i = some m ∧ m.task.Awaits (proj i τ) (.send .data i d) ∧
      ¬ hasRoom (some (C + 1)) (st .data i).q.length) ∧
    (drain n).task.Awaits (proj (n + 2) τ) (.recv .data (n + 2)) ∧ (st .data (n + 2)).q = [] := by
  have op := h.opened hst
  have sending : ∀ {i m c d}, (net n p).node i = some m → m.task.Awaits (proj i τ) (.send .data c d) →
      ¬ hasRoom (some (C + 1)) (st .data c).q.length := by
    intro i m c d hm ha hr
    obtain ⟨st', he⟩ := exec_send (cap := fun _ _ => some (C + 1)) (d := d) (op c) hr
    exact h.next hst hlast hm ha he trivial
  have receiving : ∀ {i m c}, (net n p).node i = some m → m.task.Awaits (proj i τ) (.recv .data c) → (st .data c).q = [] := by
    intro i m c hm ha
    apply Classical.byContradiction
    intro hq
    obtain ⟨d, st', he⟩ := exec_recv (cap := fun _ _ => some (C + 1)) hq
    exact h.next hst hlast hm ha he trivial
  have f0 : ∃ m d, (net n p).node 0 = some m ∧ m.task.Awaits (proj 0 τ) (.send .data 0 d) ∧ ¬ hasRoom (some (C + 1)) (st .data 0).q.length := by
    obtain ⟨q, ha, hq⟩ := (faucet_scripted (n + 1)).awaits (h.part node0) (h.projs 0)
    rcases hq with rfl | ⟨d, rfl⟩
    · exact absurd trivial (h.next hst hlast node0 ha (r := .line []) (st' := st) rfl)
    · exact ⟨_, d, node0, ha, sending node0 ha⟩
  have fD : (drain n).task.Awaits (proj (n + 2) τ) (.recv .data (n + 2)) ∧ (st .data (n + 2)).q = [] := by
    obtain ⟨q, ha, hq⟩ := (drain_scripted (n + 1)).awaits (h.part nodeD) (h.projs (n + 2))
    rcases hq with rfl | ⟨d, rfl⟩
    · exact ⟨ha, receiving nodeD ha⟩
    · exact absurd trivial (h.next hst hlast nodeD ha (r := .ok) (st' := st) rfl)
  have f1 : ∃ m d, (net n p).node 1 = some m ∧ m.task.Awaits (proj 1 τ) (.send .data 1 d) ∧ ¬ hasRoom (some (C + 1)) (st .data 1).q.length := by
    obtain ⟨q, ha, hq⟩ := (junction_scripted hp (show (0 : Nat) ≠ n + 1 by omega)).awaits (h.part node1) (h.projs 1)
    rcases hq with rfl | rfl | ⟨d, rfl⟩ | ⟨d, rfl⟩
    · obtain ⟨_, _, _, _, h0⟩ := f0
      obtain ⟨d, st', he⟩ := exec_tryRecv (cap := fun _ _ => some (C + 1)) (full_nonempty h0)
      exact absurd trivial (h.next hst hlast node1 ha he)
    · by_cases hq : (st .data (n + 1)).q = []
      · exact absurd rfl (h.next hst hlast node1 ha (r := .empty) (st' := st) (by simp [Verif.exec, hq, op]))
      · obtain ⟨d, st', he⟩ := exec_tryRecv (cap := fun _ _ => some (C + 1)) hq
        exact absurd trivial (h.next hst hlast node1 ha he)
    · exact absurd (by rw [fD.2]; simp [hasRoom]) (sending node1 ha)
    · exact ⟨_, d, node1, ha, sending node1 ha⟩
  refine ⟨fun i => ?_, fD⟩
  induction i with
  | zero => exact fun _ => f0
  | succ i ih =>
    intro hi
    by_cases h1 : i = 0
    · subst h1; exact f1
    · obtain ⟨_, _, _, _, hfull⟩ := ih (by omega)
      have hm := nodeR (p := p) (i := i + 1) (by omega) hi
      obtain ⟨q, ha, hq⟩ := (relay_scripted (n + 1)).awaits (h.part hm) (h.projs (i + 1))
      rcases hq with rfl | ⟨d, rfl⟩
      · exact absurd (receiving hm ha) (full_nonempty hfull)
      · exact ⟨_, d, hm, ha, sending hm ha⟩

end
end Ring

/-- **C56.** A loop without a buffer can fill up for good, however large the channels are and however many
components there are in the loop, if what comes back has no better priority than the input: everything is read and written without any
failure, no input is at its end, and then all components wait: each in the loop to write to the full channel to the
next, the one reading input for the loop, and the drain for something to write. -/
theorem C56_reachable (n : Nat) (hn : 1 ≤ n) (p : Int) (hp : 0 ≤ p) (C : Nat) :
    ∃ τ st, Execution (fun _ _ => some (C + 1)) (Ring.net n p).sys τ ∧ (Ring.net n p).Undisturbed τ ∧
      execAll (fun _ _ => some (C + 1)) Store.init (τ.map Prod.snd) = some st ∧
      (∀ i, ∀ f ∈ acts (proj i τ), f.fails = false ∧ ∀ s, f ≠ .ended s) ∧
      (Ring.net n p).Circle (fun _ _ => some (C + 1)) st τ (n + 1) (fun i => if i = n + 1 then 1 else i + 1) (fun i => i + 1) ∧
      (∀ i m, (Ring.net n p).node i = some m → ¬ m.task.Done (proj i τ) ∧ ¬ (Ring.net n p).CanStep (fun _ _ => some (C + 1)) τ i) ∧
      (received (proj 0 τ)).length ≤ (n + 2) * (C + 2) := by
  obtain ⟨τ, h, hlast⟩ := Ring.exists_last (n := n) hn hp (C + 1)
  obtain ⟨st, hst⟩ := Option.isSome_iff_exists.mp h.exec.chans
  obtain ⟨hfull, hd, hde⟩ := h.full hn hp hst hlast
  have op := h.opened hst
  have stuck : ∀ i m, (Ring.net n p).node i = some m → ∃ q, m.task.Awaits (proj i τ) q ∧ Impossible (fun _ _ => some (C + 1)) st q ∧ Nonempty q.Resp := by
    intro i m hm
    by_cases hi : i = n + 2
    · subst hi
      rw [Ring.nodeD] at hm; simp at hm; subst hm
      refine ⟨_, hd, fun r => ?_, ⟨(none : Option Bytes)⟩⟩
      cases r <;> simp [exec, hde, op]
    · have : i ≤ n + 1 := by
        rcases Ring.nodes hm with ⟨rfl, _⟩ | ⟨rfl, _⟩ | ⟨rfl, _⟩ | ⟨_, h2, _⟩ <;> omega
      obtain ⟨m', d, hm', ha, hr⟩ := hfull i this
      rw [hm] at hm'; simp at hm'; subst hm'
      exact ⟨_, ha, send_impossible (op i) hr, ⟨true⟩⟩
  refine ⟨τ, st, h.exec, h.undisturbed, hst, ?_, ⟨by omega, by simp, ?_⟩, ?_, ?_⟩
  · intro i f hf
    obtain ⟨e, he, rfl⟩ := List.mem_map.mp hf
    refine ⟨(Ring.Fine.act (h.projs i e he)).1, fun s hs => ?_⟩
    have := h.projs i e he
    simp [Fine, hs] at this
  · intro i hi
    have e1 : (fun i => if i = n + 1 then 1 else i + 1) i = i + 1 := by simp; omega
    obtain ⟨m, d, hm, ha, hr⟩ := hfull (i + 1) (by omega)
    refine ⟨?_, ?_, op _, hr⟩
    · simp only [show i ≠ n + 1 by omega, if_false]
      by_cases hl : i = n
      · subst hl; simpa using Ring.edgeL hn
      · simpa [hl] using Ring.edgeR (p := p) (i := i + 1) (by omega) (by omega)
    · simp only [show i ≠ n + 1 by omega, if_false]
      exact ⟨m, d, hm, ha⟩
  · intro i m hm
    obtain ⟨q, ha, himp, ⟨r⟩⟩ := stuck i m hm
    refine ⟨fun hdn => hdn.stops (u := []) (ha.step r), ?_⟩
    · rintro ⟨e, hx⟩
      have hp := hx.tasks i m.task (by simp [Network.sys, hm])
      rw [proj_append] at hp
      have : proj i [(i, e)] = [e] := by simp [proj]
      rw [this] at hp
      have hq := ha.next (u := []) hp
      have hc := hx.chans
      rw [List.map_append, execAll_append, hst] at hc
      obtain ⟨q', r'⟩ := e
      have hq : q' = q := hq
      subst hq
      simp [execAll, himp r'] at hc
  · have h1 := (h.edge hn (Ring.edge0 (p := p))).1
    have h2 := h.new hn
    have h3 : (n + 2) * (C + 1 + 1) = (n + 1) * (C + 1 + 1) + (C + 1 + 1) := by rw [← Nat.succ_mul]
    show _ ≤ (n + 2) * (C + 1 + 1)
    rw [h3]
    omega

namespace Ring

theorem selfContained {n : Nat} {p : Int} (hn : 1 ≤ n) : (net n p).SelfContained := by
  refine ⟨?_, ?_, ?_⟩
  · intro i m h
    rcases nodes h with ⟨rfl, rfl⟩ | ⟨rfl, rfl⟩ | ⟨rfl, rfl⟩ | ⟨h1, h2, rfl⟩ <;> simp [faucet, turn, relay, drain, Node.Plain]
  · intro i m c h hs
    rcases nodes h with ⟨rfl, rfl⟩ | ⟨rfl, rfl⟩ | ⟨rfl, rfl⟩ | ⟨h1, h2, rfl⟩ <;>
      simp [faucet, turn, relay, drain, Node.sources, Pull.source] at hs
    · rcases hs with rfl | rfl
      · exact ⟨_, edge0⟩
      · exact ⟨_, edgeL hn⟩
    · subst hs; exact ⟨_, edgeD⟩
    · subst hs
      have := edgeR (p := p) (n := n) (i := i - 1) (by omega) (by omega)
      rw [show i - 1 + 1 = i by omega] at this
      exact ⟨_, this⟩
  · intro i m c h hs
    rcases nodes h with ⟨rfl, rfl⟩ | ⟨rfl, rfl⟩ | ⟨rfl, rfl⟩ | ⟨h1, h2, rfl⟩ <;>
      simp [faucet, turn, relay, drain, Node.targets, Push.target] at hs
    · subst hs; exact ⟨_, edge0⟩
    · rcases hs with rfl | rfl
      · exact ⟨_, edgeD⟩
      · exact ⟨_, edgeR (by omega) hn⟩
    · subst hs
      by_cases hi : c = n + 1
      · subst hi; exact ⟨_, edgeL hn⟩
      · exact ⟨_, edgeR (by omega) (by omega)⟩

theorem upward {n : Nat} {p : Int} {a c b : Nat} (h : (net n p).Edge a c b) : c = n + 1 ∨ a < b := by
  obtain ⟨m, k, h1, h2, h3, h4⟩ := h
  rcases nodes h1 with ⟨rfl, rfl⟩ | ⟨rfl, rfl⟩ | ⟨rfl, rfl⟩ | ⟨_, _, rfl⟩ <;>
    rcases nodes h2 with ⟨rfl, rfl⟩ | ⟨rfl, rfl⟩ | ⟨rfl, rfl⟩ | ⟨_, _, rfl⟩ <;>
    simp [faucet, turn, relay, drain, Node.targets, Push.target, Node.sources, Pull.source] at h3 h4 <;> omega

/-- The full loop meets what `C56_frozen` asks for: whatever happens next, nothing in it moves. -/
example (n : Nat) (hn : 1 ≤ n) (C : Nat) : ∃ τ, ∀ τ', Execution (fun _ _ => some (C + 1)) (net n 0).sys (τ ++ τ') → (net n 0).Undisturbed (τ ++ τ') →
    ∀ x ∈ τ', ∀ i, 1 ≤ i → i ≤ n + 1 → x.1 ≠ i := by
  obtain ⟨τ, st, _, _, hst, _, hc, _⟩ := C56_reachable n hn 0 (by omega) C
  refine ⟨τ, fun τ' hx hu x hm i h1 h2 => ?_⟩
  have := (C56_frozen (wired hn) hx hu hst hc).1 x hm (i - 1) (by omega)
  simp only [show i - 1 ≠ n + 1 by omega, if_false] at this
  rwa [show i - 1 + 1 = i by omega] at this

/-- The full loop meets what `C56_circle` and `C56_settled` ask for. -/
example (n : Nat) (hn : 1 ≤ n) (C : Nat) : ∃ τ st, Execution (fun _ _ => some (C + 1)) (net n 0).sys τ ∧
    (net n 0).Unhindered (fun _ _ => some (C + 1)) st τ ∧ (net n 0).Quiet (fun _ _ => some (C + 1)) st τ ∧ ¬ (net n 0).Settled st τ ∧
    ∃ k place ch, (net n 0).Circle (fun _ _ => some (C + 1)) st τ k place ch := by
  obtain ⟨τ, st, hx, hu, hst, hf, hc, hs, _⟩ := C56_reachable n hn 0 (by omega) C
  have hun := (selfContained (p := 0) hn).unhindered (wired hn) (cap := fun _ _ => some (C + 1)) (st := st) (τ := τ)
  have hq : (net n 0).Quiet (fun _ _ => some (C + 1)) st τ := fun i m e hm he => absurd ⟨e, he⟩ (hs i m hm).2
  refine ⟨τ, st, hx, hun, hq, fun h => ?_, C56_circle (wired hn) hx hu hst (is := List.range (n + 3)) (fun i m h => by
    rcases nodes h with ⟨rfl, rfl⟩ | ⟨rfl, rfl⟩ | ⟨rfl, rfl⟩ | ⟨h1, h2, rfl⟩ <;> simp <;> omega) (by simp) hun
    (fun i _ _ _ _ f hm => not_ruins (hf i f hm).1) hq (hc.blocked 0 (by omega))⟩
  have hb := hc.blocked 0 (by omega)
  apply hb.full
  rw [(h.empty _ _ _ hb.edge).1]
  simp [hasRoom]

/-- A loop whose last channel is a buffer meets what `C56_goes_on` asks for: once something has been read, it goes on. -/
example (n : Nat) (hn : 1 ≤ n) (C : Nat) (p : Int) (cap : Caps) (hcap : cap = fun _ c => if c = n + 1 then none else some (C + 1)) (τ : List (Nat × Ev)) (st : Store)
    (hx : Execution cap (net n p).sys τ) (hu : (net n p).Undisturbed τ) (hst : execAll cap Store.init (τ.map Prod.snd) = some st)
    (hf : ∀ j m f, (net n p).node j = some m → f ∈ acts (proj j τ) → f.fails = false) (hr : receivedFrom (.handle 0) (proj 0 τ) ≠ []) :
    ∃ i m e, (net n p).node i = some m ∧ Execution cap (net n p).sys (τ ++ [(i, e)]) ∧ ¬ ((net n p).Idle st τ i ∧ (act e).idles = true) := by
  have W := wired (p := p) hn
  refine C56_goes_on W hx hu hst ((selfContained hn).unhindered W) (fun a c b _ => ?_) (rank := id) (R := n + 2) (fun a c b he hc => ?_)
    (fun i m h => ?_) (fun j m f h1 h2 h3 => ?_) (fun h => ?_)
  · subst hcap; by_cases hc : c = n + 1 <;> simp [hc]
  · rcases upward he with rfl | h
    · subst hcap; simp at hc
    · exact h
  · rcases nodes h with ⟨rfl, rfl⟩ | ⟨rfl, rfl⟩ | ⟨rfl, rfl⟩ | ⟨h1, h2, rfl⟩ <;> simp <;> omega
  · have := hf j m f h1 h2
    rw [h3.1] at this; simp at this
  · have h0 := (h.empty _ _ _ (edge0 (p := p))).2
    have hl := (h.empty _ _ _ (edgeL (p := p) hn)).2
    have loop : ∀ k, k ≤ n → received (proj (k + 1) τ) = received (proj 1 τ) := by
      intro k
      induction k with
      | zero => simp
      | succ k ih =>
        intro hk
        have h1 := (h.empty _ _ _ (edgeR (p := p) (i := k + 1) (by omega) (by omega))).2
        rw [ih (by omega)] at h1
        rw [← h1]
        symm
        refine receivedFrom_only fun s d hd => ?_
        have := ((net n p).conduct W hx (nodeR (i := k + 1 + 1) (by omega) (by omega))).got s d hd
        simpa [relay, Node.sources, Pull.source] using this
    rw [loop n (by omega)] at hl
    have h3 := two_sources (s := .chan 0) (s' := .chan (n + 1)) (by simp) (proj 1 τ)
    rw [hl, h0] at h3
    have h4 : receivedFrom (.handle 0) (proj 0 τ) = received (proj 0 τ) := receivedFrom_only fun s d hd => by
      have := ((net n p).conduct W hx node0).got s d hd
      simpa [faucet, Node.sources, Pull.source] using this
    rw [h4] at hr
    have := List.length_pos_iff.mpr hr
    omega

/-- Such an execution: the faucet has read a line. -/
example : ∃ cap : Caps, (cap = fun _ c => if c = 2 then none else some 1) ∧ Execution cap (net 1 0).sys [(0, ⟨.streamRead 0, .line [1]⟩)] ∧
    (net 1 0).Undisturbed [(0, ⟨.streamRead 0, .line [1]⟩)] ∧ receivedFrom (.handle 0) (proj 0 [(0, ⟨.streamRead 0, .line [1]⟩)]) ≠ [] := by
  refine ⟨_, rfl, ⟨rfl, ?_⟩, ?_, by decide +kernel⟩
  · intro i t ht
    cases h : (net 1 0).node i with
    | none => simp [Network.sys, h] at ht
    | some m =>
      simp [Network.sys, h] at ht
      subst ht
      rcases nodes h with ⟨rfl, rfl⟩ | ⟨rfl, rfl⟩ | ⟨rfl, rfl⟩ | ⟨h1, h2, rfl⟩
      · exact Task.checks_partial (by decide +kernel)
      · exact Task.checks_partial (by decide +kernel)
      · exact Task.checks_partial (by decide +kernel)
      · have : i = 2 := by omega
        subst this
        exact Task.checks_partial (by decide +kernel)
  · intro x hx hn
    simp at hx; subst hx
    rw [node0] at hn; simp at hn

end Ring
end Verif
