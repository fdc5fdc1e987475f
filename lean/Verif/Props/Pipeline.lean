import Verif.Props.Network
/-!
# Property C53: pipelines deliver every line in order
-/
namespace Verif
section
variable {ι : Type} [DecidableEq ι] {N : Network ι} {cap : Caps} {τ : List (ι × Ev)} {n : Nat} {place : Nat → ι} {ch : Nat → Nat}

theorem Network.Line.path (h : N.Line n place ch) : ∀ i, i ≤ n → N.Path (place 0) (place i)
  | 0, _ => .here
  | i + 1, hi => by
    obtain ⟨_, m, _, hm, _⟩ := h.edge i hi
    exact .step (h.path i (by omega)) (h.edge i hi) hm (h.only i hi m hm)

/-- **C53**, at every moment: what the last stage has received, and what it has written to each of its outputs, is an
initial segment of what has entered the pipeline. -/
theorem C53_prefix (hw : N.Wired) (hx : Execution cap N.sys τ) (hu : N.Undisturbed τ) (hl : N.Line n place ch) :
    received (proj (place n) τ) <+: received (proj (place 0) τ) ∧
    ∀ m, N.node (place n) = some m → ∀ t ∈ m.targets, offeredTo t (proj (place n) τ) <+: received (proj (place 0) τ) := by
  have h1 := C55_branch hw hx hu (hl.path n (Nat.le_refl _))
  refine ⟨h1, fun m hm t ht => ?_⟩
  exact ((N.conduct hw hx hm).copies t ht).1.trans h1

/-- **C53**, at every moment, nothing is lost, duplicated or reordered: as long as nothing has failed from outside, what has
entered is what has arrived at the last stage, followed by what is in the channels and in the hands of the
stages (at most one message each), later channels first. -/
theorem C53_conserved (hw : N.Wired) (hx : Execution cap N.sys τ) (hu : N.Undisturbed τ) (hl : N.Line n place ch)
    (hf : ∀ j n f, N.node j = some n → f ∈ acts (proj j τ) → ¬ N.Outside j f) {st : Store}
    (hst : execAll cap Store.init (τ.map Prod.snd) = some st) :
    ∃ held : Nat → List Bytes, (∀ i, (held i).length ≤ 1) ∧
      received (proj (place 0) τ) = received (proj (place n) τ) ++
        (List.range n).reverse.flatMap fun i => (st .data (ch i)).q ++ held i := by
  induction n with
  | zero => exact ⟨fun _ => [], by simp, by simp⟩
  | succ n ih =>
    obtain ⟨held, h1, h2⟩ := ih ⟨fun i hi => hl.edge i (by omega), fun i hi => hl.only i (by omega)⟩
    have he := hl.edge n (by omega)
    obtain ⟨_, m, _, hm, _⟩ := he
    obtain ⟨x, x1, x2⟩ := C55_conserved hw hx hu hf (hl.edge n (by omega)) hst
    rw [receivedFrom_only (s := .chan (ch n)) (tr := proj (place (n + 1)) τ) (fun s' d hd => by
      have := (N.conduct hw hx hm).got s' d hd
      rw [hl.only n (by omega) m hm] at this; simpa using this)] at x2
    refine ⟨fun i => if i = n then x else held i, ?_, ?_⟩
    · intro i
      by_cases hi : i = n
      · simp [hi, x1]
      · simp [hi, h1]
    · rw [h2, x2, List.range_succ, List.reverse_append, List.reverse_singleton, List.singleton_append, List.flatMap_cons]
      have : (List.range n).reverse.flatMap (fun i => (st .data (ch i)).q ++ if i = n then x else held i) =
          (List.range n).reverse.flatMap fun i => (st .data (ch i)).q ++ held i := by
        rw [List.flatMap_def, List.flatMap_def]
        congr 1
        apply List.map_congr_left
        intro i hi
        simp at hi
        simp [show i ≠ n by omega]
      rw [this]
      simp [List.append_assoc]

/-- **C53**, in the end: when all components have ended and nothing has failed from outside, everything that entered has
arrived at the last stage and been written to each of its outputs. -/
theorem C53_complete (hw : N.Wired) (hx : Execution cap N.sys τ) (hu : N.Undisturbed τ) (hl : N.Line n place ch)
    (hf : ∀ j n f, N.node j = some n → f ∈ acts (proj j τ) → ¬ N.Outside j f)
    (hd : ∀ i n, N.node i = some n → n.task.Done (proj i τ)) :
    received (proj (place n) τ) = received (proj (place 0) τ) ∧
    ∀ m, N.node (place n) = some m → ∀ t ∈ m.targets, offeredTo t (proj (place n) τ) = received (proj (place 0) τ) := by
  have hp := hl.path n (Nat.le_refl _)
  exact ⟨C55_branch_complete hw hx hu hf hd hp, fun m hm t ht => C55_delivered hw hx hu hf hd hp hm t ht⟩

end

/-! ### Pipelines of any length exist -/
namespace Pipe

/-- Stage 0 is a faucet reading a handle, stages in between are relays, stage `n + 1` writes to a handle. -/
def stage (n i : Nat) : Node :=
  if i = 0 then .regulator (.stream ⟨0, 1⟩ 0) (.sender ⟨0, some .out, 1, .terminate⟩ 0) none none
  else if i = n + 1 then .relay (.receiver ⟨n, n + 1⟩ n) {} none (.io ⟨n + 1, some .out, 0, .terminate⟩ 1)
  else .relay (.receiver ⟨i - 1, i⟩ (i - 1)) {} none (.sender ⟨i, some .out, i + 1, .terminate⟩ i)

def net (n : Nat) : Network Nat := ⟨fun i => if i ≤ n + 1 then some (stage n i) else none⟩

theorem sources (n i : Nat) (_ : i ≤ n + 1) : (stage n i).sources = if i = 0 then [.handle 0] else [.chan (i - 1)] := by
  unfold stage
  by_cases h0 : i = 0
  · simp [h0, Node.sources, Pull.source]
  · by_cases h1 : i = n + 1
    · simp [h1, Node.sources, Pull.source]
    · simp [h0, h1, Node.sources, Pull.source]

theorem targets (n i : Nat) (_ : i ≤ n + 1) : (stage n i).targets = if i = n + 1 then [.handle 1] else [.chan i] := by
  unfold stage
  by_cases h0 : i = 0
  · subst h0; simp [Node.targets, Push.target]
  · by_cases h1 : i = n + 1
    · simp [h1, Node.targets, Push.target]
    · simp [h0, h1, Node.targets, Push.target]

theorem node_some {n i : Nat} {m : Node} (h : (net n).node i = some m) : i ≤ n + 1 ∧ m = stage n i := by
  simp [net] at h; exact ⟨h.1, h.2.symm⟩

theorem wired (n : Nat) : (net n).Wired := by
  refine ⟨?_, ?_, ?_⟩
  · intro i m h
    obtain ⟨hi, rfl⟩ := node_some h
    refine ⟨?_, ?_⟩
    · rw [sources n i hi, targets n i hi]
      by_cases h0 : i = 0 <;> by_cases h1 : i = n + 1 <;> simp [h0, h1]
      omega
    · unfold stage
      by_cases h0 : i = 0
      · simp [h0]
      · by_cases h1 : i = n + 1 <;> simp [h0, h1]
  · intro i j m k c h1 h2
    obtain ⟨hi, rfl⟩ := node_some h1
    obtain ⟨hj, rfl⟩ := node_some h2
    rw [targets n i hi, targets n j hj]
    by_cases h1 : i = n + 1 <;> by_cases h2 : j = n + 1 <;> simp [h1, h2]
    omega
  · intro i j m k c h1 h2
    obtain ⟨hi, rfl⟩ := node_some h1
    obtain ⟨hj, rfl⟩ := node_some h2
    rw [sources n i hi, sources n j hj]
    by_cases h1 : i = 0 <;> by_cases h2 : j = 0 <;> simp [h1, h2]
    omega

theorem line (n : Nat) : (net n).Line (n + 1) id id := by
  constructor
  · intro i hi
    refine ⟨stage n i, stage n (i + 1), by simp [net]; omega, by simp [net]; omega, ?_, ?_⟩
    · rw [targets n i (by omega)]; simp [show i ≠ n + 1 by omega]
    · rw [sources n (i + 1) (by omega)]; simp
  · intro i hi m hm
    obtain ⟨_, rfl⟩ := node_some hm
    exact (sources n (i + 1) (by omega)).trans (by simp)

/-- One line on its way through a pipeline of three stages, to its end. -/
def tr0 : List Ev := [⟨.streamRead 0, .line [97]⟩, ⟨.send .data 0 [97], true⟩, ⟨.streamRead 0, .line [98]⟩, ⟨.send .data 0 [98], true⟩,
  ⟨.streamRead 0, .eof⟩, ⟨.close .data 0, ()⟩]
def tr1 : List Ev := [⟨.recv .data 0, some [97]⟩, ⟨.send .data 1 [97], true⟩, ⟨.recv .data 0, some [98]⟩, ⟨.send .data 1 [98], true⟩,
  ⟨.recv .data 0, none⟩, ⟨.close .data 1, ()⟩, ⟨.close .data 1, ()⟩, ⟨.close .data 0, ()⟩]
def tr2 : List Ev := [⟨.recv .data 1, some [97]⟩, ⟨.ioWrite 1 [97], .ok⟩, ⟨.recv .data 1, some [98]⟩, ⟨.ioWrite 1 [98], .ok⟩,
  ⟨.recv .data 1, none⟩, ⟨.ioFlush 1, true⟩, ⟨.close .data 1, ()⟩]
def trace : List (Nat × Ev) := tr0.map (0, ·) ++ (tr1.take 3).map (1, ·) ++ (tr2.take 2).map (2, ·) ++ (tr1.drop 3).map (1, ·) ++
  (tr2.drop 2).map (2, ·)

theorem done : ∀ i m, (net 1).node i = some m → m.task.Done (proj i trace) := by
  intro i m h
  obtain ⟨hi, rfl⟩ := node_some h
  match i, hi with
  | 0, _ => exact Task.finished_done (by decide +kernel)
  | 1, _ => exact Task.finished_done (by decide +kernel)
  | 2, _ => exact Task.finished_done (by decide +kernel)

theorem execution : Execution (fun _ _ => some 2) (net 1).sys trace := by
  refine ⟨by decide +kernel, ?_⟩
  intro i t h
  unfold Network.sys at h
  cases hn : (net 1).node i with
  | none => rw [hn] at h; simp at h
  | some m =>
    rw [hn] at h; simp at h; subst h
    obtain ⟨r, t1, h1, h2⟩ := done i m hn
    exact Or.inr ⟨r, t1, _, h1, List.prefix_rfl, h2⟩

theorem undisturbed : (net 1).Undisturbed trace := by
  intro x hx hn
  have : ∀ x ∈ trace, x.1 ≤ 2 := by decide +kernel
  simp [net, this x hx] at hn

theorem quiet : ∀ j m f, (net 1).node j = some m → f ∈ acts (proj j trace) → ¬ (net 1).Outside j f := by
  intro j m f h hf ho
  obtain ⟨hi, rfl⟩ := node_some h
  have h0 : ∀ f ∈ acts (proj 0 trace), f.fails = false := by decide +kernel
  have h1 : ∀ f ∈ acts (proj 1 trace), f.fails = false := by decide +kernel
  have h2 : ∀ f ∈ acts (proj 2 trace), f.fails = false := by decide +kernel
  have : f.fails = false := by
    match j, hi with
    | 0, _ => exact h0 f hf
    | 1, _ => exact h1 f hf
    | 2, _ => exact h2 f hf
  rw [ho.1] at this; simp at this

/-- The hypotheses hold here, and both lines arrive. -/
example : (net 1).Wired ∧ (net 1).Line 2 id id ∧ Execution (fun _ _ => some 2) (net 1).sys trace ∧ (net 1).Undisturbed trace ∧
    (∀ i m, (net 1).node i = some m → m.task.Done (proj i trace)) ∧
    (∀ j m f, (net 1).node j = some m → f ∈ acts (proj j trace) → ¬ (net 1).Outside j f) ∧
    offeredTo (.handle 1) (proj 2 trace) = [[97], [98]] := by
  refine ⟨wired 1, line 1, execution, undisturbed, done, quiet, ?_⟩
  have h := (C53_complete (wired 1) execution undisturbed (line 1) quiet done).2 (stage 1 2) rfl (.handle 1) (by decide)
  exact h.trans (by decide +kernel)

/-- Half-way: the second line is in the hands of the second stage. -/
example : ∃ τ1 st, τ1 <+: trace ∧ execAll (fun _ _ => some 2) Store.init (τ1.map Prod.snd) = some st ∧
    received (proj 0 τ1) = [[97], [98]] ∧ received (proj 2 τ1) = [[97]] := by
  refine ⟨trace.take 11, _, List.take_prefix _ _, rfl, by decide +kernel, by decide +kernel⟩

end Pipe

end Verif
