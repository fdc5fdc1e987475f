import Verif.Lemmas.Jam
import Verif.Props.RuntimeEnds
import Verif.Props.FlowControl
/-!
# Property C82: with a buffer on every loop nothing gets stuck, and without it may
-/
namespace Verif
section
variable {c : Config} {R : Map Hop} {w w' : Waiter} {cs : List Capture} {order : List (Str × Watch)} {cap : Caps} {τ : List (Who × Ev)} {st : Store}

/-- **C82** In a runtime with a buffer on every loop, buffers taking in any amount and other channels something: when nothing goes on inside any more, and no regulator is paused and no
manager waits for room, then nothing lies in a channel whose reader has not closed it, nor in a buffer, and nobody waits for room. So whoever has not ended waits for something to come from
outside. Junctions are assumed to have met nothing they cannot get over. -/
theorem C82_unjammed (hc : c.connection = hopSets R) (hw : getWaiter c = .ok w) (hp : w.regulatorSettings order = .ok (cs, w')) (hC : Complete (R.map (·.2)))
    (hb : LoopsBuffered (R.map (·.2))) (hcap : ∀ k ch, cap k ch ≠ some 0) (hun : ∀ ch, (R.map (·.2)).length ≤ ch → cap .data ch = none) (hr : w'.Run cs cap τ)
    (hst : execAll cap Store.init (τ.map Prod.snd) = some st)
    (hj : ∀ i inputs pushs spy, w'.node i = some (.junction inputs pushs spy) → ∀ f ∈ acts (proj i τ), f.ruins pushs = false)
    (hu : ∀ r, ¬ w'.Unheard cs cap st τ r) (hpa : ∀ r, ¬ w'.Paused cs st τ r) (hm : w'.Motionless cs cap st τ) :
    (∀ ch h, (R.map (·.2))[ch]? = some h → (Kind.data, ch) ∉ closings (proj h.reader τ) → (st .data ch).q = []) ∧
    (∀ x, Mentioned (R.map (·.2)) (.buffer, x) → (Kind.data, (R.map (·.2)).length + w'.idOf (.buffer, x)) ∉ closings (proj (.part (.buffer, x) .output) τ) →
      (st .data ((R.map (·.2)).length + w'.idOf (.buffer, x))).q = []) ∧
    ∀ i n ch d, w'.node i = some n → n.task.Awaits (proj i τ) (.send .data ch d) → ¬ Impossible cap st (.send .data ch d) := by
  have A := assembled hc hw hp
  have T := attended hc hw hp
  have empty : ∀ {i n ch}, w'.node i = some n → .chan ch ∈ n.sources → (Kind.data, ch) ∉ closings (proj i τ) → (st .data ch).q = [] := by
    intro i n ch hn hs hcl
    refine A.hungry_empty hC hst hn (A.unjammed hC T hb hr hst hcap hun hj hu hpa hm hn fun hd => ?_) hs hcl
    exact hcl ((node_done ((A.wired hC).ok i n hn) hd (by rintro inputs pushs spy rfl; exact hj _ inputs pushs spy hn) ch).2 hs)
  refine ⟨?_, ?_, ?_⟩
  · intro ch h hi hcl
    obtain ⟨n, hn⟩ := A.readerNode hC (List.mem_of_getElem? hi)
    exact empty hn ((A.sources hn ch).mpr (Or.inl ⟨h, hi, rfl⟩)) hcl
  · intro x hx hcl
    obtain ⟨_, n, _, hn, _⟩ := (A.edges hC _ _ _).mpr (Or.inr ⟨x, hx, rfl, rfl, rfl⟩)
    have hn : w'.node (.part (.buffer, x) .output) = some n := hn
    exact empty hn ((A.sources hn _).mpr (Or.inr ⟨rfl, rfl, by rw [A.chans]⟩)) hcl
  · intro i n ch d hn hq
    exact A.roomy hC T hb hr hst hcap hun hj hu hpa hm hn hq

theorem realCaps_buffers (hs : List Hop) (ch : Nat) (h : hs.length ≤ ch) : realCaps hs .data ch = none := by
  simp [realCaps, h]

/-- Without managers nobody pauses a regulator. -/
theorem Rigged.unpaused {hs : List Hop} (A : Rigged c hs w) (hC : Complete hs) (hu : w.Unmanaged) (r : Str) : ¬ w.Paused [] st τ r := by
  rintro ⟨⟨t, h1, h2⟩, _⟩
  have hn : w.node (.part (.regulator, r) .main) ≠ none := by
    intro hn
    rcases A.others hC h1 hn with ⟨_, _, _, _, he, _⟩ | ⟨_, _, he, _⟩ | ⟨_, _, he, _⟩ | ⟨_, _, he, hd, _⟩ <;> cases he
    cases hd
  obtain ⟨n, hn⟩ := Option.ne_none_iff_exists'.mp hn
  rw [sys_node hn] at h1
  cases h1
  rcases A.kinds hC hu hn (h2.step none) (e := ⟨.recv .ctl (w.idOf (.regulator, r)), none⟩) (by simp) rfl with h | ⟨h, _⟩ <;> cases h

/-- **C82** Without managers, with the capacities the channels really have, and as long as nothing fails, nothing lies in any channel then. -/
theorem C82_plain (hc : c.connection = hopSets R) (hw : getWaiter c = .ok w) (hp : w.regulatorSettings order = .ok ([], w')) (hC : Complete (R.map (·.2)))
    (hb : LoopsBuffered (R.map (·.2))) (hr : w'.Run [] (realCaps (R.map (·.2))) τ) (hst : execAll (realCaps (R.map (·.2))) Store.init (τ.map Prod.snd) = some st)
    (hf : ∀ i, ∀ f ∈ acts (proj i τ), f.trouble = false) (hm : w'.Motionless [] (realCaps (R.map (·.2))) st τ) {ch : Nat} {h : Hop} (hi : (R.map (·.2))[ch]? = some h) :
    (st .data ch).q = [] := by
  have A := assembled hc hw hp
  obtain ⟨E, U⟩ := A.run hC hr
  have nf := C55_no_failures (A.wired hC) E U (A.inside hC hr hf)
  by_cases hcl : (Kind.data, ch) ∈ closings (proj h.reader τ)
  · obtain ⟨n, hn⟩ := A.readerNode hC (List.mem_of_getElem? hi)
    have hs : .chan ch ∈ n.sources := (A.sources hn ch).mpr (Or.inl ⟨h, hi, rfl⟩)
    rcases node_closes ((A.wired hC).ok h.reader n hn) (hr.exec.tasks _ n.task (sys_node hn)) hs hcl with h1 | ⟨f, h1, h2⟩
    · exact (ended_empty hst h1).1
    · rw [nf h.reader n f hn h1] at h2; cases h2
  refine (C82_unjammed hc hw hp hC hb (realCaps_room _) (realCaps_buffers _) hr hst (fun i inputs pushs spy hn f hm => not_ruins (nf i _ f hn hm)) ?_ ?_ hm).1 ch h hi hcl
  · rintro r ⟨⟨t, h1, _⟩, _⟩; cases h1
  · rw [regulatorSettings_none hp] at A ⊢
    exact A.toRigged.unpaused hC (unmanaged hc hw)

/-- **C82** It is enough that following the connections one never returns to the same component without entering a buffer. -/
theorem C82_components {hs : List Hop} (h : ∀ r, ¬ Relation.TransGen (fun a b : CompRef => ∃ h ∈ hs, h.from = a ∧ h.to = b ∧ b.1 ≠ .buffer) r r) : LoopsBuffered hs := by
  have one : ∀ {i j}, HoldsUp hs i j → ∃ a p b q, i = .part a p ∧ j = .part b q ∧ ((a.1 = .buffer → p ≠ .input) ∧ ((∃ h ∈ hs, h.from = a ∧ h.to = b ∧ (b.1 = .buffer → q = .input)) ∨ a = b ∧ p = .input ∧ q ≠ .input)) := by
    intro i j hl
    cases hl with
    | @hop h h1 hx =>
      refine ⟨_, _, _, _, rfl, rfl, ?_, Or.inl ⟨_, h1, rfl, rfl, ?_⟩⟩
      · intro hb
        have : h.src.ty = .buffer := hb
        rw [this]; simp
      · intro hb
        have : h.dst.ty = .buffer := hb
        rw [this]
    | @program h h1 hl hx =>
      refine ⟨_, _, _, _, rfl, rfl, ?_, Or.inr ⟨rfl, rfl, ?_⟩⟩
      · intro hb
        have : h.src.ty = .buffer := hb
        rw [this] at hl; cases hl
      · rw [hl]
        cases h.src.port <;> simp
  have many : ∀ {i j}, Relation.TransGen (HoldsUp hs) i j → ∀ k, HoldsUp hs j k → ∃ a p b q, i = .part a p ∧ j = .part b q ∧
      (Relation.TransGen (fun a b : CompRef => ∃ h ∈ hs, h.from = a ∧ h.to = b ∧ b.1 ≠ .buffer) a b ∨ a = b ∧ p = .input ∧ q ≠ .input) := by
    intro i j hl
    induction hl with
    | single h1 =>
      intro k hk
      obtain ⟨a, p, b, q, rfl, rfl, _, h2⟩ := one h1
      obtain ⟨_, _, _, _, e, _, h3, _⟩ := one hk
      cases e
      refine ⟨a, p, b, q, rfl, rfl, ?_⟩
      rcases h2 with ⟨h, g1, g2, g3, g4⟩ | h2
      · exact Or.inl (.single ⟨h, g1, g2, g3, fun hb => h3 hb (g4 hb)⟩)
      · exact Or.inr h2
    | tail _ h1 ih =>
      intro k hk
      obtain ⟨a, p, b, q, rfl, rfl, h2⟩ := ih _ h1
      obtain ⟨b', q', d, s, e, rfl, _, h3⟩ := one h1
      cases e
      obtain ⟨_, _, _, _, e, _, h4, _⟩ := one hk
      cases e
      refine ⟨a, p, d, s, rfl, rfl, ?_⟩
      rcases h3 with ⟨h, g1, g2, g3, g4⟩ | ⟨rfl, hq, hs⟩
      · have e : ∃ h ∈ hs, h.from = b ∧ h.to = d ∧ d.1 ≠ .buffer := ⟨h, g1, g2, g3, fun hb => h4 hb (g4 hb)⟩
        rcases h2 with h2 | ⟨rfl, _⟩
        · exact Or.inl (.tail h2 e)
        · exact Or.inl (.single e)
      · rcases h2 with h2 | ⟨_, _, h2⟩
        · exact Or.inl h2
        · exact absurd hq h2
  intro i hl
  obtain ⟨k, hk⟩ : ∃ k, HoldsUp hs i k := by
    clear many one h
    have : ∀ {i j}, Relation.TransGen (HoldsUp hs) i j → ∃ k, HoldsUp hs i k := by
      intro i j hl
      induction hl with
      | single h => exact ⟨_, h⟩
      | tail _ _ ih => exact ih
    exact this hl
  obtain ⟨a, p, b, q, rfl, e, h1⟩ := many hl k hk
  cases e
  rcases h1 with h1 | ⟨_, h2, h1⟩
  · exact h a h1
  · exact h1 h2

/-! ## Checking that nothing goes on -/

/-- It waits for something to come or for room. -/
def stuckOn (cap : Caps) (st : Store) : Req → Bool
  | .recv k c => (st k c).q.isEmpty && !(st k c).closed
  | .send k c _ => !(st k c).closed && !decide (hasRoom (cap k c) (st k c).q.length)
  | _ => false

theorem stuckOn_sound {q : Req} (h : stuckOn cap st q = true) : Impossible cap st q := by
  intro r
  cases q <;> simp [stuckOn] at h
  · cases r <;> simp [exec, h]
  · cases r <;> simp [exec, h]

def Waiter.idleNow (w : Waiter) (st : Store) (τ : List (Who × Ev)) (i : Who) : Bool := match w.node i with
  | some (.junction inputs pushs spy) =>
    ((Node.junction inputs pushs spy).sources.any fun s => decide (Act.ended s ∉ acts (proj i τ)) && match s with
      | .chan ch => decide ((Kind.data, ch) ∉ closings (proj i τ))
      | _ => true) &&
    (Node.junction inputs pushs spy).sources.all fun s => decide (Act.ended s ∈ acts (proj i τ)) || match s with
      | .chan ch => (st .data ch).q.isEmpty && !(st .data ch).closed
      | _ => true
  | _ => false

theorem Waiter.idleNow_sound {i : Who} (h : w.idleNow st τ i = true) : w.net.Idle st τ i := by
  unfold Waiter.idleNow at h
  split at h
  · next inputs pushs spy hn =>
    simp only [Bool.and_eq_true, List.any_eq_true, List.all_eq_true] at h
    obtain ⟨⟨s, hs, h1⟩, h2⟩ := h
    refine ⟨inputs, pushs, spy, hn, ⟨s, hs, of_decide_eq_true h1.1, by rintro c rfl; exact of_decide_eq_true h1.2⟩, fun ch hc he => ?_⟩
    have := h2 _ hc
    simpa [he.1] using this
  · cases h

def Waiter.readingNow (w : Waiter) (τ : List (Who × Ev)) (i : Who) : Bool := match w.node i with
  | some n => match n.task.waits (proj i τ) with
    | some (.streamRead _) => true
    | _ => false
  | none => false

theorem Waiter.readingNow_sound {i : Who} (h : w.readingNow τ i = true) : w.Reading τ i := by
  unfold Waiter.readingNow at h
  split at h
  · next n hn =>
    split at h
    · next hd hq => exact ⟨n, hd, hn, Task.waits_awaits hq⟩
    · cases h
  · cases h

def Waiter.countNow (st : Store) (w : Waiter) : Who → Bool
  | .part r .count => ((st .mon (2 * w.idOf r)).q.isEmpty && (st .mon (2 * w.idOf r + 1)).q.isEmpty) && (!(st .mon (2 * w.idOf r)).closed || !(st .mon (2 * w.idOf r + 1)).closed)
  | _ => false

/-- The program waits for what it has printed to be taken: its output waits for room. -/
def Waiter.unrelievedNow (w : Waiter) (cap : Caps) (st : Store) (τ : List (Who × Ev)) : Who → Bool
  | .part (.launch, x) .input => (match w.sys [] (.part (.launch, x) .input) with
      | some t => match t.waits (proj (.part (.launch, x) .input) τ) with
        | some (.ioWrite _ _) => true
        | _ => false
      | none => false) &&
    match w.sys [] (.part (.launch, x) .output) with
      | some t => match t.waits (proj (.part (.launch, x) .output) τ) with
        | some q => stuckOn cap st q
        | none => false
      | none => false
  | _ => false

theorem Waiter.unrelievedNow_sound {i : Who} (h : w.unrelievedNow cap st τ i = true) : ∃ x, i = .part (.launch, x) .input ∧ w.Unrelieved [] τ x := by
  unfold Waiter.unrelievedNow at h
  split at h
  · next x =>
    rw [Bool.and_eq_true] at h
    refine ⟨x, rfl, ?_, .output, by simp, ?_⟩
    · have h := h.1
      split at h
      · next t ht =>
        split at h
        · next hd d hq => exact ⟨t, hd, ht, Or.inr ⟨d, Task.waits_awaits hq⟩⟩
        · cases h
      · cases h
    · have h := h.2
      split at h
      · next t ht =>
        split at h
        · next q hq =>
          have ha := Task.waits_awaits hq
          refine ⟨t, ht, ?_, ?_⟩
          · intro hd
            cases q with
            | recv k ch => exact hd.stops (u := []) (ha.step none)
            | send k ch v => exact hd.stops (u := []) (ha.step true)
            | _ => simp [stuckOn] at h
          · rintro ⟨n, hd, hn, hr⟩
            rw [sys_node hn] at ht; cases ht
            have := ha.next (hr.step .eof)
            dsimp only at this
            subst this
            simp [stuckOn] at h
        · cases h
      · cases h
  · cases h

/-- A sufficient check for `Motionless`. -/
def Waiter.motionless (w : Waiter) (cap : Caps) (st : Store) (τ : List (Who × Ev)) : Bool :=
  (w.everyone []).all fun i => match w.sys [] i with
    | none => true
    | some t => t.finished (proj i τ) || (match t.waits (proj i τ) with
        | some q => stuckOn cap st q
        | none => false) || w.readingNow τ i || w.idleNow st τ i || w.countNow st i || w.unrelievedNow cap st τ i || (match i with
        | .part _ .exit => true
        | _ => false)

theorem Waiter.motionless_sound (hst : execAll cap Store.init (τ.map Prod.snd) = some st) (h : w.motionless cap st τ = true) : w.Motionless [] cap st τ := by
  intro i t ht hd hcan
  have h := List.all_eq_true.mp h i (sys_everyone (by rw [ht]; simp))
  rw [ht] at h
  simp only [Bool.or_eq_true] at h
  rcases h with (((((h | h) | h) | h) | h) | h) | h
  · exact absurd (Task.finished_done h) hd
  · exfalso
    split at h
    · next q hq =>
      obtain ⟨e, he⟩ := hcan
      have h1 := he.exec.tasks i t ht
      rw [proj_append, show proj i [(i, e)] = [e] by simp [proj]] at h1
      have h2 := (Task.waits_awaits hq).next h1
      have h3 := he.exec.chans
      obtain ⟨q', r⟩ := e
      dsimp only at h2
      subst h2
      rw [List.map_append, execAll_append, hst] at h3
      simp [execAll, stuckOn_sound h r] at h3
    · cases h
  · exact Or.inr (Or.inl (Waiter.readingNow_sound h))
  · exact Or.inl (Or.inl (Or.inl (Waiter.idleNow_sound h)))
  · left; left; right
    unfold Waiter.countNow at h
    split at h
    · next r =>
      simp only [Bool.and_eq_true, Bool.or_eq_true, Bool.not_eq_true', List.isEmpty_iff] at h
      refine ⟨r, rfl, ?_, ?_⟩
      · intro m hm
        simp only [List.mem_cons, List.not_mem_nil, or_false] at hm
        rcases hm with rfl | rfl
        · exact h.1.1
        · exact h.1.2
      · rcases h.2 with h | h
        · exact ⟨_, by simp, h⟩
        · exact ⟨_, by simp, h⟩
    · cases h
  · exact Or.inr (Or.inr (Or.inr (Waiter.unrelievedNow_sound h)))
  · split at h
    · next r => exact Or.inr (Or.inr (Or.inl ⟨r, rfl⟩))
    · cases h

end

/-! ## A loop without a buffer -/
namespace Example

/-- What a program prints comes back to it. -/
def gorge : List (Str × Hop) :=
  [("m_1".toList, ⟨⟨.faucet, "spring".toList, .out⟩, none, ⟨.junction, "fork".toList⟩, ⟨.terminate, 0⟩, none⟩),
   ("m_2".toList, ⟨⟨.junction, "fork".toList, .out⟩, none, ⟨.launch, "wheel".toList⟩, ⟨.terminate, 0⟩, none⟩),
   ("m_3".toList, ⟨⟨.launch, "wheel".toList, .out⟩, none, ⟨.junction, "fork".toList⟩, ⟨.terminate, 0⟩, none⟩),
   ("m_4".toList, ⟨⟨.junction, "fork".toList, .out⟩, none, ⟨.drain, "lake".toList⟩, ⟨.terminate, 0⟩, none⟩)]
def gorgeConfig : Config where
  faucet := [("spring".toList, "-".toList)]
  regulator := []
  drain := []
  launch := [("wheel".toList, ⟨some "cat".toList, none, [], []⟩)]
  connection := hopSets gorge
def gorgeWaiter : Waiter := ((getWaiter gorgeConfig).ok?).getD Waiter.new
def gorgeCaps : Caps := realCaps (gorge.map (·.2))
/-- The program prints more than it is given, and takes in nothing while it waits for what it has printed to be taken. -/
def gorgeOrder : List Who :=
  let wheel : Who := .part (.launch, "wheel".toList) .output
  let fork : Who := .part (.junction, "fork".toList) .main
  let lake : Who := .part (.drain, "lake".toList) .main
  let spring : Who := .part (.faucet, "spring".toList) .main
  let round := [wheel, wheel, fork, fork, fork, fork, fork, lake, lake, lake]
  round ++ [Who.part (.launch, "wheel".toList) .input] ++ (List.replicate 14 round).flatten ++ List.replicate 10 spring ++ List.replicate 10 fork ++ List.replicate 6 lake
def gorgeTrace : List (Who × Ev) := gorgeWaiter.drive [] gorgeCaps (fun h => if h = 0 then List.replicate 3 [1, 10] else List.replicate 30 [7, 10]) (.code 0) gorgeOrder
def gorgeStore : Store := (execAll gorgeCaps Store.init (gorgeTrace.map Prod.snd)).getD Store.init

theorem gorge_built : getWaiter gorgeConfig = .ok gorgeWaiter := by decide +kernel
theorem gorge_complete : Complete (gorge.map (·.2)) := complete_of (by decide +kernel) (by decide +kernel)
theorem gorge_runs : gorgeWaiter.Run [] gorgeCaps gorgeTrace := Waiter.runs_sound (by decide +kernel)
theorem gorge_calm : ∀ i, ∀ f ∈ acts (proj i gorgeTrace), f.trouble = false := gorge_runs.calm (by decide +kernel)
theorem gorge_store : execAll gorgeCaps Store.init (gorgeTrace.map Prod.snd) = some gorgeStore := by
  obtain ⟨st, h⟩ := Option.isSome_iff_exists.mp gorge_runs.exec.chans
  unfold gorgeStore
  rw [h]; rfl
theorem gorge_motionless : gorgeWaiter.Motionless [] gorgeCaps gorgeStore gorgeTrace := Waiter.motionless_sound gorge_store (by decide +kernel)

theorem gorge_unrested : ∀ i, gorgeWaiter.sys [] i ≠ none → ¬ gorgeWaiter.Resting [] gorgeStore gorgeTrace i := by
  intro i hi hr
  have he := sys_everyone hi
  rcases hr with (⟨inputs, pushs, spy, hn, _, h⟩ | ⟨r, rfl, _⟩) | ⟨_, h, _⟩
  · have hn : gorgeWaiter.node i = some (.junction inputs pushs spy) := hn
    have key : (gorgeWaiter.everyone []).all (fun i => match gorgeWaiter.node i with
        | some (.junction inputs pushs spy) => (Node.junction inputs pushs spy).sources.any fun s => decide (Act.ended s ∉ acts (proj i gorgeTrace)) && match s with
          | .chan c => !(gorgeStore .data c).q.isEmpty && decide ((Kind.data, c) ∉ closings (proj i gorgeTrace))
          | _ => false
        | _ => true) = true := by decide +kernel
    have := List.all_eq_true.mp key i he
    rw [hn] at this
    simp only [List.any_eq_true, Bool.and_eq_true, decide_eq_true_eq] at this
    obtain ⟨s, hs, h1, h2⟩ := this
    split at h2
    · next c =>
      rw [Bool.and_eq_true, decide_eq_true_eq] at h2
      simp [(h c hs ⟨h1, fun _ e => by cases e; exact h2.2⟩).1] at h2
    · cases h2
  · have key : (gorgeWaiter.everyone []).all (fun i => match i with
        | .part r .count => (gorgeWaiter.sys [] (.part r .count)).isNone
        | _ => true) = true := by decide +kernel
    have := List.all_eq_true.mp key _ he
    simp only [Option.isNone_iff_eq_none] at this
    exact hi this
  · cases h

/-- The same, with a buffer on the loop. -/
def pondCaps : Caps := realCaps (brook.map (·.2))
/-- Something comes from the file and the program prints a lot, then both wait. -/
def pondOrder : List Who :=
  let err : Who := .part (.launch, "wheel".toList) .error
  let rest : List Who := [.part (.junction, "fork".toList) .main, .part (.buffer, "pond".toList) .input, .part (.buffer, "pond".toList) .input, .part (.buffer, "pond".toList) .input,
    .part (.buffer, "pond".toList) .count, .part (.buffer, "pond".toList) .output, .part (.launch, "wheel".toList) .input, .part (.drain, "field".toList) .main]
  List.replicate 2 (.part (.faucet, "spring".toList) .main) ++ (List.replicate 4 ([err, err] ++ rest ++ rest ++ rest ++ rest)).flatten ++ (List.replicate 16 rest).flatten
def pondTrace : List (Who × Ev) := brookWaiter.drive [] pondCaps (fun h => if h = 0 then [[1, 10]] else List.replicate 30 [7, 10]) (.code 0) pondOrder
def pondStore : Store := (execAll pondCaps Store.init (pondTrace.map Prod.snd)).getD Store.init

theorem pond_runs : brookWaiter.Run [] pondCaps pondTrace := Waiter.runs_sound (by decide +kernel)
theorem pond_calm : ∀ i, ∀ f ∈ acts (proj i pondTrace), f.trouble = false := pond_runs.calm (by decide +kernel)
theorem pond_store : execAll pondCaps Store.init (pondTrace.map Prod.snd) = some pondStore := by
  obtain ⟨st, h⟩ := Option.isSome_iff_exists.mp pond_runs.exec.chans
  unfold pondStore
  rw [h]; rfl
theorem pond_motionless : brookWaiter.Motionless [] pondCaps pondStore pondTrace := Waiter.motionless_sound pond_store (by decide +kernel)
theorem pond_buffered : LoopsBuffered (brook.map (·.2)) := by
  let rank : Who → Nat
    | .part (.buffer, _) .output => 0
    | .part (.launch, _) .input => 1
    | .part (.launch, _) _ => 2
    | .part (.faucet, _) _ => 2
    | .part (.junction, _) _ => 3
    | _ => 4
  refine noReturn rank ?_
  intro a b h
  cases h with
  | hop h1 h2 => exact (show ∀ h ∈ brook.map (·.2), ¬ h.isExit → rank h.writer < rank h.reader by decide +kernel) _ h1 h2
  | program h1 h2 h3 => exact (show ∀ h ∈ brook.map (·.2), h.src.ty = .launch → ¬ h.isExit → rank (.part h.from .input) < rank h.writer by decide +kernel) _ h1 h2 h3

/-- What the program has printed has gone round to it. -/
example : receivedFrom (.chan 2) (proj (.part (.launch, "wheel".toList) .input) pondTrace) = [[1, 10], [7, 10], [7, 10], [7, 10], [7, 10]] ∧
    ∀ ch h, (brook.map (·.2))[ch]? = some h → (pondStore .data ch).q = [] :=
  ⟨by decide +kernel, fun _ _ => C82_plain (c := brookConfig) (R := brook) (order := []) rfl brook_built rfl brook_complete pond_buffered pond_runs pond_store pond_calm pond_motionless⟩

end Example

/-- **C82** Without a buffer on a loop things do get stuck: a pipeline, everything in it as it really is, in which nothing fails and nothing goes on any more, not even looking again, while a file's lines lie
in a channel to a junction, which waits for room in the channel to a program, which waits for what it has printed to be taken, which waits for room in a channel to the junction. -/
theorem C82_refuted : ∃ (c : Config) (R : Map Hop) (w : Waiter) (τ : List (Who × Ev)) (st : Store), c.connection = hopSets R ∧ getWaiter c = .ok w ∧ w.regulatorSettings [] = .ok ([], w) ∧
    Complete (R.map (·.2)) ∧ w.Run [] (realCaps (R.map (·.2))) τ ∧ execAll (realCaps (R.map (·.2))) Store.init (τ.map Prod.snd) = some st ∧
    (∀ i, ∀ f ∈ acts (proj i τ), f.trouble = false) ∧ w.Motionless [] (realCaps (R.map (·.2))) st τ ∧ (∀ i, w.sys [] i ≠ none → ¬ w.Resting [] st τ i) ∧
    ∃ ch h t, (R.map (·.2))[ch]? = some h ∧ h.src.ty = .faucet ∧ w.sys [] h.reader = some t ∧ ¬ t.Done (proj h.reader τ) ∧ (Kind.data, ch) ∉ closings (proj h.reader τ) ∧ (st .data ch).q = [[1, 10], [1, 10], [1, 10]] := by
  refine ⟨Example.gorgeConfig, Example.gorge, Example.gorgeWaiter, Example.gorgeTrace, Example.gorgeStore, rfl, Example.gorge_built, rfl, Example.gorge_complete, Example.gorge_runs,
    Example.gorge_store, Example.gorge_calm, Example.gorge_motionless, Example.gorge_unrested, 0, ?_⟩
  cases ht : Example.gorgeWaiter.sys [] (.part (.junction, "fork".toList) .main) with
  | none => exact absurd ht (by decide +kernel)
  | some t =>
    refine ⟨_, t, rfl, rfl, ht, ?_, by decide +kernel, by decide +kernel⟩
    intro hd
    have hq : (Example.gorgeWaiter.sys [] (.part (.junction, "fork".toList) .main)).map (fun t => t.waits (proj (.part (.junction, "fork".toList) .main) Example.gorgeTrace)) =
        some (some (.send .data 1 [7, 10])) := by decide +kernel
    rw [ht] at hq
    simp only [Option.map_some, Option.some.injEq] at hq
    exact hd.stops (u := []) ((Task.waits_awaits hq).step true)

end Verif
