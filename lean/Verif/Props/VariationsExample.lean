import Verif.Props.Variations
/-!
# Instances of C77, and what `T` does not do
-/
namespace Verif

/-- A program that writes four lines for a program that stops listening, and, apart from these, a file that is copied. -/
def fordHop (v : Breakable) : Hop := ⟨⟨.launch, "gen".toList, .out⟩, none, ⟨.launch, "head".toList⟩, ⟨v, 0⟩, none⟩
def ford (v : Breakable) : Map Hop :=
  [("a_1".toList, fordHop v), ("b_1".toList, ⟨⟨.faucet, "tap".toList, .out⟩, none, ⟨.drain, "pot".toList⟩, ⟨.terminate, 0⟩, none⟩)]
def fordConfig (v : Breakable) : Config where
  faucet := [("tap".toList, "-".toList)]
  drain := [("pot".toList, "-".toList)]
  regulator := []
  launch := [("gen".toList, ⟨some "gen".toList, none, [], []⟩), ("head".toList, ⟨some "head".toList, none, [], []⟩)]
  connection := hopSets (ford v)
def fordWaiter (v : Breakable) : Waiter := ((getWaiter (fordConfig v)).ok?).getD Waiter.new
theorem ford_built (v : Breakable) : getWaiter (fordConfig v) = .ok (fordWaiter v) := by cases v <;> decide +kernel
theorem ford_prepared (v : Breakable) : (fordWaiter v).regulatorSettings [] = .ok ([], fordWaiter v) := by cases v <;> decide +kernel
theorem ford_complete (v : Breakable) : Complete ((ford v).map (·.2)) := by cases v <;> exact complete_of (by decide +kernel) (by decide +kernel)

def fordGen : Who := .part (.launch, "gen".toList) .output
def fordHead : Who := .part (.launch, "head".toList) .input
def fordTap : Who := .part (.faucet, "tap".toList) .main
def fordPot : Who := .part (.drain, "pot".toList) .main

/-- As `Waiter.turn`, but the program that stops listening has closed its input. -/
def fordTurn (v : Breakable) (i : Who) (τ : List (Who × Ev)) : List (Who × Ev) :=
  match (fordWaiter v).sys [] i, execAll (realCaps ((ford v).map (·.2))) Store.init (τ.map Prod.snd) with
  | some t, some st => match t.replay (proj i τ) with
    | some (.inr q) => match (if i = fordHead then (match q with | .ioWrite h d => some ⟨.ioWrite h d, .brokenPipe⟩ | _ => none) else none : Option Ev) with
      | some e => τ ++ [(i, e)]
      | none => match answer (realCaps ((ford v).map (·.2))) st (fun h => if h = 1 then [[1, 10], [2, 10], [3, 10], [4, 10]] else if h = 3 * (fordWaiter v).idOf (.faucet, "tap".toList) then [[7, 10]] else []) (readsOf τ) .err q with
        | some r => τ ++ [(i, ⟨q, r⟩)]
        | none => τ
    | some (.inl (_, rest)) => match (dropEvs t.drops)[rest.length]? with
      | some e => τ ++ [(i, e)]
      | none => τ
    | none => τ
  | _, _ => τ

/-- First the two programs, then the copying. -/
def fordFirst (v : Breakable) : List (Who × Ev) := (List.replicate 10 [fordGen, fordGen, fordHead, fordHead, fordHead]).flatten.foldl (fun τ i => fordTurn v i τ) []
def fordTrace (v : Breakable) : List (Who × Ev) := (List.replicate 10 [fordTap, fordPot]).flatten.foldl (fun τ i => fordTurn v i τ) (fordFirst v)

theorem ford_runs (v : Breakable) : (fordWaiter v).Run [] (realCaps ((ford v).map (·.2))) (fordTrace v) := by cases v <;> exact Waiter.runs_sound (by decide +kernel)
theorem ford_over (v : Breakable) : (fordWaiter v).Over [] (fordTrace v) := by cases v <;> exact Waiter.overNow_sound (by decide +kernel)

/-- What comes after the two programs. -/
def fordRest (v : Breakable) : List (Who × Ev) := (fordTrace v).drop (fordFirst v).length
theorem ford_split (v : Breakable) : fordTrace v = fordFirst v ++ fordRest v := by cases v <;> decide +kernel

/-- **C77, refuted** The README says that `T` terminates Pipeawesome. The code goes on: in this run a pipe with `T` is refused a line because the program at its end has closed its input, and
after that a line is read from a file, passed on and written. -/
theorem C77_terminate_refuted : ∃ (c : Config) (R : Map Hop) (w w' : Waiter) (cs : List Capture) (cap : Caps) (τ₁ τ₂ : List (Who × Ev)) (h g : Hop) (ch ch' : Nat) (d d' : Bytes),
    c.connection = hopSets R ∧ getWaiter c = .ok w ∧ w.regulatorSettings [] = .ok (cs, w') ∧ Complete (R.map (·.2)) ∧ w'.RunWith cs (fun _ => false) cap (τ₁ ++ τ₂) ∧
    w'.OverWith cs (fun _ => false) (τ₁ ++ τ₂) ∧
    (R.map (·.2))[ch]? = some h ∧ ¬ h.isExit ∧ h.input.breakable = .terminate ∧ (h.writer, ⟨.send .data ch d, false⟩) ∈ τ₁ ∧
    (R.map (·.2))[ch']? = some g ∧ received (proj g.writer τ₁) = [] ∧ received (proj g.writer τ₂) = [d'] ∧ (∃ x, Act.offer (.handle x) d' .ok ∈ acts (proj g.reader τ₂)) := by
  have e := ford_split .terminate
  have hr := (ford_runs .terminate).plain
  have ho := (ford_over .terminate).plain
  rw [e] at hr ho
  refine ⟨fordConfig .terminate, ford .terminate, _, _, [], _, fordFirst .terminate, fordRest .terminate, fordHop .terminate, ((ford .terminate).map (·.2))[1], 0, 1, [3, 10], [7, 10],
    rfl, ford_built _, ford_prepared _, ford_complete _, hr, ho, rfl, by decide +kernel, rfl, by decide +kernel, rfl, by decide +kernel, by decide +kernel, ?_⟩
  exact ⟨9, by decide +kernel⟩

/-- Where the line is refused. -/
theorem ford_refused (v : Breakable) : ∃ τ₁ τ₂, fordTrace v = τ₁ ++ ((fordHop v).writer, ⟨.send .data 0 [3, 10], false⟩) :: τ₂ :=
  List.append_of_mem (by cases v <;> decide +kernel)

/-- With `T` the first program is to blame. -/
example : ∀ out, (fordWaiter .terminate).Returns [] (fun _ => false) (fordTrace .terminate) out → ¬ ∃ n, out = some (.ok n) := by
  obtain ⟨τ₁, τ₂, h⟩ := ford_refused .terminate
  exact fun out ho => ((C77_terminate_partial (ch := 0) (h := fordHop .terminate) rfl (ford_built _) (ford_prepared _) (ford_complete _) (ford_runs _).plain rfl rfl h).2 out ho).1

/-- With `C` all of the four lines are read and tried, although nobody listens for the last ones. -/
example : Act.ended (.handle 1) ∈ acts (proj fordGen (fordTrace .consume)) ∧ offeredTo (.chan 0) (proj fordGen (fordTrace .consume)) = received (proj fordGen (fordTrace .consume)) := by
  have h := C77_consume (R := ford .consume) (h := fordHop .consume) (i := fordGen) (c := fordConfig .consume) rfl (ford_built _) (ford_prepared _) (ford_complete _) (ford_runs _).plain
    (by simp [ford]) (by decide) (by decide) (Or.inl rfl) rfl (fun t ht => (ford_over .consume).plain _ t ht) (by
      intro hq
      obtain ⟨a, ha, ht⟩ := C77_forgiving (R := ford .consume) (c := fordConfig .consume) (i := fordGen) rfl (ford_built _) (ford_prepared _) (ford_complete _) (ford_runs _).plain (by
        intro h hh hf
        obtain ⟨p, hp⟩ := hf.part
        simp only [ford, List.map_cons, List.map_nil, List.mem_cons, List.not_mem_nil, or_false] at hh
        rcases hh with rfl | rfl
        · exact ⟨by decide, by decide⟩
        · exact absurd hp (by simp [fordGen, Hop.from])) hq
      exact absurd ht ((show ∀ a ∈ acts (proj fordGen (fordTrace .consume)), ¬ a.trouble = true by decide +kernel) a ha))
  exact ⟨h.1 (fordHop .consume) (by simp [ford]) rfl 1 (by decide +kernel), h.2.2 0 _ rfl rfl⟩
example : received (proj fordGen (fordTrace .consume)) = [[1, 10], [2, 10], [3, 10], [4, 10]] ∧ acceptedBy (.chan 0) (proj fordGen (fordTrace .consume)) = [[1, 10], [2, 10]] := by decide +kernel

/-- With `F` the rest of the lines is not read. -/
example : ∃ a b, proj fordGen (fordTrace .finish) = a ++ ⟨.send .data 0 [3, 10], false⟩ :: b ∧ received b = [] ∧ offers b = [] := by
  obtain ⟨a, b, h⟩ := List.append_of_mem (show (⟨.send .data 0 [3, 10], false⟩ : Ev) ∈ proj fordGen (fordTrace .finish) by decide +kernel)
  exact ⟨a, b, h, C77_gives_up (R := ford .finish) (h := fordHop .finish) (c := fordConfig .finish) (i := fordGen) rfl (ford_built _) (ford_prepared _) (ford_complete _) (ford_runs _).plain
    (by simp [ford]) (by decide) (by decide) (by decide) (Or.inl rfl) h rfl⟩

/-- The second program's input has ended before the third line is written for it. -/
example : ∀ x ∈ fordRest .consume, ∀ d, x.2 ≠ ⟨.send .data 0 d, true⟩ := by
  have hr := (ford_runs .consume).plain
  rw [ford_split] at hr
  refine C77_closes (R := ford .consume) (g := fordHop .consume) (c := fordConfig .consume) rfl (ford_built _) (ford_prepared _) (ford_complete _) hr rfl fun t ht => ?_
  have := (ford_over .consume).plain _ t ht
  rwa [show proj (fordHop .consume).reader (fordTrace .consume) = proj (fordHop .consume).reader (fordFirst .consume) by decide +kernel] at this

/-- And what is done after something fatal: the first program's output lets go. -/
example : ∃ a b e, proj fordGen (fordTrace .terminate) = a ++ e :: b ∧ ∀ x ∈ b, ∃ k ch, x = ⟨.close k ch, ()⟩ := by
  obtain ⟨a, b, h⟩ := List.append_of_mem (show (⟨.send .data 0 [3, 10], false⟩ : Ev) ∈ proj fordGen (fordTrace .terminate) by decide +kernel)
  exact ⟨a, b, _, h, C77_stops (R := ford .terminate) (c := fordConfig .terminate) rfl (ford_built _) (ford_prepared _) (ford_complete _) (ford_runs _).plain h
    (Or.inl ⟨fordHop .terminate, rfl, Or.inr rfl⟩)⟩

end Verif
