import Verif.Lemmas.Transit
import Verif.Props.Jam
/-!
# Property C83: without buffers only so much can be on its way
-/
namespace Verif

section
variable {c : Config} {R : Map Hop} {w w' : Waiter} {order : List (Str × Watch)} {cs : List Capture} {τ : List (Who × Ev)}

/-- **C83** At every moment of every run, along any way through regulators and junctions: what was put in at its beginning is at most as much more than what was taken out at its end as fits into the hops
and the hands of the components between them, as long as nothing on the way was found closed. -/
theorem C83_bounded (hc : c.connection = hopSets R) (hw : getWaiter c = .ok w) (hp : w.regulatorSettings order = .ok (cs, w')) (hC : Complete (R.map (·.2)))
    (hr : w'.Run cs (realCaps (R.map (·.2))) τ) {a b n : Nat} {l : List Nat} {g h : Hop} (hl : Along (R.map (·.2)) [.regulator, .junction] (a :: l) n)
    (hb : (a :: l).getLast? = some b) (hg : (R.map (·.2))[a]? = some g) (hh : (R.map (·.2))[b]? = some h) (ho : ∀ ch ∈ l, ∀ x ∈ τ, ∀ d, x.2 ≠ ⟨.send .data ch d, false⟩) :
    (acceptedBy (.chan a) (proj g.writer τ)).length ≤ (receivedFrom (.chan b) (proj h.reader τ)).length + n := by
  have A := assembled hc hw hp
  generalize hL : a :: l = L at hl hb
  induction hl generalizing a l g with
  | hop h1 =>
    cases hL
    rw [List.getLast?_singleton, Option.some.injEq] at hb
    subst hb
    rw [hh] at h1 hg; cases h1; cases hg
    exact (A.hopHolds hC hr hh).2
  | @next a' b' n l' g' h' h1 h2 h3 h4 h5 ih =>
    simp only [List.cons.injEq] at hL
    obtain ⟨rfl, rfl⟩ := hL
    rw [hg] at h1
    obtain rfl := Option.some.inj h1
    have i1 := ih h2 (fun ch hch => ho ch (List.mem_cons_of_mem _ hch)) rfl (by simpa using hb)
    have i2 := (A.hopHolds hC hr hg).2
    obtain ⟨e, k, hk, Q, hs, ht⟩ := A.between hC hr hg h2 h3 h4
    have i3 := (Q.copies _ ht).2
    have i4 := receivedFrom_received (.chan a) (proj h'.writer τ)
    rw [← accepted_all fun d hd => ho b' (by simp) (h'.writer, _) (mem_proj.mp hd) d rfl] at i3
    rw [e] at i2
    omega

/-- **C83**, between what comes from files and programs and what goes to files and programs: the lines read from the one are at most by so many more than those written to the other. -/
theorem C83_ahead (hc : c.connection = hopSets R) (hw : getWaiter c = .ok w) (hp : w.regulatorSettings order = .ok (cs, w')) (hC : Complete (R.map (·.2)))
    (hr : w'.Run cs (realCaps (R.map (·.2))) τ) {a b n s : Nat} {l : List Nat} {g h : Hop} (hl : Along (R.map (·.2)) [.regulator, .junction] (a :: l) n)
    (hb : (a :: l).getLast? = some b) (hg : (R.map (·.2))[a]? = some g) (hh : (R.map (·.2))[b]? = some h) (hs : g.stream w'.idOf = some s)
    (ho : ∀ ch ∈ a :: l, ∀ x ∈ τ, ∀ d, x.2 ≠ ⟨.send .data ch d, false⟩)
    {m : Node} {t : End} (hm : w'.node h.reader = some m) (ht : t ∈ m.targets) :
    (receivedFrom (.handle s) (proj g.writer τ)).length ≤ (offeredTo t (proj h.reader τ)).length + n + 2 := by
  have A := assembled hc hw hp
  obtain ⟨e, u⟩ := A.run hC hr
  have i1 := C83_bounded hc hw hp hC hr hl hb hg hh fun ch hch => ho ch (List.mem_cons_of_mem _ hch)
  obtain ⟨k, hk, hs'⟩ := A.writerStream (List.mem_of_getElem? hg) hs
  have hx : ¬ g.isExit := by
    rintro ⟨h1, h2⟩
    simp [Hop.stream, h1, h2] at hs
  have hta : .chan a ∈ k.targets := (A.targets (r := g.from) hk a).mpr (Or.inl ⟨g, hg, rfl⟩)
  have i2 := ((w'.net.conduct (A.wired hC) e hk).copies _ hta).2
  rw [← accepted_all fun d hd => ho a (by simp) (g.writer, _) (mem_proj.mp hd) d rfl] at i2
  have i3 := receivedFrom_received (.handle s) (proj g.writer τ)
  have i4 := ((w'.net.conduct (A.wired hC) e (i := h.reader) hm).copies _ ht).2
  have i5 := receivedFrom_received (.chan b) (proj h.reader τ)
  omega

/-- **C83**, from any moment on, along any way through regulators: what is taken out at its end is at most by so much more than what is put in at its beginning. -/
theorem C83_since (hc : c.connection = hopSets R) (hw : getWaiter c = .ok w) (hp : w.regulatorSettings order = .ok (cs, w')) (hC : Complete (R.map (·.2)))
    {τ₁ τ₂ : List (Who × Ev)} (hr : w'.Run cs (realCaps (R.map (·.2))) (τ₁ ++ τ₂)) {a b n : Nat} {l : List Nat} {g h : Hop} (hl : Along (R.map (·.2)) [.regulator] (a :: l) n)
    (hb : (a :: l).getLast? = some b) (hg : (R.map (·.2))[a]? = some g) (hh : (R.map (·.2))[b]? = some h) :
    (receivedFrom (.chan b) (proj h.reader τ₂)).length ≤ (acceptedBy (.chan a) (proj g.writer τ₂)).length + n := by
  have A := assembled hc hw hp
  have hr1 : w'.Run cs (realCaps (R.map (·.2))) τ₁ := hr.initial
  generalize hL : a :: l = L at hl hb
  have one : ∀ {i : Nat} {f : Hop}, (R.map (·.2))[i]? = some f →
      (receivedFrom (.chan i) (proj f.reader τ₂)).length ≤ (acceptedBy (.chan i) (proj f.writer τ₂)).length + f.room := by
    intro i f hf
    have j1 := (A.hopHolds hC hr hf).1
    have j2 := (A.hopHolds hC hr1 hf).2
    simp only [proj_append, receivedFrom_append, acceptedBy_append, List.length_append] at j1
    omega
  induction hl generalizing a l g with
  | hop h1 =>
    cases hL
    rw [List.getLast?_singleton, Option.some.injEq] at hb
    subst hb
    rw [hh] at h1 hg; cases h1; cases hg
    exact one hh
  | @next a' b' n l' g' h' h1 h2 h3 h4 h5 ih =>
    simp only [List.cons.injEq] at hL
    obtain ⟨rfl, rfl⟩ := hL
    rw [hg] at h1
    obtain rfl := Option.some.inj h1
    have i1 := ih h2 rfl (by simpa using hb)
    have i2 := one hg
    have h4 : g.to.1 = .regulator := by simpa using h4
    obtain ⟨e, k, hk, Q, hs, ht⟩ := A.between hC hr hg h2 h3 (by simp [h4])
    obtain ⟨_, k1, hk1, Q1, _, ht1⟩ := A.between hC hr1 hg h2 h3 (by simp [h4])
    have hn : w'.node g.reader = some k := by rw [e]; exact hk
    have only : ∀ tr, (∀ s d, Act.got s d ∈ acts tr → s ∈ k.sources) → receivedFrom (.chan a) tr = received tr := fun tr hq =>
      receivedFrom_only fun s' d hd => by
        have := hq s' d hd
        rw [A.regulatorSource hC hg h4 hn] at this
        simpa using this
    have j0 := only (proj h'.writer τ₂) fun s d hd => Q.got s d (by rw [proj_append, acts_append]; exact List.mem_append_right _ hd)
    have j1 := (Q.copies _ ht).1.length_le
    have j2 := (Q1.copies _ ht1).2
    have j3 := accepted_offered (.chan b') (proj h'.writer τ₂)
    simp only [proj_append, received_append, offeredTo_append, List.length_append] at j1
    rw [e, j0] at i2
    omega

end

namespace Example

def flumeIn : Hop := ⟨⟨.faucet, "spring".toList, .out⟩, none, ⟨.junction, "fork".toList⟩, ⟨.terminate, 0⟩, none⟩
def flumeOut : Hop := ⟨⟨.junction, "fork".toList, .out⟩, none, ⟨.drain, "lake".toList⟩, ⟨.terminate, 0⟩, none⟩
/-- A file, a junction, a file. -/
def flume : List (Str × Hop) :=
  [("m_1".toList, flumeIn),
   ("m_2".toList, flumeOut)]
def flumeConfig : Config where
  faucet := [("spring".toList, "-".toList)]
  regulator := []
  drain := []
  launch := []
  connection := hopSets flume
def flumeWaiter : Waiter := ((getWaiter flumeConfig).ok?).getD Waiter.new
def flumeCaps : Caps := realCaps (flume.map (·.2))
/-- The drain takes one message and is held up; everything else goes on for as long as it can. -/
def flumeOrder : List Who :=
  let spring : Who := .part (.faucet, "spring".toList) .main
  let fork : Who := .part (.junction, "fork".toList) .main
  let lake : Who := .part (.drain, "lake".toList) .main
  let round := [spring, spring, fork, fork, fork, fork]
  round ++ [lake] ++ (List.replicate 11 round).flatten ++ List.replicate 20 spring
def flumeTrace : List (Who × Ev) := flumeWaiter.drive [] flumeCaps (fun _ => List.replicate 30 [7, 10]) (.code 0) flumeOrder

theorem flume_built : getWaiter flumeConfig = .ok flumeWaiter := by decide +kernel
theorem flume_complete : Complete (flume.map (·.2)) := complete_of (by decide +kernel) (by decide +kernel)
theorem flume_runs : flumeWaiter.Run [] flumeCaps flumeTrace := Waiter.runs_sound (by decide +kernel)
theorem flume_along : Along (flume.map (·.2)) [.regulator, .junction] [0, 1] 17 := by
  have h := Along.next (hs := flume.map (·.2)) (via := [.regulator, .junction]) (a := 0) (b := 1) (l := []) (h := flumeOut)
      (g := flumeIn) rfl rfl rfl (by decide +kernel) (.hop rfl)
  exact h

theorem flume_open : ∀ ch ∈ [0, 1], ∀ x ∈ flumeTrace, ∀ d, x.2 ≠ ⟨.send .data ch d, false⟩ := by
  have hall : flumeTrace.all (fun x => match x.2 with | ⟨.send .data _ _, r⟩ => r | _ => true) = true := by decide +kernel
  intro ch _ x hx d he
  have := List.all_eq_true.mp hall x hx
  rw [he] at this
  simp at this

/-- The hypotheses of `C83_bounded` are met; that much has got ahead. -/
example : (acceptedBy (.chan 0) (proj (.part (.faucet, "spring".toList) .main) flumeTrace)).length = 18 ∧ 18 ≤ (receivedFrom (.chan 1) (proj (.part (.drain, "lake".toList) .main) flumeTrace)).length + 17 :=
  have h1 : (acceptedBy (.chan 0) (proj (.part (.faucet, "spring".toList) .main) flumeTrace)).length = 18 := by decide +kernel
  ⟨h1, h1 ▸ (C83_bounded (c := flumeConfig) (R := flume) (order := []) (b := 1) (g := flumeIn) (h := flumeOut) rfl flume_built rfl flume_complete flume_runs flume_along rfl rfl rfl
    fun ch hch => flume_open ch (List.mem_cons_of_mem _ hch))⟩

end Example

/-- **C83** This much does get ahead: nineteen lines are read from a file, two hops and a junction away from another, and nothing is written. -/
theorem C83_reached : ∃ (c : Config) (R : Map Hop) (w : Waiter) (τ : List (Who × Ev)) (g h : Hop) (s n : Nat) (m : Node) (t : End), c.connection = hopSets R ∧ getWaiter c = .ok w ∧
    w.regulatorSettings [] = .ok ([], w) ∧ Complete (R.map (·.2)) ∧ w.Run [] (realCaps (R.map (·.2))) τ ∧ Along (R.map (·.2)) [.regulator, .junction] [0, 1] n ∧
    (R.map (·.2))[0]? = some g ∧ (R.map (·.2))[1]? = some h ∧ g.stream w.idOf = some s ∧ w.node h.reader = some m ∧ t ∈ m.targets ∧
    (∀ ch ∈ [0, 1], ∀ x ∈ τ, ∀ d, x.2 ≠ ⟨.send .data ch d, false⟩) ∧
    (receivedFrom (.handle s) (proj g.writer τ)).length = (offeredTo t (proj h.reader τ)).length + n + 2 := by
  obtain ⟨m, hm, hs, ht⟩ := (assembled (c := Example.flumeConfig) (R := Example.flume) (order := []) rfl Example.flume_built rfl).readerStream (i := 1) (h := Example.flumeOut) rfl (Or.inr rfl)
  refine ⟨Example.flumeConfig, Example.flume, Example.flumeWaiter, Example.flumeTrace, _, _, _, 17, m, .handle 6, rfl, Example.flume_built, rfl, Example.flume_complete, Example.flume_runs,
    Example.flume_along, rfl, rfl, rfl, hm, ?_, Example.flume_open, by decide +kernel⟩
  have : (Example.flumeWaiter.node (.part (.drain, "lake".toList) .main)).map Node.targets = some [.handle 6] := by decide +kernel
  have hm : Example.flumeWaiter.node (.part (.drain, "lake".toList) .main) = some m := hm
  rw [hm] at this
  simp only [Option.map_some, Option.some.injEq] at this
  rw [this]; simp

end Verif
