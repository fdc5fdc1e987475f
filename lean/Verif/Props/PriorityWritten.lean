import Verif.Props.Priority
import Verif.Props.ExitExample
/-!
# C103: the numbers in a configuration as it is written

Where several connections end, a junction is put in; it serves them by their numbers.
-/
namespace Verif

theorem receivedFrom_over {hs : List Hop} {n : Int} {ch : Nat} {h : Hop} (hh : hs[ch]? = some h) (hn : n < h.input.priority) (tr : List Ev) :
    (receivedFrom (.chan ch) tr).length ≤ (takenOver hs n tr).length := by
  induction tr with
  | nil => simp [receivedFrom, takenOver]
  | cons e tr ih =>
    unfold receivedFrom takenOver at ih ⊢
    simp only [acts, List.map_cons, List.filterMap_cons] at ih ⊢
    cases ha : act e with
    | got s d =>
      cases s with
      | handle k => simpa [ha] using ih
      | chan ch' =>
        by_cases hc : ch' = ch
        · subst hc
          simpa [hh, hn] using ih
        · simp only [End.chan.injEq, hc, if_false]
          refine Nat.le_trans ih ?_
          split <;> simp
    | _ => simpa using ih

/-- Channel `ch` leads into `j` for the hop `h` of the configuration as it is written: with its number, and from where it starts, or from the junction put in there. -/
def Carries (hs : List Hop) (j : CompRef) (ch : Nat) (h : Hop) : Prop :=
  ∃ h', hs[ch]? = some h' ∧ h'.to = j ∧ h'.input = h.input ∧ (h'.src = h.src ∨ ∃ e ∈ hs, e.src = h.src ∧ e.to = h'.from ∧ h'.src.ty = .junction)

section
variable {c c' : Config} {hs : List Hop} {perm : List OutRef → List OutRef} {perm' : List InRef → List InRef} {spyOrder : List Str → List Str} {printed : List Str}
  {w w' : Waiter} {order : List (Str × Watch)} {cs : List Capture} {cap : Caps} {bad : CompRef → Bool}

/-- **C103** In terms of the configuration as it is written: two connections that end at the same component with different numbers lead into one junction, from which that component gets its input. As long as there
is something of the one with the smaller number, at most one message of the other is taken, unless the component has closed its input. -/
theorem C103_written (hS : c.Sound hs) (hp : ∀ l, (perm l).Perm l) (hp' : ∀ l, (perm' l).Perm l) (ho : ∀ l, (spyOrder l).Perm l)
    (hm : manipulate perm perm' spyOrder c = some (c', printed)) (hw : getWaiter c' = .ok w) (hq : w.regulatorSettings order = .ok (cs, w'))
    {f g : Hop} (hf : f ∈ hs) (hg : g ∈ hs) (hfg : f.dst = g.dst) (hlt : g.input.priority < f.input.priority) :
    ∃ (R' : Map Hop) (j : CompRef) (ch₁ ch₂ o : Nat) (x : Hop), c'.connection = hopSets R' ∧ j.1 = .junction ∧
      Carries (R'.map (·.2)) j ch₁ f ∧ Carries (R'.map (·.2)) j ch₂ g ∧ (R'.map (·.2))[o]? = some x ∧ x.from = j ∧ x.dst = f.dst ∧
      ∀ τ₁ τ₂, w'.RunWith cs bad cap (τ₁ ++ τ₂) → (∀ υ, υ <+: τ₂ → Waits cap (τ₁ ++ υ) ch₂) → ¬ Gone cap (τ₁ ++ τ₂) o →
        (receivedFrom (.chan ch₁) (proj (.part j .main) τ₂)).length ≤ 1 := by
  obtain ⟨M, R, R', S, E, T, drain', printed', h1, P, h3⟩ := hS.laid hp hp' ho
  rw [hm] at h1
  cases h1
  have hC := P.complete hS.hops hS.complete
  obtain ⟨bf, nf, hfh⟩ := (hS.hops f).mp hf
  obtain ⟨bg, ng, hgh⟩ := (hS.hops g).mp hg
  have hMf := (P.hops _ _).mpr ⟨bf, nf, hfh, (counted_iff (by omega) _).mpr rfl⟩
  have hMg := (P.hops _ _).mpr ⟨bg, ng, hgh, (counted_iff (by omega) _).mpr rfl⟩
  obtain ⟨f', f1, f2, f3, f4⟩ := P.ins.old _ _ hMf
  obtain ⟨g', g1, g2, g3, g4⟩ := P.ins.old _ _ hMg
  have mem : ∀ {k h}, R.get k = some h → h ∈ R'.map (·.2) := fun {k h} hk => (lists_map P.sorted' _).mpr ⟨_, P.kept _ _ hk⟩
  have carried : ∀ {h h' : Hop}, h'.src = newSrc S h.src → (h'.src = h.src ∨ ∃ e ∈ R'.map (·.2), e.src = h.src ∧ e.to = h'.from ∧ h'.src.ty = .junction) := by
    intro h h' e
    rcases newSrc_cases S h.src with ⟨x, hx, e1, e2⟩ | ⟨_, e2⟩
    · right
      obtain ⟨_, _, q⟩ := P.ins.starts x hx
      refine ⟨_, mem q, e1, ?_, by rw [e, e2]⟩
      simp [Hop.to, Hop.from, e, e2]
    · left; rw [e, e2]
  rcases newDst_cases E f.dst with ⟨y, hy, e1, e2⟩ | ⟨_, e2⟩
  · obtain ⟨_, _, q⟩ := P.ins.ends y hy
    obtain ⟨ch₁, hc1⟩ := List.getElem?_of_mem (mem f1)
    obtain ⟨ch₂, hc2⟩ := List.getElem?_of_mem (mem g1)
    obtain ⟨o, hco⟩ := List.getElem?_of_mem (mem q)
    have ft : f'.to = (.junction, y.junction) := by simp [Hop.to, f3, e2]
    have gt : g'.to = (.junction, y.junction) := by simp [Hop.to, g3, ← hfg, e2]
    refine ⟨R', (.junction, y.junction), ch₁, ch₂, o, _, rfl, rfl, ⟨f', hc1, ft, f4, carried f2⟩, ⟨g', hc2, gt, g4, carried g2⟩, hco, rfl, e1, ?_⟩
    intro τ₁ τ₂ hr hfull hopen
    refine Nat.le_trans (receivedFrom_over hc1 (n := g'.input.priority) (by rw [f4, g4]; exact hlt) _) ?_
    exact C103_served rfl hw hq hC rfl hr hc2 gt ⟨o, _, hco, rfl, fun h => hopen h.2⟩ hfull
  · exfalso
    have := (P.one _ _ f' g' f1 g1).2 (by rw [f3, g3, hfg]) (by rw [f3, e2]; exact JunctionIn.dst hMf)
    rw [this] at hMf
    rw [hMf] at hMg
    cases hMg
    omega

end

section Example

/-- Both pipes of the example end at the program, with the numbers 0 and 5. -/
example {bad : CompRef → Bool} {cap : Caps} : ∃ (c' : Config) (R' : Map Hop) (j : CompRef) (ch₁ ch₂ o : Nat) (x : Hop), c'.connection = hopSets R' ∧ j.1 = .junction ∧
    Carries (R'.map (·.2)) j ch₁ twoHops[2] ∧ Carries (R'.map (·.2)) j ch₂ twoHops[0] ∧ (R'.map (·.2))[o]? = some x ∧ x.from = j ∧ x.dst = ⟨.launch, "x".toList⟩ ∧
    ∀ τ₁ τ₂, twoWaiter.RunWith [] bad cap (τ₁ ++ τ₂) → (∀ υ, υ <+: τ₂ → Waits cap (τ₁ ++ υ) ch₂) → ¬ Gone cap (τ₁ ++ τ₂) o →
      (receivedFrom (.chan ch₁) (proj (.part j .main) τ₂)).length ≤ 1 := by
  obtain ⟨c', printed, h1, h2⟩ := two_made
  obtain ⟨R', h⟩ := C103_written (bad := bad) (cap := cap) twoPipes_sound (fun _ => .refl _) (fun _ => .refl _) (fun _ => .refl _) h1 h2 (order := []) rfl
    (f := twoHops[2]) (g := twoHops[0]) (List.getElem_mem _) (List.getElem_mem _) rfl (by decide)
  exact ⟨c', R', h⟩

end Example
end Verif
