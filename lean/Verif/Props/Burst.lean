import Verif.Lemmas.Burst
import Verif.Props.Unheard
/-!
# Property C100: a buffer that cannot hand on what it holds keeps its regulator from ever going on
-/
namespace Verif

section
variable {c : Config} {R : Map Hop} {w w' : Waiter} {order : List (Str × Watch)} {cs : List Capture} {cap : Caps} {st : Store} {bad : CompRef → Bool} {τ τ' : List (Who × Ev)}

/-- **C100** A buffer holds more than the low watermark of its regulator, which feeds it and has been told to wait, and the half of the buffer that hands on has ended. Then, whatever happens, everything
stays like that: the regulator and the buffer's halves do not act again, the manager does not tell the regulator to go on, and the program does not end. -/
theorem C100_stuck (hc : c.connection = hopSets R) (hw : getWaiter c = .ok w) (hp : w.regulatorSettings order = .ok (cs, w')) (hC : Complete (R.map (·.2)))
    {a : Capture} (ha : a ∈ cs) {x : Str} (hx : x ∈ a.buffers) {i : Nat} {h : Hop} (hi : (R.map (·.2))[i]? = some h) (hf : h.from = (.regulator, a.regulator)) (ht : h.to = (.buffer, x))
    (hb : ∀ r, r.1 = .faucet → c.Opens r → bad r = false)
    (hst : execAll cap Store.init (τ.map Prod.snd) = some st) (B : w'.Burst (w'.sysWith cs bad) st τ a x i) (hr : w'.RunWith cs bad cap (τ ++ τ')) :
    (∀ y ∈ τ', y.1 ≠ .part (.regulator, a.regulator) .main ∧ y.1 ≠ .part (.buffer, x) .input ∧ y.1 ≠ .part (.buffer, x) .output) ∧
    (∃ st', execAll cap Store.init ((τ ++ τ').map Prod.snd) = some st' ∧ w'.Burst (w'.sysWith cs bad) st' (τ ++ τ') a x i) ∧ ∀ out, ¬ w'.Returns cs bad (τ ++ τ') out := by
  have A := assembled hc hw hp
  have T := A.attended_shutting (bad := bad) hC (attended hc hw hp)
  have hS := shutting_sys (cs := cs) (A.opened hb)
  have S := A.shutting (bad := bad)
  have burst : ∀ {st τ}, (w'.shutting bad).Burst ((w'.shutting bad).sys cs) st τ a x i ↔ w'.Burst (w'.sysWith cs bad) st τ a x i := by
    intro st τ
    rw [hS]
    exact ⟨fun ⟨h1, h2, h3, h4, h5, h6, h7, h8, h9⟩ => ⟨h1, h2, h3, h4, h5, h6, h7, h8, h9⟩, fun ⟨h1, h2, h3, h4, h5, h6, h7, h8, h9⟩ => ⟨h1, h2, h3, h4, h5, h6, h7, h8, h9⟩⟩
  have key : ∀ l τ st, execAll cap Store.init (τ.map Prod.snd) = some st → w'.Burst (w'.sysWith cs bad) st τ a x i → (w'.shutting bad).Run cs cap (τ ++ l) →
      (∀ y ∈ l, y.1 ≠ .part (.regulator, a.regulator) .main ∧ y.1 ≠ .part (.buffer, x) .input ∧ y.1 ≠ .part (.buffer, x) .output) ∧
      ∃ st', execAll cap Store.init ((τ ++ l).map Prod.snd) = some st' ∧ w'.Burst (w'.sysWith cs bad) st' (τ ++ l) a x i := by
    intro l
    induction l with
    | nil => intro τ st h1 h2 _; exact ⟨by simp, st, by simpa using h1, by simpa using h2⟩
    | cons y l ih =>
      obtain ⟨j, e⟩ := y
      intro τ st h1 h2 h3
      rw [← List.singleton_append, ← List.append_assoc] at h3
      obtain ⟨g1, st', g2, g3⟩ := S.burst_step hC T ha hx hi hf ht h3.initial h1 (burst.mpr h2)
      obtain ⟨k1, k2⟩ := ih _ st' g2 (burst.mp g3) h3
      rw [List.append_assoc, List.singleton_append] at k2
      refine ⟨?_, k2⟩
      intro y hy
      rcases List.mem_cons.mp hy with rfl | hy
      · exact g1
      · exact k1 y hy
  obtain ⟨k1, st', k2, k3⟩ := key τ' τ st hst B ((shutting_run hS).mpr hr)
  refine ⟨k1, ⟨st', k2, k3⟩, ?_⟩
  rintro out ⟨ho, _⟩
  obtain ⟨t, h1, h2⟩ := k3.paused
  exact (ho _ t h1).no_awaits h2 (some ())

end
end Verif
