import Verif.Lemmas.Shut
import Verif.Lemmas.Ruin
import Verif.Model.Unopened
import Verif.Props.BufferRuntime
import Verif.Props.UnopenedEnds
import Verif.Props.JunctionFails
/-!
# Property C98: whatever fails, pipelines whose junctions write to pipes of variation `C` or `F` only end, and `start` says what failed
-/
namespace Verif

section
variable {c : Config} {R : Map Hop} {w w' : Waiter} {order : List (Str × Watch)} {cs : List Capture} {cap : Caps} {bad : CompRef → Bool} {τ : List (Who × Ev)} {σ : Nat → Option (Who × Ev)}

/-- What a junction cannot get over, in terms of its outputs and in terms of the pipes. -/
theorem fatal_of_ruins {S : End → Prop} {pushs : List Push} (hp : ∀ p ∈ pushs, p.Fits S) {f : Act} (h : f.ruins pushs = true) : f.fatal S := by
  cases f with
  | offer t d r =>
    cases r with
    | ok => cases h
    | other => exact trivial
    | closed =>
      simp only [Act.ruins, List.any_eq_true, Bool.and_eq_true, beq_iff_eq] at h
      obtain ⟨p, hm, ht, hb⟩ := h
      exact (hp p hm t ht).mpr hb
  | readErr => exact trivial
  | spy a b ok => simpa [Act.ruins, Act.fatal] using h
  | mon a b ok => simpa [Act.ruins, Act.fatal] using h
  | flush a ok => simpa [Act.ruins, Act.fatal] using h
  | _ => cases h

/-- All pipes out of junctions have variation `C` or `F`. -/
def Lenient (hs : List Hop) : Prop := ∀ h ∈ hs, h.src.ty = .junction → h.input.breakable ≠ .terminate

/-- Nothing that a junction cannot get over happens to one. -/
theorem lenient_ruins (hc : c.connection = hopSets R) (hw : getWaiter c = .ok w) (hp : w.regulatorSettings order = .ok (cs, w')) (hC : Complete (R.map (·.2)))
    (hL : Lenient (R.map (·.2))) (hr : w'.RunWith cs bad cap τ) {i : Who} {inputs pushs spy} (hn : w'.node i = some (.junction inputs pushs spy)) :
    ∀ f ∈ acts (proj i τ), f.ruins pushs = false := by
  have A := assembled hc hw hp
  obtain ⟨r, p, k, rfl, hm, hk, he, hkn⟩ := A.node_inv hn
  intro f hf
  cases hx : f.ruins pushs with
  | false => rfl
  | true =>
    exfalso
    have hfit := (A.fits hn).2
    obtain ⟨a, b, rfl⟩ := node_junction hkn
    have hty : r.1 = .junction := by
      cases hr1 : r.1 with
      | junction => rfl
      | _ => simp [expected, hr1, Comp.plain] at he
    have hp' : p = .main := by
      cases p <;> simp [Comp.node] at hkn
      rfl
    subst hp'
    exact C80_safe_partial hc hw hp hC hr hty hm (fun h hh hj => hL h hh (by rw [← hty, ← hj]; rfl)) ⟨f, hf, fatal_of_ruins hfit hx⟩

/-- **C98** Whatever drains cannot create their files, whoever ends early, whatever is refused: without managers and without anything leading back to where it started, everything ends if
the pipes out of junctions have variation `C` or `F`, the faucets can open their files, what is read is limited and whoever could go on is not left out for ever. -/
theorem C98_ends (hc : c.connection = hopSets R) (hw : getWaiter c = .ok w) (hp : w.regulatorSettings order = .ok ([], w')) (hC : Complete (R.map (·.2)))
    (hcf : CircleFree (R.map (·.2))) (hL : Lenient (R.map (·.2))) (hcap : ∀ k ch, cap k ch ≠ some 0) (hb : ∀ r, r.1 = .faucet → c.Opens r → bad r = false)
    (hσ : w'.FairWith [] bad cap σ) (B : Nat) (hB : ∀ n, Limited B (upTo σ n)) : ∃ n, w'.OverWith [] bad (upTo σ n) :=
  C62_ends_partial hc hw hp hC hcf hcap hb hσ B hB fun n _ _ _ _ hn => lenient_ruins hc hw hp hC hL (hσ.runs n) hn

/-- The order of polling does not depend on the files. -/
theorem shutting_joined {rs : List CompRef} (h : (w.shutting bad).sys cs = w.sysWith cs bad) : (w.shutting bad).joined cs rs = w.joinedWith cs bad rs := by
  unfold Waiter.joined Waiter.joinedWith
  rw [h]

/-- **C98** When everything has ended, and everything was polled as in the code, `start` returns; with success exactly if nothing broke, else with errors that name exactly the components that
broke. -/
theorem C98_returns (hc : c.connection = hopSets R) (hw : getWaiter c = .ok w) (hp : w.regulatorSettings order = .ok ([], w')) (hC : Complete (R.map (·.2)))
    (hb : ∀ r, r.1 = .faucet → c.Opens r → bad r = false) {rs : List CompRef} (hn : rs.Nodup) (hrs : ∀ r, Mentioned (R.map (·.2)) r → r ∈ rs)
    (hr : w'.RunWith [] bad (realCaps (R.map (·.2))) τ) {k : Nat} (hP : Polled (realCaps (R.map (·.2))) (w'.joinedWith [] bad rs) τ k) (ho : w'.OverWith [] bad τ) :
    ∃ out, w'.Returns [] bad τ (some out) ∧ ((∃ n, out = .ok n) ↔ ∀ r, Mentioned (R.map (·.2)) r → ¬ c.Breaks (R.map (·.2)) bad τ r) ∧
      ∀ es, out = .error es → ∀ r, (∃ m t, .causedBy r m t ∈ es) ↔ Mentioned (R.map (·.2)) r ∧ c.Breaks (R.map (·.2)) bad τ r := by
  have A := assembled hc hw hp
  have hww := regulatorSettings_none hp
  subst hww
  have hS := shutting_sys (cs := []) (A.opened hb)
  have hu := shutting_unmanaged (bad := bad) (unmanaged hc hw)
  have hr' := (shutting_run hS).mpr hr
  rw [← shutting_joined hS] at hP
  obtain ⟨out, h⟩ := C75_returns ho (by simp) (fun r m x hk hx => by
    obtain ⟨a, b, hk⟩ := hk
    have hm : Mentioned (R.map (·.2)) r := A.mentioned hk
    have hty : r.1 = .buffer := by
      obtain ⟨k', hk', he⟩ := A.comps r hm
      rw [hk] at hk'
      cases hk'
      cases hr1 : r.1 with
      | buffer => rfl
      | _ => simp [expected, hr1, Comp.plain] at he
    obtain ⟨ty, y⟩ := r
    cases hty
    obtain ⟨a', b', m', h1, h2, h3⟩ := (A.shutting (bad := bad)).no_underflow (attended_none hu) hC hn hrs hr' hP hm
    obtain ⟨t1, g1, g2⟩ := hx
    rw [shutting_get, hk] at h1
    have : m' = m := by
      have e : (if bad (.buffer, y) = true then (Comp.buffer (some a) (some b) m).shut else .buffer (some a) (some b) m) = .buffer (some a) (some b) m := by
        split <;> rfl
      rw [Option.map_some, e] at h1
      injection h1 with h1
      injection h1 with _ _ h1
      exact h1.symm
    subst this
    have := h3 x t1 _ g1 g2
    exact ⟨this.2, this.1⟩)
  obtain ⟨h1, h2⟩ := C75_outcome hc hw hp hC hr h
  refine ⟨out, h, ?_, fun es he => (h2 es (by rw [he])).2⟩
  rw [← h1]
  simp

/-- **C98** So everything ends, and if it was polled as in the code until then, `start` returns and says what broke. -/
theorem C98_says (hc : c.connection = hopSets R) (hw : getWaiter c = .ok w) (hp : w.regulatorSettings order = .ok ([], w')) (hC : Complete (R.map (·.2)))
    (hcf : CircleFree (R.map (·.2))) (hL : Lenient (R.map (·.2))) (hb : ∀ r, r.1 = .faucet → c.Opens r → bad r = false)
    {rs : List CompRef} (hn : rs.Nodup) (hrs : ∀ r, Mentioned (R.map (·.2)) r → r ∈ rs)
    (hσ : w'.FairWith [] bad (realCaps (R.map (·.2))) σ) (hP : ∀ n, ∃ k, Polled (realCaps (R.map (·.2))) (w'.joinedWith [] bad rs) (upTo σ n) k)
    (B : Nat) (hB : ∀ n, Limited B (upTo σ n)) :
    ∃ n out, w'.Returns [] bad (upTo σ n) (some out) ∧ ((∃ k, out = .ok k) ↔ ∀ r, Mentioned (R.map (·.2)) r → ¬ c.Breaks (R.map (·.2)) bad (upTo σ n) r) ∧
      ∀ es, out = .error es → ∀ r, (∃ m t, .causedBy r m t ∈ es) ↔ Mentioned (R.map (·.2)) r ∧ c.Breaks (R.map (·.2)) bad (upTo σ n) r := by
  obtain ⟨n, ho⟩ := C98_ends hc hw hp hC hcf hL (realCaps_room _) hb hσ B hB
  obtain ⟨k, hk⟩ := hP n
  obtain ⟨out, h⟩ := C98_returns hc hw hp hC hb hn hrs (hσ.runs n) hk ho
  exact ⟨n, out, h⟩

end
end Verif
