import Verif.Lemmas.Await
import Verif.Model.Buffer
import Verif.Model.Manager
import Verif.Props.Regulator
/-!
# Property C59: requests to a regulator that has failed
-/
namespace Verif

/-- **C59** is false of the code. A regulator (or faucet) whose input fails ends without closing its control channel,
whose receiving end the waiter keeps. Its controller's next pause request is accepted, and the resume
request after that blocks for ever: the regulator has ended, the controller waits, nothing can happen any more. -/
theorem C59_refuted (e : Nat) :
    let reg := regulatorTask (.stream ⟨0, 1⟩ 0) (.sender ⟨1, some .out, 2, .terminate⟩ 1) none (some 5)
    let ctl := callerTask 5 [.pause, .resume]
    let sys : Bool → Option Task := fun i => if i then some ctl else some reg
    let cap : Caps := fun k _ => if k = .ctl then some 1 else some 8
    ∃ τ, Execution cap sys τ ∧ reg.Done (proj false τ) ∧ ctl.Awaits (proj true τ) (.send .ctl 5 ()) ∧
      ∀ τ', Execution cap sys (τ ++ τ') → τ' = [] := by
  intro reg ctl sys cap
  let τ : List (Bool × Ev) := [(false, ⟨.streamRead 0, .err e⟩), (false, ⟨.close .data 1, ()⟩), (true, ⟨.send .ctl 5 (), true⟩)]
  have hdone : reg.Done (proj false τ) := by
    refine ⟨.error (.readIO ⟨0, 1⟩ e), [⟨.streamRead 0, .err e⟩], .stop ?_, rfl⟩
    exact ⟨.err e, _, rfl, rfl, rfl⟩
  have haw : ctl.Awaits (proj true τ) (.send .ctl 5 ()) := by
    refine ⟨(⟨true, 5⟩, [.resume]), [⟨.send .ctl 5 (), true⟩] ++ [], [], .next ?_ .nil, rfl, rfl⟩
    exact ⟨true, _, rfl, rfl, rfl⟩
  have hst : ∃ st, execAll cap Store.init (τ.map Prod.snd) = some st ∧ (st .ctl 5).q = [()] ∧ (st .ctl 5).closed = false := by
    refine ⟨_, rfl, rfl, rfl⟩
  obtain ⟨st, hst, hq, hc⟩ := hst
  refine ⟨τ, ⟨by rw [hst]; rfl, ?_⟩, hdone, haw, ?_⟩
  · intro i t hi
    cases i with
    | false => simp [sys] at hi; subst hi; obtain ⟨r, t1, h1, h2⟩ := hdone; exact Or.inr ⟨r, t1, _, h1, List.prefix_rfl, h2⟩
    | true => simp [sys] at hi; subst hi; exact haw.partial
  · intro τ' hE'
    cases τ' with
    | nil => rfl
    | cons x τ' =>
      exfalso
      obtain ⟨i, ev⟩ := x
      have hch := hE'.chans
      rw [List.map_append, execAll_append, hst] at hch
      cases i with
      | false =>
        have ht := hE'.tasks false reg rfl
        rw [proj_append, proj_cons_self] at ht
        exact hdone.stops ht
      | true =>
        have ht := hE'.tasks true ctl rfl
        rw [proj_append, proj_cons_self] at ht
        have hq' := haw.next ht
        obtain ⟨q, r⟩ := ev
        simp only [] at hq'
        subst hq'
        cases r with
        | true => simp [execAll, exec, hc, hq, hasRoom, cap] at hch
        | false => simp [execAll, exec, hc] at hch

end Verif
