import Verif.Lemmas.Reservoir
import Verif.Lemmas.Collected
import Verif.Lemmas.Shut
/-!
# A regulator that has failed, and its manager
-/
namespace Verif

/-- Whoever takes something out of a control channel deals with control. -/
theorem got_isCtl {c : Nat} {e : Ev} (h : gotOf .ctl c e ≠ none) : (act e).isCtl = true := by
  obtain ⟨q, r⟩ := e
  cases q with
  | recv k c' =>
    cases k <;> first | rfl | (cases r <;> simp [gotOf] at h)
  | tryRecv k c' =>
    cases k <;> first | rfl | (cases r <;> simp [gotOf] at h)
  | _ => simp [gotOf] at h

theorem worker_gotOn {pull push spy r t} {c : Nat} (h : MRuns (motionWorker pull {} [push] spy false) t r) : gotOn .ctl c t = [] := by
  unfold gotOn
  rw [List.filterMap_eq_nil_iff]
  intro e he
  cases hg : gotOf .ctl c e with
  | none => rfl
  | some v =>
    have h1 := got_isCtl (c := c) (e := e) (by rw [hg]; simp)
    have h2 := worker_no_ctl h _ (List.mem_map.mpr ⟨e, he, rfl⟩ : act e ∈ acts t)
    rw [h1] at h2; cases h2

theorem controlPoint_even {c : Nat} {tr : List Ev} {u : Unit} (h : (controlPoint (some c)).Runs tr u) :
    (gotOn .ctl c tr).length % 2 = 0 ∨ (⟨.recv .ctl c, none⟩ : Ev) ∈ tr := by
  simp only [controlPoint] at h
  rw [Prog.runs_bind] at h
  obtain ⟨t1, r, t2, rfl, h1, h2⟩ := h
  rw [Prog.runs_req] at h1
  subst h1
  cases r with
  | got v =>
    rw [Prog.runs_bind] at h2
    obtain ⟨t3, r, t4, rfl, h3, h4⟩ := h2
    rw [Prog.runs_req] at h3
    subst h3
    simp at h4
    obtain ⟨rfl, _⟩ := h4
    cases r with
    | none => right; simp
    | some v' => left; simp [gotOn, gotOf]
  | empty => simp at h2; obtain ⟨rfl, _⟩ := h2; left; rfl
  | closed => simp at h2; obtain ⟨rfl, _⟩ := h2; left; rfl

/-- A regulator that fails is not paused: it has taken as many requests to go on as requests to stop. -/
theorem failed_even {pull push spy tr} {c : Nat} {e : MErr} (h : LoopRuns (regulatorBody pull push spy (some c)) 0 tr (.error e))
    (hn : (⟨.recv .ctl c, none⟩ : Ev) ∉ tr) : (gotOn .ctl c tr).length % 2 = 0 := by
  have rounds : ∀ {n t n'}, LoopRounds (regulatorBody pull push spy (some c)) n t n' → (⟨.recv .ctl c, none⟩ : Ev) ∉ t → (gotOn .ctl c t).length % 2 = 0 := by
    intro n t n' h
    induction h with
    | nil => simp
    | next hb _ ih =>
      intro hn
      obtain ⟨r, u1, u2, rfl, hw, h2⟩ := regulatorBody_inv hb
      rw [List.mem_append, List.mem_append] at hn
      have h3 := ih fun h => hn (Or.inr h)
      rcases h2 with ⟨res, rfl, hf, hc, h0⟩ | ⟨res, rfl, hf, hc, hx⟩ | ⟨e, rfl, rfl, h0⟩
      · simp at h0
      · rcases controlPoint_even hc with h4 | h4
        · simp [worker_gotOn hw]; omega
        · exact absurd (Or.inl (Or.inr h4)) hn
      · simp at h0
  obtain ⟨n0, t1, t2, rfl, h1, h2⟩ := h.rounds
  obtain ⟨r, u1, u2, rfl, hw, h2⟩ := regulatorBody_inv h2
  have h3 := rounds h1 fun h => hn (List.mem_append_left _ h)
  rcases h2 with ⟨res, rfl, hf, hc, h0⟩ | ⟨res, rfl, hf, hc, hx⟩ | ⟨e, rfl, rfl, h0⟩
  · simp at h0
  · simp at hx
  · simp [worker_gotOn hw]; exact h3

section
variable {c : Config} {hs : List Hop} {w : Waiter} {cs : List Capture} {τ τ₁ τ₂ : List (Who × Ev)} {cap : Caps}

/-- Only a regulator and its manager use its control. -/
theorem Rigged.steerers (A : Rigged c hs w) (hC : Complete hs) (T : Attended cs w) {a : Capture} (ha : a ∈ cs) (hr : w.Run cs cap τ) {j : Who} {e : Ev} (hy : (j, e) ∈ τ)
    (hq : e.q.on = some (.ctl, w.idOf (.regulator, a.regulator))) : j = .part (.regulator, a.regulator) .main ∨ j = .manager a.regulator := by
  rcases A.users hC T hr hy hq with h | ⟨h, _⟩ | ⟨h, _⟩ | ⟨_, a', ha', h1, h2⟩
  · cases h
  · cases h
  · cases h
  · have := A.distinct _ _ (A.steered T ha) (A.steered T ha') h1
    simp only [Prod.mk.injEq, true_and] at this
    rw [this]; exact h2

/-- If a regulator has failed, its manager cannot have ended and have made a request that the regulator did not take. -/
theorem Rigged.unheard (A : Rigged c hs w) (hC : Complete hs) (T : Attended cs w) {a : Capture} (ha : a ∈ cs) {b : Bool}
    (hr : w.Run cs (realCaps hs) (τ₁ ++ (.manager a.regulator, ⟨.send .ctl (w.idOf (.regulator, a.regulator)) (), b⟩) :: τ₂))
    (hg : gotOn .ctl (w.idOf (.regulator, a.regulator)) (proj (.part (.regulator, a.regulator) .main) τ₂) = [])
    {pull : Pull} {push : Push} {e : MErr} {t1 : List Ev} (hp : pull ≠ .none)
    (hf : LoopRuns (regulatorBody pull push none (some (w.idOf (.regulator, a.regulator)))) 0 t1 (.error e))
    (ht : proj (.part (.regulator, a.regulator) .main) (τ₁ ++ (.manager a.regulator, ⟨.send .ctl (w.idOf (.regulator, a.regulator)) (), b⟩) :: τ₂) =
      t1 ++ dropEvs (regulatorTask pull push none (some (w.idOf (.regulator, a.regulator)))).drops)
    (hd : (w.managing a).Done (proj (.manager a.regulator) (τ₁ ++ (.manager a.regulator, ⟨.send .ctl (w.idOf (.regulator, a.regulator)) (), b⟩) :: τ₂))) : False := by
  have hn := A.chans_nodup T ha
  have hM := hr.exec.tasks _ _ (T.manages ha)
  generalize hτ : τ₁ ++ (.manager a.regulator, (⟨.send .ctl (w.idOf (.regulator, a.regulator)) (), b⟩ : Ev)) :: τ₂ = τ at *
  have nreg : (⟨.close .ctl (w.idOf (.regulator, a.regulator)), ()⟩ : Ev) ∉ proj (.part (.regulator, a.regulator) .main) τ := by
    intro h
    rw [ht] at h
    have h1 := mem_closings.mpr (List.mem_map.mpr ⟨_, h, rfl⟩)
    rw [C17_closes hf hp] at h1
    cases pull <;> cases push <;> simp [Pull.owned, Push.owned] at h1
  -- nobody has closed the channel before the manager does something with it
  have early : ∀ {u v : List (Who × Ev)} {x : Ev}, τ = u ++ (.manager a.regulator, x) :: v → (∀ k c, x ≠ ⟨.close k c, ()⟩) →
      ¬ closedIn .ctl (w.idOf (.regulator, a.regulator)) (u.map Prod.snd) := by
    rintro u v x hu hx ⟨e', he', h⟩
    obtain ⟨⟨j, e'⟩, hj, rfl⟩ := List.mem_map.mp he'
    obtain rfl := closes_on h
    have hjτ : (j, (⟨.close .ctl (w.idOf (.regulator, a.regulator)), ()⟩ : Ev)) ∈ τ := by rw [hu]; exact List.mem_append_left _ hj
    rcases A.steerers hC T ha hr hjτ rfl with rfl | rfl
    · exact nreg (mem_proj.mpr hjτ)
    · have hm1 : (w.managing a).Partial (proj (.manager a.regulator) u ++ [x]) := by
        have : proj (.manager a.regulator) τ = (proj (.manager a.regulator) u ++ [x]) ++ proj (.manager a.regulator) v := by rw [hu]; simp [proj]
        rw [this] at hM
        exact hM.prefix
      exact manager_open hm1 hn hx _ (mem_proj.mpr hj) _ _ rfl
  have opened : ∀ {u v : List (Who × Ev)} {x : Ev} {st : Store}, τ = u ++ (.manager a.regulator, x) :: v → (∀ k c, x ≠ ⟨.close k c, ()⟩) →
      execAll (realCaps hs) Store.init (u.map Prod.snd) = some st → (st .ctl (w.idOf (.regulator, a.regulator))).closed = false := by
    intro u v x st hu hx hst
    cases hcl : (st .ctl (w.idOf (.regulator, a.regulator))).closed with
    | false => rfl
    | true =>
      rcases (closed_iff hst .ctl _).mp hcl with h | h
      · simp [Store.init] at h
      · exact absurd h (early hu hx)
  have accepted : ∀ x ∈ proj (.manager a.regulator) τ, isRequest (w.idOf (.regulator, a.regulator)) x = true → x = ⟨.send .ctl (w.idOf (.regulator, a.regulator)) (), true⟩ := by
    intro x hx hq
    obtain ⟨q, b'⟩ := x
    cases q with
    | send k c' v =>
      cases k <;> simp [isRequest] at hq
      subst hq
      cases b' with
      | true => rfl
      | false =>
        exfalso
        obtain ⟨u1, u2, hu⟩ := List.append_of_mem (mem_proj.mp hx)
        obtain ⟨st3, hst⟩ := Option.isSome_iff_exists.mp hr.exec.chans
        rw [hu, List.map_append, List.map_cons] at hst
        obtain ⟨s1, g1, hst⟩ := execAll_split hst
        obtain ⟨s2, g2, _⟩ := execAll_cons hst
        obtain ⟨g3, _⟩ := exec_send_false g2
        rw [opened hu (fun k c h => by have := congrArg Ev.q h; cases this) g1] at g3
        cases g3
    | _ => simp [isRequest] at hq
  have heven : requests (w.idOf (.regulator, a.regulator)) (proj (.manager a.regulator) τ) % 2 = 0 := by
    obtain ⟨n, t, h1, h2⟩ := hd
    have hz : requests (w.idOf (.regulator, a.regulator)) (dropEvs (w.managing a).drops) = 0 := by
      unfold requests; rw [List.countP_eq_zero]
      intro x hx
      simp only [dropEvs, List.mem_map] at hx
      obtain ⟨y, _, rfl⟩ := hx
      simp [isRequest]
    have := (C20_balanced h1 hn).1
    rw [h2, requests_append, hz]
    omega
  obtain ⟨st, hst⟩ := Option.isSome_iff_exists.mp hr.exec.chans
  have f := A.controls hC T hr ha hst
  have hl := room_le hst .ctl (w.idOf (.regulator, a.regulator)) (n := 1) rfl (by simp [Store.init])
  have fl := congrArg List.length f
  rw [sent_requests accepted, List.length_append] at fl
  have hx : (⟨.send .ctl (w.idOf (.regulator, a.regulator)) (), b⟩ : Ev) = ⟨.send .ctl (w.idOf (.regulator, a.regulator)) (), true⟩ :=
    accepted _ (mem_proj.mpr (by rw [← hτ]; simp)) (by simp [isRequest])
  have hb : b = true := by cases b with | true => rfl | false => simp at hx
  subst hb
  -- the request is waiting
  have waits : ∀ {v : List (Who × Ev)} {s : Store}, v <+: τ₂ →
      execAll (realCaps hs) Store.init ((τ₁ ++ (.manager a.regulator, (⟨.send .ctl (w.idOf (.regulator, a.regulator)) (), true⟩ : Ev)) :: v).map Prod.snd) = some s →
      (s .ctl (w.idOf (.regulator, a.regulator))).q ≠ [] := by
    rintro v s ⟨v', rfl⟩ hs hq
    rw [List.map_append, List.map_cons] at hs
    obtain ⟨s1, g1, hs⟩ := execAll_split hs
    obtain ⟨s2, g2, hs⟩ := execAll_cons hs
    obtain ⟨_, _, g3, _⟩ := exec_send g2
    have h1 := fifo hs .ctl (w.idOf (.regulator, a.regulator))
    have h2 : gotOn .ctl (w.idOf (.regulator, a.regulator)) (v.map Prod.snd) = [] := by
      rw [gotOn_proj (i := .part (.regulator, a.regulator) .main)]
      · rw [proj_append, gotOn_append, List.append_eq_nil_iff] at hg
        exact hg.1
      · rintro ⟨j, x⟩ hj hgx
        have hjτ : (j, x) ∈ τ := by rw [← hτ]; simp [hj]
        obtain ⟨y, hy⟩ := Option.ne_none_iff_exists'.mp hgx
        rcases A.steerers hC T ha hr hjτ (on_of_got hy) with h | rfl
        · exact h
        · exfalso
          rcases manager_ctl hM hn (mem_proj.mpr hjτ) (on_of_got hy) with ⟨b, h⟩ | ⟨k, c, h⟩
          · subst h; simp [gotOf] at hy
          · subst h; simp [gotOf] at hy
    rw [h2, hq, g3] at h1
    simp at h1
  have hq := waits (v := τ₂) List.prefix_rfl (by rw [hτ]; exact hst)
  have hg2 : (gotOn .ctl (w.idOf (.regulator, a.regulator)) (proj (.part (.regulator, a.regulator) .main) τ)).length % 2 = 0 := by
    rw [ht, gotOn_append, gotOn_drops List.prefix_rfl, List.append_nil]
    refine failed_even hf fun hm => ?_
    have hm : (⟨.recv .ctl (w.idOf (.regulator, a.regulator)), none⟩ : Ev) ∈ proj (.part (.regulator, a.regulator) .main) τ := by rw [ht]; exact List.mem_append_left _ hm
    have hm := mem_proj.mp hm
    rw [← hτ, List.mem_append, List.mem_cons] at hm
    have hst' := hst
    rcases hm with hm | hm | hm
    · obtain ⟨u, v, hu⟩ := List.append_of_mem hm
      rw [← hτ, hu, List.append_assoc, List.map_append, List.cons_append, List.map_cons] at hst'
      obtain ⟨s1, g1, hst'⟩ := execAll_split hst'
      obtain ⟨s2, g2, _⟩ := execAll_cons hst'
      obtain ⟨_, g3, _⟩ := exec_recv_none g2
      rcases (closed_iff g1 .ctl _).mp g3 with h | ⟨x, hx, h⟩
      · simp [Store.init] at h
      · refine early hτ.symm (fun k c h => by have := congrArg Ev.q h; cases this) ⟨x, ?_, h⟩
        rw [hu, List.map_append]
        exact List.mem_append_left _ hx
    · cases hm
    · obtain ⟨u, v, hu⟩ := List.append_of_mem hm
      have : τ = (τ₁ ++ (.manager a.regulator, (⟨.send .ctl (w.idOf (.regulator, a.regulator)) (), true⟩ : Ev)) :: u) ++
          (.part (.regulator, a.regulator) .main, ⟨.recv .ctl (w.idOf (.regulator, a.regulator)), none⟩) :: v := by rw [← hτ, hu]; simp
      rw [this, List.map_append, List.map_cons] at hst'
      obtain ⟨s1, g1, hst'⟩ := execAll_split hst'
      obtain ⟨s2, g2, _⟩ := execAll_cons hst'
      obtain ⟨g3, _, _⟩ := exec_recv_none g2
      exact waits ⟨_, hu.symm⟩ g1 g3
  have : (st .ctl (w.idOf (.regulator, a.regulator))).q.length ≠ 0 := fun h => hq (List.eq_nil_of_length_eq_zero h)
  omega

end
end Verif
