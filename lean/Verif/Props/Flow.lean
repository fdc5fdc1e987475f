import Verif.Lemmas.Manager
import Verif.Lemmas.RegulatorRuns
import Verif.Lemmas.Pause
import Verif.Lemmas.Det
/-!
# Properties C19, C20 and C21: flow control by watermarks
-/
namespace Verif

/-- **C19** At every moment of every run of a flow manager, for all watermarks, buffers and histories of reports: a
pause is requested only with the occupancy at or above the high watermark, a resume only with the occupancy at or
below the low one. -/
theorem C19_requests {low high ctl chans tr u e v} (h : (managerTask low high ctl chans).Partial tr) (hn : chans.Nodup)
    (hs : tr = u ++ e :: v) (he : isRequest ctl e = true) :
    (requests ctl u % 2 = 0 → high ≤ occupancy chans u) ∧ (requests ctl u % 2 = 1 → occupancy chans u ≤ low) := by
  rcases managerTask_sound h hn u e v hs with h | ⟨k, c', rfl⟩
  · exact h.1 he
  · simp [isRequest] at he

/-- **C19** Whenever the manager goes to sleep: if it has paused the regulator the occupancy is above the low
watermark; if not, it is below the high one or at or below the low one. -/
theorem C19_sleep {low high ctl chans tr u e v} (h : (managerTask low high ctl chans).Partial tr) (hn : chans.Nodup)
    (hs : tr = u ++ e :: v) (he : isSleep e = true) :
    (requests ctl u % 2 = 1 → low < occupancy chans u) ∧
    (requests ctl u % 2 = 0 → occupancy chans u < high ∨ occupancy chans u ≤ low) := by
  rcases managerTask_sound h hn u e v hs with h | ⟨k, c', rfl⟩
  · exact h.2.1 he
  · simp [isSleep] at he

/-- **C19** The same at the end of every look at the buffers, asleep or not. -/
theorem C19_looked {low high ctl chans tr s} (h : LoopRounds (managerBody low high) (managerInit ctl chans) tr s) (hn : chans.Nodup)
    (hne : tr ≠ []) :
    (requests ctl tr % 2 = 1 → low < occupancy chans tr) ∧
    (requests ctl tr % 2 = 0 → occupancy chans tr < high ∨ occupancy chans tr ≤ low) := by
  have := (rounds_ok h (minv_init ctl chans) hn).2.2 hne
  simpa [Settled] using this

/-- The manager of two buffers, watermarks 1 and 3: reports 2 and 2, a pause, sleep; then reports 0 and 1, a resume, sleep. -/
example : LoopRounds (managerBody 1 3) (managerInit 5 [7, 8])
    ([⟨.tryRecv .size 7, .got (2 : Nat)⟩, ⟨.tryRecv .size 8, .got (2 : Nat)⟩, ⟨.send .ctl 5 (), true⟩] ++
     ([⟨.tryRecv .size 7, .empty⟩, ⟨.tryRecv .size 8, .empty⟩, ⟨.sleep 0, ()⟩] ++
     ([⟨.tryRecv .size 7, .got (0 : Nat)⟩, ⟨.tryRecv .size 8, .got (1 : Nat)⟩, ⟨.send .ctl 5 (), true⟩] ++ [])))
    ⟨[⟨0, 7⟩, ⟨1, 8⟩], false, ⟨false, 5⟩, ⟨0⟩, 4⟩ := by
  refine .next (s' := ⟨[⟨2, 7⟩, ⟨2, 8⟩], true, ⟨true, 5⟩, ⟨0⟩, 2⟩) ?_
    (.next (s' := ⟨[⟨2, 7⟩, ⟨2, 8⟩], true, ⟨true, 5⟩, ⟨1⟩, 2⟩) ?_ (.next ?_ .nil))
  · exact ⟨.got 2, _, rfl, .got 2, _, rfl, true, _, rfl, rfl, rfl⟩
  · exact ⟨.empty, _, rfl, .empty, _, rfl, (), _, rfl, rfl, rfl⟩
  · exact ⟨.got 0, _, rfl, .got 1, _, rfl, true, _, rfl, rfl, rfl⟩

theorem sum_zero_of {α : Type} {l : List α} {f : α → Nat} (h : ∀ x ∈ l, f x = 0) : (l.map f).sum = 0 := by
  induction l with
  | nil => rfl
  | cons x l ih => simp [h x (by simp), ih fun y hy => h y (by simp [hy])]

/-- **C20** When the manager stops: every buffer has ended, as many pauses as resumes were requested, and it reports the
number of size reports. -/
theorem C20_balanced {low high ctl chans tr n}
    (h : LoopRuns (managerBody low high) (managerInit ctl chans) tr n) (hn : chans.Nodup) :
    requests ctl tr % 2 = 0 ∧ (∀ c ∈ chans, ended c tr = true) ∧
    n = (chans.map fun c => (gotOn .size c tr).length).sum := by
  obtain ⟨s', t1, t2, rfl, h1, h2⟩ := h.rounds
  obtain ⟨_, i2, _⟩ := rounds_ok h1 (minv_init ctl chans) hn
  have ro := round_ok h2 i2 hn
  simp only [List.nil_append] at ro i2
  obtain ⟨k1, k2⟩ := ro.stop n rfl
  refine ⟨?_, k1, k2⟩
  have := ro.settled.1
  have hz : occupancy chans (t1 ++ t2) = 0 := sum_zero_of fun c hc => by simp [holds, k1 c hc]
  rw [hz] at this
  omega

/-- **C20** It stops as soon as it has noticed that every buffer has ended: after every complete look that is not
the last, some buffer is still open. -/
theorem C20_stops {low high ctl chans tr s}
    (h : LoopRounds (managerBody low high) (managerInit ctl chans) tr s) (hn : chans.Nodup) (hne : tr ≠ []) :
    ∃ c ∈ chans, ended c tr = false := by
  have key : ∀ {u s0 t s1}, LoopRounds (managerBody low high) s0 t s1 → MInv ctl chans u s0 → t ≠ [] →
      ∃ c ∈ chans, ended c (u ++ t) = false := by
    intro u s0 t s1 h hi hne
    induction h generalizing u with
    | nil => exact absurd rfl hne
    | @next s s1 s2 t1 t2 hb _ ih =>
      have ro := round_ok hb hi hn
      by_cases ht : t2 = []
      · subst ht; simpa using ro.alive _ rfl
      · have := ih (ro.next _ rfl) ht; simpa using this
  simpa using key h (minv_init ctl chans) hne

/-- **C20** for regulator and manager together, over a control channel only they use: once the manager has
stopped, the regulator is never stuck waiting to be resumed: if waiting is the next thing it does, its wait is over at once. -/
theorem C20_released {ι : Type} [DecidableEq ι] {cap sys} {r k : ι} {τ : List (ι × Ev)} {pull push spy c low high chans n}
    (hE : Execution cap sys τ) (hr : sys r = some (regulatorTask pull push spy (some c))) (hp : pull ≠ .none) (hkr : k ≠ r)
    (hk : sys k = some (managerTask low high c chans)) (hn : chans.Nodup)
    (only : ∀ x ∈ τ, x.2.q.on = some (.ctl, c) → x.1 = r ∨ x.1 = k)
    (stopped : ∃ t1 t2, proj k τ = t1 ++ t2 ∧ LoopRuns (managerBody low high) (managerInit c chans) t1 n)
    (x0 : Option Unit) (waits : (regulatorTask pull push spy (some c)).Partial (proj r τ ++ [⟨.recv .ctl c, x0⟩])) :
    ∃ st x, execAll cap Store.init (τ.map Prod.snd) = some st ∧ (exec cap st ⟨.recv .ctl c, x⟩).isSome = true := by
  obtain ⟨st, hst⟩ := Option.isSome_iff_exists.mp hE.chans
  have hsys := managerTask_sound (hE.tasks k _ hk) hn
  -- the regulator waits
  obtain ⟨q, hq⟩ := regTask_phase waits hp
  rw [acts_append, Phase.run_append] at hq
  have hwait : Phase.run .fresh (acts (proj r τ)) = some .waiting := by
    cases hq1 : Phase.run .fresh (acts (proj r τ)) with
    | none => rw [hq1] at hq; simp at hq
    | some p =>
      rw [hq1] at hq
      have : acts [(⟨.recv .ctl c, x0⟩ : Ev)] = [.ctlWait c x0] := by cases x0 <;> rfl
      rw [this] at hq
      cases p <;> simp [Phase.run, Phase.step] at hq ⊢
  -- what happens on the control channel
  have onlyGot : ∀ y ∈ τ, gotOf .ctl c y.2 ≠ none → y.1 = r := by
    intro y hy hg
    cases hg' : gotOf .ctl c y.2 with
    | none => exact absurd hg' hg
    | some v =>
      rcases only y hy (on_of_got hg') with h | h
      · exact h
      · exfalso
        have hm : y.2 ∈ proj k τ := mem_proj.mpr (by rw [← h]; exact hy)
        obtain ⟨a, b, hab⟩ := List.append_of_mem hm
        rcases hsys a y.2 b hab with hs | ⟨k', c', hs⟩
        · rcases hs.2.2 with ⟨c', r', hs⟩ | ⟨b', hs⟩ | ⟨ms, hs⟩ <;> rw [hs] at hg'
          · cases r' <;> simp [gotOf] at hg'
          · simp [gotOf] at hg'
          · simp [gotOf] at hg'
        · rw [hs] at hg'; simp [gotOf] at hg'
  cases hcl : (st .ctl c).closed with
  | true =>
    cases hqq : (st .ctl c).q with
    | nil => exact ⟨st, none, hst, by simp [exec, hqq, hcl]⟩
    | cons v qs => exact ⟨st, some v, hst, by simp [exec, hqq]⟩
  | false =>
    obtain ⟨o1, o2, o3⟩ := open_history hst hcl
    have hpar := phase_parity hwait (fun a ha => by
        have := regTask_ctl waits a
        rw [acts_append] at this
        exact this (List.mem_append.mpr (Or.inl ha))) (by
      intro a ha h0
      simp only [acts, List.mem_map] at ha
      obtain ⟨e, he, rfl⟩ := ha
      have he' := act_ctlWait h0
      subst he'
      exact o2 (List.mem_map.mpr ⟨_, mem_proj.mp he, rfl⟩)) (by simp)
    simp at hpar
    -- all requests were accepted
    have hsent : (sentOn .ctl c (τ.map Prod.snd)).length = requests c (proj k τ) := by
      rw [sentOn_proj (i := k)]
      · have : ∀ l : List Ev, (∀ e ∈ l, isRequest c e = true → ∃ v, e = ⟨.send .ctl c v, true⟩) → (sentOn .ctl c l).length = requests c l := by
          intro l hl
          induction l with
          | nil => rfl
          | cons e l ih =>
            have ih := ih fun e he => hl e (by simp [he])
            have h1 : sentOn .ctl c (e :: l) = (sentOf .ctl c e).toList ++ sentOn .ctl c l := by
              simp only [sentOn, List.filterMap_cons]; cases sentOf .ctl c e <;> rfl
            have h2 : requests c (e :: l) = requests c l + if isRequest c e = true then 1 else 0 := by
              simp [requests, List.countP_cons]
            rw [h1, h2, List.length_append, ih]
            by_cases hr : isRequest c e = true
            · obtain ⟨v, rfl⟩ := hl e (by simp) hr
              simp [sentOf, isRequest]; omega
            · have : sentOf .ctl c e = none := by
                cases hs : sentOf .ctl c e with
                | none => rfl
                | some v =>
                  exfalso; apply hr
                  obtain ⟨q, rr⟩ := e
                  cases q with
                  | send k' c' v' =>
                    cases rr with
                    | false => simp [sentOf] at hs
                    | true =>
                      simp only [sentOf] at hs
                      split at hs
                      · next hkc => obtain ⟨hkc1, hkc2⟩ := hkc; subst hkc1; subst hkc2; simp [isRequest]
                      · simp at hs
                  | _ => simp [sentOf] at hs
              simp [this, hr]
        apply this
        intro e he hr
        obtain ⟨a, b, hab⟩ := List.append_of_mem he
        rcases hsys a e b hab with hs | ⟨k', c', rfl⟩
        · rcases hs.2.2 with ⟨c', r', rfl⟩ | ⟨b', rfl⟩ | ⟨ms, rfl⟩
          · simp [isRequest] at hr
          · cases b' with
            | true => exact ⟨(), rfl⟩
            | false => exact absurd (List.mem_map.mpr ⟨_, mem_proj.mp he, rfl⟩) (o1 ())
          · simp [isRequest] at hr
        · simp [isRequest] at hr
      · intro y hy hs
        cases hs' : sentOf .ctl c y.2 with
        | none => exact absurd hs' hs
        | some v =>
          rcases only y hy (on_of_sent hs') with h | h
          · exfalso
            have hm : y.2 ∈ proj r τ := mem_proj.mpr (by rw [← h]; exact hy)
            have ho : act y.2 = .other := by
              generalize y.2 = e at hs'
              obtain ⟨q, rr⟩ := e
              cases q with
              | send k' c' v =>
                cases rr with
                | false => simp [sentOf] at hs'
                | true => cases k' <;> simp [sentOf] at hs'; rfl
              | _ => simp [sentOf] at hs'
            have hmem : Act.other ∈ acts (proj r τ) := by rw [← ho]; exact List.mem_map_of_mem hm
            exact no_other hwait hmem
          · exact h
    obtain ⟨t1, t2, hpk, hrun⟩ := stopped
    have hbal := (C20_balanced hrun hn).1
    have ht2 : requests c t2 = 0 := by
      have hpart := hE.tasks k _ hk
      rw [hpk] at hpart
      have hd := mem_dropEvs (Task.after (t := managerTask low high c chans) hrun hpart)
      unfold requests; rw [List.countP_eq_zero]
      intro e he; obtain ⟨k', c', _, rfl⟩ := hd e he; simp [isRequest]
    have hf := fifo hst .ctl c
    have hinit : (Store.init .ctl c).q = [] := rfl
    rw [hinit, List.nil_append, gotOn_proj (i := r) onlyGot] at hf
    have hlen := congrArg List.length hf
    rw [hsent, hpk, requests_append, ht2, List.length_append] at hlen
    cases hqq : (st .ctl c).q with
    | nil => rw [hqq] at hlen; simp at hlen; omega
    | cons v qs => exact ⟨st, some v, hst, by simp [exec, hqq]⟩

/-- A manager of one buffer that reports 3, is paused, then ends: resumed, stops. -/
example : LoopRuns (managerBody 1 3) (managerInit 5 [7])
    ([⟨.tryRecv .size 7, .got (3 : Nat)⟩, ⟨.send .ctl 5 (), true⟩] ++ [⟨.tryRecv .size 7, .closed⟩, ⟨.send .ctl 5 (), true⟩]) 1 := by
  refine .next (s' := ⟨[⟨3, 7⟩], true, ⟨true, 5⟩, ⟨0⟩, 1⟩) ?_ (.stop ?_)
  · exact ⟨.got 3, _, rfl, true, _, rfl, rfl, rfl⟩
  · exact ⟨.closed, _, rfl, true, _, rfl, rfl, rfl⟩

/-- **C21** With the low watermark below the high one: at most one request per look, whatever happened before. -/
theorem C21_one_per_look {low high ctl chans tr s t x} (hlt : low < high)
    (h : LoopRounds (managerBody low high) (managerInit ctl chans) tr s) (hn : chans.Nodup)
    (hb : (managerBody low high s).Runs t x) : requests ctl t ≤ 1 := by
  obtain ⟨_, i2, _⟩ := rounds_ok h (minv_init ctl chans) hn
  have ro := round_ok hb i2 hn
  rw [ro.amount]
  generalize occupancy chans _ = o
  cases s.shut <;> by_cases h1 : high ≤ o <;> by_cases h2 : o ≤ low <;> simp [h1, h2] <;> omega

/-- **C21** With the low watermark below the high one: a pause and a resume are never requested for the same
occupancy, nor is one requested unless the occupancy has gone all the way from one watermark to the other since
the one before. -/
theorem C21_hysteresis {low high ctl chans tr u₁ e₁ v₁ u₂ e₂ v₂} (hlt : low < high)
    (h : (managerTask low high ctl chans).Partial tr) (hn : chans.Nodup)
    (h₁ : tr = u₁ ++ e₁ :: v₁) (r₁ : isRequest ctl e₁ = true) (h₂ : tr = u₂ ++ e₂ :: v₂) (r₂ : isRequest ctl e₂ = true)
    (hp : requests ctl u₁ % 2 = 0) (hr : requests ctl u₂ % 2 = 1) :
    occupancy chans u₂ ≤ low ∧ low < high ∧ high ≤ occupancy chans u₁ :=
  ⟨(C19_requests h hn h₂ r₂).2 hr, hlt, (C19_requests h hn h₁ r₁).1 hp⟩

/-- **C21** Otherwise: every look that starts with the regulator running and finds the occupancy between
the watermarks requests a pause and a resume. -/
theorem C21_both {low high ctl chans tr s t x}
    (h : LoopRounds (managerBody low high) (managerInit ctl chans) tr s) (hn : chans.Nodup)
    (hb : (managerBody low high s).Runs t x) (running : requests ctl tr % 2 = 0)
    (hh : high ≤ occupancy chans (tr ++ t)) (hl : occupancy chans (tr ++ t) ≤ low) : requests ctl t = 2 := by
  obtain ⟨_, i2, _⟩ := rounds_ok h (minv_init ctl chans) hn
  have ro := round_ok hb i2 hn
  rw [ro.amount]
  have := i2.parity
  simp only [List.nil_append] at this
  rw [running] at this
  have hs : s.shut = false := by cases hs : s.shut <;> simp [hs] at this ⊢
  simp [hs, hh, hl]

/-- **C21** And that goes on for ever while a single buffer just sits at one size: after `n + 1` looks, `2 * (n + 1)` requests. -/
theorem C21_flaps (low high : Nat) (hle : high ≤ low) (ctl b : Nat) (n : Nat) :
    ∃ tr s, LoopRounds (managerBody low high) (managerInit ctl [b]) tr s ∧ requests ctl tr = 2 * (n + 1) ∧
      gotOn .size b tr = [high] ∧ requests ctl tr = 2 * (tr.countP isLook) := by
  have more : ∀ (n : Nat) (bo : BackOff) (rc : Nat), ∃ tr bo',
      LoopRounds (managerBody low high) ⟨[⟨high, b⟩], false, Control.new ctl, bo, rc⟩ tr ⟨[⟨high, b⟩], false, Control.new ctl, bo', rc⟩ ∧
      requests ctl tr = 2 * n ∧ gotOn .size b tr = [] ∧ tr.countP isLook = n := by
    intro n
    induction n with
    | zero => intro bo rc; exact ⟨[], bo, .nil, rfl, rfl, rfl⟩
    | succ n ih =>
      intro bo rc
      obtain ⟨bo1, hbo⟩ : ∃ bo1, bo1 = if bo.count ≤ 50 then (⟨bo.count + 1⟩ : BackOff) else bo := ⟨_, rfl⟩
      obtain ⟨tr, bo', h, hr, hg, hc⟩ := ih bo1 rc
      refine ⟨[⟨.tryRecv .size b, .empty⟩, ⟨.send .ctl ctl (), true⟩, ⟨.send .ctl ctl (), true⟩, ⟨.sleep (bo.count * bo.count), ()⟩] ++ tr,
        bo', .next ?_ h, ?_, ?_, ?_⟩
      · unfold managerBody
        rw [Prog.runs_bind]
        refine ⟨[⟨.tryRecv .size b, .empty⟩], ⟨[⟨high, b⟩], [], high, 0⟩, _, rfl, ⟨.empty, _, rfl, rfl, rfl⟩, ?_⟩
        simp only []
        rw [Prog.runs_bind]
        refine ⟨[⟨.send .ctl ctl (), true⟩], ⟨[⟨high, b⟩], true, ⟨true, ctl⟩, bo, rc⟩, _, rfl, ?_, ?_⟩
        · simp [pauseAbove, Control.pause, Control.new]
          exact ⟨true, _, rfl, rfl, rfl⟩
        · rw [Prog.runs_bind]
          refine ⟨[⟨.send .ctl ctl (), true⟩], ⟨[⟨high, b⟩], false, Control.new ctl, bo, rc⟩, _, rfl, ?_, ?_⟩
          · simp [resumeBelow, hle, Control.resume]
            exact ⟨true, _, rfl, rfl, rfl⟩
          · simp [removeMonitors]
            exact ⟨(), _, rfl, rfl, by rw [hbo]⟩
      · have : requests ctl [⟨.tryRecv .size b, .empty⟩, ⟨.send .ctl ctl (), true⟩, ⟨.send .ctl ctl (), true⟩, ⟨.sleep (bo.count * bo.count), ()⟩] = 2 := by
          simp [requests, isRequest, List.countP_cons]
        rw [requests_append, this, hr]; omega
      · rw [gotOn_append, hg]; rfl
      · rw [List.countP_append, hc]; simp [List.countP_cons, isLook]; omega
  obtain ⟨tr, bo', h, hr, hg, hc⟩ := more n ⟨0⟩ 1
  refine ⟨[⟨.tryRecv .size b, .got high⟩, ⟨.send .ctl ctl (), true⟩, ⟨.send .ctl ctl (), true⟩] ++ tr, _, .next ?_ h, ?_, ?_, ?_⟩
  · unfold managerBody
    rw [Prog.runs_bind]
    refine ⟨[⟨.tryRecv .size b, .got high⟩], ⟨[⟨high, b⟩], [], high, 1⟩, _, rfl, ⟨.got high, _, rfl, rfl, rfl⟩, ?_⟩
    simp only []
    rw [Prog.runs_bind]
    refine ⟨[⟨.send .ctl ctl (), true⟩], ⟨[⟨high, b⟩], true, ⟨true, ctl⟩, ⟨0⟩, 1⟩, _, rfl, ?_, ?_⟩
    · simp [pauseAbove, Control.pause, managerInit, Control.new]
      exact ⟨true, _, rfl, rfl, rfl⟩
    · rw [Prog.runs_bind]
      refine ⟨[⟨.send .ctl ctl (), true⟩], ⟨[⟨high, b⟩], false, Control.new ctl, ⟨0⟩, 1⟩, _, rfl, ?_, ?_⟩
      · simp [resumeBelow, hle, Control.resume]
        exact ⟨true, _, rfl, rfl, rfl⟩
      · simp [removeMonitors]
        rfl
  · have : requests ctl [⟨.tryRecv .size b, .got high⟩, ⟨.send .ctl ctl (), true⟩, ⟨.send .ctl ctl (), true⟩] = 2 := by
      simp [requests, isRequest, List.countP_cons]
    rw [requests_append, this, hr]; omega
  · rw [gotOn_append, hg]; simp [gotOn, gotOf]
  · rw [requests_append, hr, List.countP_append, hc]
    simp [requests, isRequest, isLook, List.countP_cons]; omega

end Verif
