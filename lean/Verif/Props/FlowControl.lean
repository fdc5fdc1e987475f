import Verif.Model.Joined
import Verif.Lemmas.Simulate
import Verif.Props.RuntimeProgress
/-!
# Property C69: pipelines with flow control
-/
namespace Verif

/-- Two files meet in a junction, the second has precedence and the first passes a regulator. From there everything goes into a drain and through a buffer into another; the buffer
controls the regulator. -/
def weir : List (Str × Hop) :=
  [("m_1".toList, ⟨⟨.faucet, "slow".toList, .out⟩, none, ⟨.regulator, "gate".toList⟩, ⟨.terminate, 0⟩, none⟩),
   ("m_2".toList, ⟨⟨.regulator, "gate".toList, .out⟩, none, ⟨.junction, "meet".toList⟩, ⟨.terminate, 0⟩, none⟩),
   ("m_3".toList, ⟨⟨.faucet, "fast".toList, .out⟩, none, ⟨.junction, "meet".toList⟩, ⟨.terminate, -1⟩, none⟩),
   ("m_4".toList, ⟨⟨.junction, "meet".toList, .out⟩, none, ⟨.buffer, "tank".toList⟩, ⟨.terminate, 0⟩, none⟩),
   ("m_5".toList, ⟨⟨.buffer, "tank".toList, .out⟩, none, ⟨.drain, "sea".toList⟩, ⟨.terminate, 0⟩, none⟩),
   ("m_6".toList, ⟨⟨.junction, "meet".toList, .out⟩, none, ⟨.drain, "lake".toList⟩, ⟨.terminate, 0⟩, none⟩)]
def weirConfig : Config where
  faucet := [("slow".toList, "-".toList), ("fast".toList, "f".toList)]
  regulator := [("gate".toList, ⟨some (0, 1), ["tank".toList]⟩)]
  drain := [("sea".toList, "-".toList), ("lake".toList, "l".toList)]
  launch := []
  connection := hopSets weir
def weirWaiter : Waiter := ((getWaiter weirConfig).ok?).getD Waiter.new
def weirReady : List Capture × Waiter := match weirWaiter.regulatorSettings [("gate".toList, ⟨0, 1, ["tank".toList]⟩)] with
  | .ok x => x
  | _ => ([], Waiter.new)
/-- An order of the `HashMap`s. -/
def weirOrder : List CompRef := [(.faucet, "slow".toList), (.faucet, "fast".toList), (.regulator, "gate".toList), (.junction, "meet".toList), (.buffer, "tank".toList),
  (.drain, "sea".toList), (.drain, "lake".toList)]
def weirCaps : Caps := realCaps (weir.map (·.2))
def weirActs : List (Who × Task) := weirReady.2.joined weirReady.1 weirOrder

/-- How much time passes for each: gate, slow, fast, the manager, sea, lake, the three parts of tank, meet. -/
def weirRounds : List (List Nat) := [
  [0, 8, 8, 0, 0, 60, 0, 0, 1, 1],
  [0, 8, 8, 0, 0, 60, 0, 0, 1, 1],
  [0, 1, 8, 0, 0, 60, 0, 0, 1, 1],
  [0, 0, 8, 1, 0, 0, 0, 0, 1, 1],
  [0, 0, 8, 1, 60, 0, 0, 0, 1, 1],
  [0, 0, 8, 1, 60, 0, 0, 0, 1, 1],
  [0, 0, 8, 1, 60, 0, 0, 0, 1, 1],
  [0, 0, 8, 0, 0, 60, 0, 0, 1, 1],
  [0, 0, 8, 0, 0, 60, 0, 0, 1, 1],
  [0, 0, 8, 0, 0, 60, 0, 0, 1, 1],
  [0, 0, 8, 0, 0, 60, 0, 0, 1, 1],
  [0, 0, 8, 0, 0, 60, 0, 0, 1, 1]]

theorem weir_built : getWaiter weirConfig = .ok weirWaiter := by decide +kernel
theorem weir_prepared : weirWaiter.regulatorSettings [("gate".toList, ⟨0, 1, ["tank".toList]⟩)] = .ok (weirReady.1, weirReady.2) := by decide +kernel
theorem weir_complete : Complete (weir.map (·.2)) := complete_of (by decide +kernel) (by decide +kernel)
def weirRank : Who → Nat
  | .part (.regulator, _) _ => 1
  | .part (.junction, _) _ => 2
  | .part (.buffer, _) .input => 3
  | .part (.buffer, _) .output => 4
  | .part (.drain, _) _ => 5
  | _ => 0
theorem weir_free : CircleFree (weir.map (·.2)) := circleFree_of weirRank (by decide +kernel) (by decide +kernel) (fun _ => Nat.lt_succ_self 3)
theorem weir_order : weirOrder.Perm (weirReady.2.comps.map Prod.fst) := by decide +kernel

/-- Who is who. -/
theorem weir_who : weirActs.map Prod.fst = [.part (.regulator, "gate".toList) .main, .part (.faucet, "slow".toList) .main, .part (.faucet, "fast".toList) .main,
    .manager "gate".toList, .part (.drain, "sea".toList) .main, .part (.drain, "lake".toList) .main, .part (.buffer, "tank".toList) .input, .part (.buffer, "tank".toList) .output,
    .part (.buffer, "tank".toList) .count, .part (.junction, "meet".toList) .main] := by decide +kernel

theorem joined_sys {w : Waiter} {cs : List Capture} {rs : List CompRef} {i : Who} {t : Task} (h : (i, t) ∈ w.joined cs rs) : w.sys cs i = some t := by
  unfold Waiter.joined at h
  rw [List.mem_filterMap] at h
  obtain ⟨j, _, hj⟩ := h
  rw [Option.map_eq_some_iff] at hj
  obtain ⟨t', h1, h2⟩ := hj
  cases h2
  exact h1

theorem sys_joined {w : Waiter} {cs : List Capture} {rs : List CompRef} (hrs : rs.Perm (w.comps.map Prod.fst)) {i : Who} {t : Task} (h : w.sys cs i = some t) : (i, t) ∈ w.joined cs rs := by
  unfold Waiter.joined pollOrder
  rw [List.mem_filterMap]
  refine ⟨i, ?_, by rw [h]; rfl⟩
  have hi := sys_everyone (w := w) (cs := cs) (i := i) (by rw [h]; simp)
  unfold Waiter.everyone at hi
  rcases List.mem_append.mp hi with hi | hi
  · obtain ⟨x, hx, hi⟩ := List.mem_flatMap.mp hi
    obtain ⟨p, hp, rfl⟩ := List.mem_map.mp hi
    have hx1 : x.1 ∈ rs := hrs.mem_iff.mpr (List.mem_map.mpr ⟨x, hx, rfl⟩)
    have : ∀ ty, x.1.1 = ty → Who.part x.1 p ∈ (rs.filter fun r => decide (r.1 = ty)).flatMap fun r => pieces.map (Who.part r) := by
      intro ty hty
      exact List.mem_flatMap.mpr ⟨x.1, List.mem_filter.mpr ⟨hx1, by simp [hty]⟩, List.mem_map.mpr ⟨p, hp, rfl⟩⟩
    cases hty : x.1.1 <;> simp [this _ hty]
  · simp only [List.mem_append]
    exact Or.inl (Or.inl (Or.inl (Or.inr hi)))

/-- The channels used by a node other than a junction. -/
def Node.uses : Node → Option (List (Kind × Nat))
  | .relay pull mon spy push => some (relayChans pull mon spy push)
  | .regulator pull push spy ctl => some (regulatorChans pull push spy ctl)
  | .junction _ _ _ => none

theorem node_uses {n : Node} {l : List (Kind × Nat)} (hl : n.uses = some l) {tr : List Ev} (h : n.task.Partial tr) : ∀ e ∈ tr, Within l e.q := by
  cases n with
  | relay pull mon spy push =>
    cases hl
    exact relayTask_only h
  | regulator pull push spy ctl =>
    cases hl
    refine Task.only (t := regulatorTask pull push spy ctl) (fun _ => regulatorBody_only) ?_ h
    intro kc hkc kc' hk
    simp only [Req.on, Option.some.injEq] at hk
    subst hk
    simp only [regulatorTask, List.mem_append] at hkc
    simp only [regulatorChans, List.mem_append]
    grind
  | junction => cases hl

/-- What five of them wait for, and on which channel, for ever. -/
def weirStuck (i : Who) : Option (Req × Kind × Nat) :=
  if i = .part (.regulator, "gate".toList) .main then some (.send .data 1 [10], .data, 1)
  else if i = .manager "gate".toList then some (.send .ctl 1 (), .ctl, 1)
  else if i = .part (.buffer, "tank".toList) .input then some (.send .mon 8 (.wrote 0), .mon, 8)
  else if i = .part (.buffer, "tank".toList) .count then some (.send .size 4 (9 : Nat), .size, 4)
  else if i = .part (.junction, "meet".toList) .main then some (.send .data 3 [10], .data, 3)
  else none

/-- The others use other channels. -/
theorem weir_apart : ∀ i ∈ weirActs.map Prod.fst, weirStuck i = none → ((weirReady.2.node i).bind Node.uses).any (fun l =>
    [(Kind.data, 1), (.ctl, 1), (.mon, 8), (.size, 4), (.data, 3)].all fun kc => decide (kc ∉ l)) = true := by decide +kernel

theorem weir_jams : ∃ τ as st, Stands weirCaps weirActs as st τ 0 ∧ (awaitsNow as 0 (.send .data 1 [10]) ∧ awaitsNow as 3 (.send .ctl 1 ()) ∧
    awaitsNow as 6 (.send .mon 8 (.wrote 0)) ∧ awaitsNow as 8 (.send .size 4 (9 : Nat)) ∧ awaitsNow as 9 (.send .data 3 [10])) ∧
    ∀ kcn ∈ [(Kind.data, 1, 8), (.ctl, 1, 1), (.mon, 8, 8), (.size, 4, 8), (.data, 3, 8)], (st kcn.1 kcn.2.1).q.length = kcn.2.2 ∧ (st kcn.1 kcn.2.1).closed = false := by
  have h : (simulate weirCaps 1000 weirRounds (weirActs.map Actor.begin) Store.init).any (fun x =>
      awaitsNow x.1 0 (.send .data 1 [10]) && awaitsNow x.1 3 (.send .ctl 1 ()) && awaitsNow x.1 6 (.send .mon 8 (.wrote 0)) && awaitsNow x.1 8 (.send .size 4 (9 : Nat)) &&
      awaitsNow x.1 9 (.send .data 3 [10]) &&
      [(Kind.data, 1, 8), (.ctl, 1, 1), (.mon, 8, 8), (.size, 4, 8), (.data, 3, 8)].all (fun kcn => decide ((x.2 kcn.1 kcn.2.1).q.length = kcn.2.2) && !(x.2 kcn.1 kcn.2.1).closed)) = true := by
    decide +kernel
  cases hx : simulate weirCaps 1000 weirRounds (weirActs.map Actor.begin) Store.init with
  | none => rw [hx] at h; simp at h
  | some x =>
    obtain ⟨as, st⟩ := x
    rw [hx] at h
    simp only [Option.any_some, Bool.and_eq_true, List.all_eq_true, decide_eq_true_eq, Bool.not_eq_true'] at h
    obtain ⟨⟨⟨⟨⟨h1, h2⟩, h3⟩, h4⟩, h5⟩, h6⟩ := h
    obtain ⟨τ, S⟩ := simulate_sound (by rw [weir_who]; decide) hx
    exact ⟨τ, as, st, S, ⟨h1, h2, h3, h4, h5⟩, h6⟩

/-- The manager has something to say to a regulator upstream of its buffers: everything the regulator lets through gets into each of them. -/
def Upstream (hs : List Hop) (c : Capture) : Prop := ∀ b ∈ c.buffers, Relation.TransGen (Leads hs) (.part (.regulator, c.regulator) .main) (.part (.buffer, b) .input)

theorem weir_upstream : ∀ c ∈ weirReady.1, Upstream (weir.map (·.2)) c := by
  have : weirReady.1 = [⟨0, 1, "gate".toList, ["tank".toList]⟩] := by decide +kernel
  rw [this]
  intro c hc b hb
  rw [List.mem_singleton] at hc
  subst hc
  rw [List.mem_singleton] at hb
  subst hb
  exact .tail (.single (.hop (h := ⟨⟨.regulator, "gate".toList, .out⟩, none, ⟨.junction, "meet".toList⟩, ⟨.terminate, 0⟩, none⟩) (by simp [weir]) (by decide)))
    (.hop (h := ⟨⟨.junction, "meet".toList, .out⟩, none, ⟨.buffer, "tank".toList⟩, ⟨.terminate, 0⟩, none⟩) (by simp [weir]) (by decide))

/-- **C69** is false of the code. There is a pipeline without circles, its only regulator upstream of the only buffer that controls it, that hangs: after some events (everything polled as
in the code, with the capacities of the code, nothing having failed) the regulator, its manager, the junction and the input part and count of the buffer do nothing any more, so
the program never ends, whatever happens. The regulator, whose output is full, has not looked at the pause request; the buffer having become empty again, the manager waits for
the resume request to fit behind it; with nobody taking the size reports the count waits; with nobody taking its notifications the buffer takes nothing in; so the junction waits, which the
regulator waits for. -/
theorem C69_refuted : ∃ (c : Config) (R : Map Hop) (w w' : Waiter) (order : List (Str × Watch)) (cs : List Capture) (rs : List CompRef) (τ : List (Who × Ev)),
    c.connection = hopSets R ∧ getWaiter c = .ok w ∧ w.regulatorSettings order = .ok (cs, w') ∧ Complete (R.map (·.2)) ∧ CircleFree (R.map (·.2)) ∧
    (∀ c ∈ cs, Upstream (R.map (·.2)) c) ∧ rs.Perm (w'.comps.map Prod.fst) ∧
    w'.Run cs (realCaps (R.map (·.2))) τ ∧ Polled (realCaps (R.map (·.2))) (w'.joined cs rs) τ 0 ∧ (∀ i, ∀ f ∈ acts (proj i τ), f.fails = false) ∧
    ∀ τ', w'.Run cs (realCaps (R.map (·.2))) (τ ++ τ') → ¬ w'.Over cs (τ ++ τ') ∧ ∀ x ∈ τ', x.1 ≠ .part (.junction, "meet".toList) .main := by
  obtain ⟨τ, as, st, S, ⟨a0, a3, a6, a8, a9⟩, hfull⟩ := weir_jams
  have hrun : weirReady.2.Run weirReady.1 weirCaps τ := by
    refine ⟨⟨by rw [S.store]; rfl, ?_⟩, ?_, ?_⟩
    · intro i t ht
      have hm := sys_joined weir_order ht
      have hm' : (i, t) ∈ as.map Actor.key := by rw [S.keys]; exact hm
      obtain ⟨a, ha, hk⟩ := List.mem_map.mp hm'
      cases hk
      exact (S.left a ha).partial
    · intro x hx hn
      have := S.known x hx
      obtain ⟨⟨i, t⟩, hm, hi⟩ := List.mem_map.mp this
      have h1 := joined_sys hm
      rw [← hi] at hn
      rw [h1] at hn; cases hn
    · intro τ₁ τ₂ r e hs
      have := S.known (.part r .exit, e) (by rw [hs]; simp)
      rw [weir_who] at this
      simp at this
  have stuck : ∀ {n i q}, (weirActs.map Prod.fst)[n]? = some i → awaitsNow as n q = true → ∃ t, weirReady.2.sys weirReady.1 i = some t ∧ t.Awaits (proj i τ) q := by
    intro n i q hn ha
    obtain ⟨j, t, h1, h2⟩ := S.awaits ha
    rw [List.getElem?_map, h1] at hn
    cases hn
    exact ⟨t, joined_sys (List.mem_of_getElem? h1), h2⟩
  have full : ∀ {k : Kind} {ch n : Nat} (v : k.Payload), (k, ch, n) ∈ [(Kind.data, 1, 8), (.ctl, 1, 1), (.mon, 8, 8), (.size, 4, 8), (.data, 3, 8)] →
      weirCaps k ch = some n → Impossible weirCaps st (.send k ch v) := by
    intro k ch n v hm hcap r
    have := hfull _ hm
    cases r with
    | true => simp [exec, this.1, this.2, hcap, hasRoom]
    | false => simp [exec, this.2]
  have haw : ∀ i q k ch, weirStuck i = some (q, k, ch) → (∃ t, weirReady.2.sys weirReady.1 i = some t ∧ t.Awaits (proj i τ) q) ∧ q.on = some (k, ch) ∧ Impossible weirCaps st q := by
    intro i q k ch hi
    unfold weirStuck at hi
    split at hi
    · rename_i h; subst h; cases hi
      exact ⟨stuck (by rw [weir_who]; rfl) a0, rfl, full _ (n := 8) (by simp) rfl⟩
    · split at hi
      · rename_i h; subst h; cases hi
        exact ⟨stuck (by rw [weir_who]; rfl) a3, rfl, full _ (n := 1) (by simp) rfl⟩
      · split at hi
        · rename_i h; subst h; cases hi
          exact ⟨stuck (by rw [weir_who]; rfl) a6, rfl, full _ (n := 8) (by simp) rfl⟩
        · split at hi
          · rename_i h; subst h; cases hi
            exact ⟨stuck (by rw [weir_who]; rfl) a8, rfl, full _ (n := 8) (by simp) rfl⟩
          · split at hi
            · rename_i h; subst h; cases hi
              exact ⟨stuck (by rw [weir_who]; rfl) a9, rfl, full _ (n := 8) (by simp) rfl⟩
            · cases hi
  refine ⟨weirConfig, weir, weirWaiter, weirReady.2, _, weirReady.1, weirOrder, τ, rfl, weir_built, weir_prepared, weir_complete, weir_free, weir_upstream, weir_order, hrun, S.polled, ?_, ?_⟩
  · intro i f hf
    obtain ⟨e, he, rfl⟩ := List.mem_map.mp hf
    exact S.fine (i, e) (mem_proj.mp he)
  · intro τ' hr'
    have hfz := (frozen weirStuck S.store haw hr'.exec (by
      intro x hx hn i q k ch hi hon
      have hk := hr'.known x (by simp [hx])
      obtain ⟨t, ht⟩ := Option.ne_none_iff_exists'.mp hk
      have hm : x.1 ∈ weirActs.map Prod.fst := List.mem_map.mpr ⟨_, sys_joined weir_order ht, rfl⟩
      have h1 := weir_apart x.1 hm hn
      cases hnode : weirReady.2.node x.1 with
      | none => rw [hnode] at h1; simp at h1
      | some n =>
        rw [hnode] at h1
        cases hu : n.uses with
        | none => simp [hu] at h1
        | some l =>
          simp only [Option.bind_some, hu, Option.any_some] at h1
          rw [sys_node hnode] at ht; cases ht
          have hp := hr'.exec.tasks x.1 _ (sys_node hnode)
          have h2 := node_uses hu hp x.2 (mem_proj.mpr (by simp [hx])) (k, ch) hon
          rw [List.all_eq_true] at h1
          have h3 := h1 (k, ch) (by
            unfold weirStuck at hi
            iterate 5 (split at hi; · cases hi; simp)
            cases hi)
          simp only [decide_eq_true_eq] at h3
          exact h3 h2)).1
    refine ⟨?_, ?_⟩
    · intro ho
      obtain ⟨⟨t, ht, haw'⟩, _⟩ := haw (.manager "gate".toList) _ _ _ rfl
      have hd := ho _ t ht
      rw [proj_append] at hd
      have : proj (.manager "gate".toList) τ' = [] := by
        unfold proj
        rw [List.filterMap_eq_nil_iff]
        intro y hy
        rw [if_neg]
        intro he
        have := hfz y hy
        rw [he] at this; cases this
      rw [this, List.append_nil] at hd
      exact hd.stops (e := ⟨.send .ctl 1 (), true⟩) (u := []) (haw'.step true)
    · intro x hx he
      have := hfz x hx
      rw [he] at this; cases this

/-- **C69** (partial) What flow control can do to a runtime in which nothing leads back: as long as not everything has ended, some activity that has not ended can make a step and does
more than look again, or a manager waits for room for a request to a regulator that has not taken out an earlier one, or a regulator has been paused and its manager has not asked it
to resume. Missing: that, as long as nothing fails, only the second can last. -/
theorem C69_standstill_partial {c : Config} {R : Map Hop} (hc : c.connection = hopSets R) {w w' : Waiter} (hw : getWaiter c = .ok w) {order : List (Str × Watch)} {cs : List Capture}
    (hp : w.regulatorSettings order = .ok (cs, w')) (hC : Complete (R.map (·.2))) (hcf : CircleFree (R.map (·.2))) {cap : Caps} (hcap : ∀ k ch, cap k ch ≠ some 0)
    {τ : List (Who × Ev)} (hr : w'.Run cs cap τ) {st : Store} (hst : execAll cap Store.init (τ.map Prod.snd) = some st)
    (hj : ∀ i inputs pushs spy, w'.node i = some (.junction inputs pushs spy) → ∀ f ∈ acts (proj i τ), f.ruins pushs = false) (ho : ¬ w'.Over cs τ) :
    (∃ i t, w'.sys cs i = some t ∧ ¬ t.Done (proj i τ) ∧ ¬ w'.Resting cs st τ i ∧ w'.CanStep cs cap τ i) ∨ (∃ r, w'.Unheard cs cap st τ r) ∨ ∃ r, w'.Paused cs st τ r :=
  (assembled hc hw hp).standstill hC (attended hc hw hp) hcf hr hst hcap hj ho

theorem realCaps_room (hs : List Hop) (k : Kind) (ch : Nat) : realCaps hs k ch ≠ some 0 := by
  unfold realCaps
  split
  · split
    · split <;> simp
    · simp
  · simp
  · simp

/-- The hypotheses are met, for example by the hanging pipeline of `C69_refuted`, in the state in which it hangs. -/
example : ∃ (c : Config) (R : Map Hop) (w w' : Waiter) (order : List (Str × Watch)) (cs : List Capture) (τ : List (Who × Ev)) (st : Store),
    c.connection = hopSets R ∧ getWaiter c = .ok w ∧ w.regulatorSettings order = .ok (cs, w') ∧ Complete (R.map (·.2)) ∧ CircleFree (R.map (·.2)) ∧
    (∀ k ch, realCaps (R.map (·.2)) k ch ≠ some 0) ∧ w'.Run cs (realCaps (R.map (·.2))) τ ∧ execAll (realCaps (R.map (·.2))) Store.init (τ.map Prod.snd) = some st ∧
    (∀ i inputs pushs spy, w'.node i = some (.junction inputs pushs spy) → ∀ f ∈ acts (proj i τ), f.ruins pushs = false) ∧ ¬ w'.Over cs τ := by
  obtain ⟨c, R, w, w', order, cs, _, τ, h1, h2, h3, h4, h5, _, _, h6, _, h7, h8⟩ := C69_refuted
  obtain ⟨st, hst⟩ := Option.isSome_iff_exists.mp h6.exec.chans
  refine ⟨c, R, w, w', order, cs, τ, st, h1, h2, h3, h4, h5, realCaps_room _, h6, hst, fun i _ _ _ _ f hm => not_ruins (h7 i f hm), ?_⟩
  have := (h8 [] (by rw [List.append_nil]; exact h6)).1
  rwa [List.append_nil] at this

end Verif
