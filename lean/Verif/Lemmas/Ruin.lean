import Verif.Spec.Network
import Verif.Lemmas.Fails
import Verif.Props.JunctionEnd
/-!
# What junctions cannot get over

A junction gets over writes to outputs that are gone unless the configuration says to terminate then. So when it ends
with an error there is something in its trace that ruined it, and when nothing did it closes everything it had.
-/
namespace Verif

/-- What ruins a component is a failure. -/
theorem not_ruins {pushs : List Push} {a : Act} (h : a.fails = false) : a.ruins pushs = false := by
  cases a with
  | offer t d w => cases w <;> simp [Act.fails, Act.ruins] at h ⊢
  | _ => simpa [Act.fails, Act.ruins] using h

theorem ruins_mono {p q : List Push} {a : Act} (h : ∀ x ∈ p, x ∈ q) (hr : a.ruins p = true) : a.ruins q = true := by
  cases a with
  | offer t d w =>
    cases w <;> simp only [Act.ruins, List.any_eq_true] at hr ⊢
    · exact hr
    · obtain ⟨x, hx, hb⟩ := hr
      exact ⟨x, h x hx, hb⟩
  | _ => simpa [Act.ruins] using hr

/-- Every error of the program comes after something that ruins a component with these outputs. -/
def MRuins (ps : List Push) {α : Type} (p : M α) : Prop := ∀ tr e, MRuns p tr (.error e) → ∃ a ∈ acts tr, a.ruins ps = true

theorem MRuins.bind {ps} {α β : Type} {p : M α} {f : α → M β} (hp : MRuins ps p) (hf : ∀ a, MRuins ps (f a)) : MRuins ps (p >>= f) := by
  intro tr e h
  rw [mruns_bind] at h
  rcases h with ⟨e', h0, h⟩ | ⟨t1, a, t2, rfl, h1, h2⟩
  · exact hp _ _ h
  · obtain ⟨x, hx, hf⟩ := hf _ _ _ h2
    exact ⟨x, by simp [hx], hf⟩

theorem mruins_pure {ps} {α : Type} (a : α) : MRuins ps (pure a : M α) := by intro tr e h; simp at h

theorem mruins_ask {ps} {β : Type} {q : Req} {f : q.Resp → M β} (h : ∀ r, (act ⟨q, r⟩).ruins ps = true ∨ MRuins ps (f r)) : MRuins ps (ask q >>= f) := by
  intro tr e hr
  rw [mruns_bind] at hr
  rcases hr with ⟨e', h0, h'⟩ | ⟨t1, a, t2, rfl, h1, h2⟩
  · rw [mruns_ask] at h'; obtain ⟨v, _, h'⟩ := h'; simp at h'
  · rw [mruns_ask] at h1
    obtain ⟨v, rfl, h1⟩ := h1
    simp at h1
    subst h1
    rcases h a with h | h
    · exact ⟨act ⟨q, a⟩, by simp, h⟩
    · obtain ⟨x, hx, hf⟩ := h _ _ h2
      exact ⟨x, by simp only [acts_append, List.mem_append]; exact Or.inr hx, hf⟩

theorem motionRead_ruins {ps} {j c} {b : Bool} : MRuins ps (motionRead (.receiver j c) b) := by
  cases b
  · exact mruins_ask fun r => Or.inr (by cases r <;> exact mruins_pure _)
  · exact mruins_ask fun r => Or.inr (by cases r <;> exact mruins_pure _)

theorem writeOne_ruins {ps : List Push} {x : IOW} {j c} {n : Nat} (hm : Push.sender j c ∈ ps) : MRuins ps (writeOne x (.sender j c) n) := by
  cases x with
  | finished => exact mruins_pure _
  | skipped => exact mruins_pure _
  | data d =>
    simp only [writeOne]
    split
    · rename_i hb
      refine MRuins.bind ?_ fun _ => mruins_pure _
      refine mruins_ask fun r => ?_
      cases r
      · left
        show (ps.any fun p => p.target == some (End.chan c) && p.breakable == .terminate) = true
        exact List.any_eq_true.mpr ⟨_, hm, by simp [Push.target, hb]⟩
      · exact Or.inr (mruins_pure _)
    · intro tr e hr
      exfalso
      rw [mruns_tryCatch] at hr
      rcases hr with ⟨a, h0, _⟩ | ⟨t1, e', t2, rfl, h1, h2⟩
      · simp at h0
      · rw [mruns_bind] at h1
        rcases h1 with ⟨e'', h0, h1⟩ | ⟨u1, a, u2, rfl, h1, h3⟩
        · cases h0
          unfold motionWrite at h1
          rw [mruns_bind] at h1
          rcases h1 with ⟨e'', h0, h1⟩ | ⟨u1, a, u2, rfl, h1, h3⟩
          · rw [mruns_ask] at h1; obtain ⟨v, _, h1⟩ := h1; simp at h1
          · cases a
            · simp at h3
              obtain ⟨rfl, rfl⟩ := h3
              simp at h2
            · simp at h3
        · simp at h3

theorem spyOne_ruins {ps} {x : IOW} {spy : Option Nat} {push : Push} : MRuins ps (spyOne spy x push) := by
  unfold spyOne
  split
  · refine mruins_ask fun r => ?_
    cases r
    · exact Or.inl rfl
    · exact Or.inr (mruins_pure _)
  · exact mruins_pure _

theorem pushAll_ruins {ps : List Push} {x : IOW} {spy : Option Nat} {pushs : List Push} {n : Nat} (hs : AllSenders pushs) (hm : ∀ p ∈ pushs, p ∈ ps) :
    MRuins ps (pushAll x spy pushs n) := by
  induction pushs generalizing n with
  | nil => exact mruins_pure _
  | cons p qs ih =>
    obtain ⟨j, c, rfl⟩ := hs p (by simp)
    exact MRuins.bind (writeOne_ruins (hm _ (by simp))) fun _ => MRuins.bind spyOne_ruins fun _ =>
      ih (fun q hq => hs q (by simp [hq])) (fun q hq => hm q (by simp [hq]))

theorem notifyRead_ruins {ps} {mon : Notifications} {pull : Pull} : MRuins ps (notifyRead mon pull) := by
  unfold notifyRead
  split
  · refine mruins_ask fun r => ?_
    cases r
    · exact Or.inl rfl
    · exact Or.inr (mruins_pure _)
  · exact mruins_pure _

theorem notifyWritten_ruins {ps} {mon : Notifications} {pull : Pull} : MRuins ps (notifyWritten mon pull) := by
  unfold notifyWritten
  split
  · refine mruins_ask fun r => ?_
    cases r
    · exact Or.inl rfl
    · exact Or.inr (mruins_pure _)
  · exact mruins_pure _

theorem motionWorker_ruins {j c mon pushs spy b} (hs : AllSenders pushs) : MRuins pushs (motionWorker (.receiver j c) mon pushs spy b) := by
  unfold motionWorker
  refine MRuins.bind motionRead_ruins fun x => ?_
  split
  · exact mruins_pure _
  · refine MRuins.bind notifyRead_ruins fun _ => MRuins.bind (pushAll_ruins hs fun _ h => h) fun n => MRuins.bind notifyWritten_ruins fun _ => ?_
    split <;> exact mruins_pure _

/-- A junction that ends with an error has met something it could not get over. -/
theorem junction_ruined {inputs pushs spy tr e} (hd : DistinctInputs inputs) (hs : AllSenders pushs)
    (hi : ∀ x ∈ inputs, ∃ j c, x.1 = .receiver j c) (h : JunctionRuns inputs pushs spy tr (.error e)) :
    ∃ a ∈ acts tr, a.ruins pushs = true := by
  obtain ⟨s, t1, t2, rfl, h1, h2⟩ := LoopRuns.rounds h
  obtain ⟨D, hJ, _⟩ := JInv.init.rounds hd hs h1
  suffices h : ∃ a ∈ acts t2, a.ruins pushs = true by
    obtain ⟨a, ha, hf⟩ := h; exact ⟨a, by simp [ha], hf⟩
  obtain ⟨k, ws1, ws2, tail, rfl, hp, hend⟩ := junctionBody_inv h2 hs
  rcases hend with ⟨e', ws', w, _, rfl, hres, _⟩ | ⟨_, _, ⟨s', hx, _⟩ | ⟨_, hx, _⟩⟩
  · have hmem : w.pull ∈ s.stdin.flatten := by
      have := hp.group.subset (List.mem_map.mpr ⟨w, by simp, rfl⟩ : w.pull ∈ _)
      cases hg : s.stdin[k]? with
      | none => rw [hg] at this; simp at this
      | some g => rw [hg] at this; exact List.mem_flatten.mpr ⟨g, List.mem_of_getElem? hg, by simpa using this⟩
    obtain ⟨x, hx, hxp⟩ := List.mem_map.mp (hJ.mem.mp hmem).1
    obtain ⟨j, c, hj⟩ := hi x hx
    rw [hxp] at hj
    have hw := hp.runs2 w (by simp)
    unfold PollRun at hw
    rw [hres, hj] at hw
    obtain ⟨a, ha, hf⟩ := motionWorker_ruins hs _ _ hw
    refine ⟨a, ?_, hf⟩
    simp [ha]
  · simp at hx
  · simp at hx

/-- A junction that has ended has closed all its inputs. -/
theorem junction_shuts {inputs pushs spy tr r} (hd : DistinctInputs inputs) (hs : AllSenders pushs) (h : JunctionRuns inputs pushs spy tr r) {j c n}
    (hm : (Pull.receiver j c, n) ∈ inputs) : Act.close .data c ∈ acts tr := by
  cases r with
  | error e => exact (C15_refuted_outputs_left_open hd hs h).2 j c n hm
  | ok m =>
    obtain ⟨s, t1, t2, rfl, h1, h2⟩ := h.rounds
    obtain ⟨D, hJ, hC⟩ := rounds_closed hd hs JInv.init closedAre_nil h1
    rw [List.nil_append] at hJ hC
    obtain ⟨k, ws1, ws2, tail, rfl, hp, hend⟩ := junctionBody_inv h2 hs
    have hin := inert_of_tail hs hend
    rcases hend with ⟨_, _, _, h, _⟩ | ⟨hok, hk, ⟨s', hx, _⟩ | ⟨hnil, hx, ha⟩⟩
    · simp at h
    · simp at hx
    · have hk' : (s.stdin[k]? = some (ws2.map Poll.pull)) ∨ (k = s.stdin.length ∧ ws2 = []) := by
        rcases hk with ⟨h, _⟩ | h
        · exact Or.inl h
        · exact Or.inr h
      obtain ⟨D', hJ', hD'⟩ := hJ.step hd hs hp hok hk' hin ⟨0⟩
      have : Pull.receiver j c ∈ D' := by
        apply Classical.byContradiction
        intro hno
        have := hJ'.mem.mpr ⟨List.mem_map.mpr ⟨_, hm, rfl⟩, hno⟩
        simp only [hnil] at this
        simp at this
      have hc : Act.close .data c ∈ dropActs (Pull.receiver j c) := by simp [dropActs]
      rw [hD', List.mem_append] at this
      rw [acts_append, acts_append, List.mem_append, List.mem_append]
      rcases this with h | h
      · exact Or.inl ((hC _ _).mpr ⟨_, h, hc⟩)
      · right; right
        rw [ha, List.mem_append]
        exact Or.inl (mem_finActs.mpr ⟨_, h, hc⟩)

end Verif
