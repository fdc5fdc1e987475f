import Verif.Spec.Network
import Verif.Lemmas.JunctionClose
import Verif.Lemmas.RegulatorRuns
/-!
# Errors have causes

Whenever a component ends with an error, something went wrong in its trace.
-/
namespace Verif

/-- Every error of the program comes after something that failed. -/
def MFails {α : Type} (p : M α) : Prop := ∀ tr e, MRuns p tr (.error e) → ∃ a ∈ acts tr, a.fails = true

theorem MFails.bind {α β : Type} {p : M α} {f : α → M β} (hp : MFails p) (hf : ∀ a, MFails (f a)) : MFails (p >>= f) := by
  intro tr e h
  rw [mruns_bind] at h
  rcases h with ⟨e', h0, h⟩ | ⟨t1, a, t2, rfl, h1, h2⟩
  · exact hp _ _ h
  · obtain ⟨x, hx, hf⟩ := hf _ _ _ h2
    exact ⟨x, by simp [hx], hf⟩

theorem mfails_pure {α : Type} (a : α) : MFails (pure a : M α) := by intro tr e h; simp at h

theorem mfails_ask {β : Type} {q : Req} {f : q.Resp → M β} (h : ∀ r, (act ⟨q, r⟩).fails = true ∨ MFails (f r)) : MFails (ask q >>= f) := by
  intro tr e hr
  rw [mruns_bind] at hr
  rcases hr with ⟨e', h0, h'⟩ | ⟨t1, a, t2, rfl, h1, h2⟩
  · rw [mruns_ask] at h'; obtain ⟨v, _, h'⟩ := h'; simp at h'
  · rw [mruns_ask] at h1
    obtain ⟨v, rfl, h1⟩ := h1
    simp at h1
    subst h1
    rcases h a with h | h
    · exact ⟨act ⟨q, a⟩, by simp, h⟩
    · obtain ⟨x, hx, hf⟩ := h _ _ h2
      exact ⟨x, by simp only [acts_append, List.mem_append]; exact Or.inr hx, hf⟩

theorem MFails.tryCatch {α : Type} {p : M α} {h : MErr → M α} (hp : MFails p) : MFails (tryCatch p h) := by
  intro tr e hr
  rw [mruns_tryCatch] at hr
  rcases hr with ⟨a, h0, _⟩ | ⟨t1, e', t2, rfl, h1, h2⟩
  · simp at h0
  · obtain ⟨x, hx, hf⟩ := hp _ _ h1
    exact ⟨x, by simp [hx], hf⟩

theorem motionRead_fails {pull : Pull} {b : Bool} (hp : pull ≠ .none) (hb : b = true → ∃ j c, pull = .receiver j c) : MFails (motionRead pull b) := by
  cases pull with
  | none => exact absurd rfl hp
  | receiver j c =>
    cases b
    · exact mfails_ask fun r => Or.inr (by cases r <;> exact mfails_pure _)
    · exact mfails_ask fun r => Or.inr (by cases r <;> exact mfails_pure _)
  | stream j hh =>
    cases b with
    | true => obtain ⟨_, _, h⟩ := hb rfl; simp at h
    | false =>
      refine mfails_ask fun r => ?_
      cases r
      · exact Or.inr (mfails_pure _)
      · exact Or.inr (mfails_pure _)
      · exact Or.inl rfl

theorem motionWrite_fails {push : Push} {d : Bytes} : MFails (motionWrite push d) := by
  cases push with
  | none => exact mfails_pure _
  | sender j c =>
    refine mfails_ask fun r => ?_
    cases r
    · exact Or.inl rfl
    · exact Or.inr (mfails_pure _)
  | io j hh =>
    refine mfails_ask fun r => ?_
    cases r
    · exact Or.inr (mfails_pure _)
    · exact Or.inl rfl
    · exact Or.inl rfl

theorem writeOne_fails {x : IOW} {push : Push} {n : Nat} : MFails (writeOne x push n) := by
  cases x with
  | finished => exact mfails_pure _
  | skipped => exact mfails_pure _
  | data d =>
    simp only [writeOne]
    split
    · exact MFails.bind motionWrite_fails fun _ => mfails_pure _
    · exact MFails.tryCatch (MFails.bind motionWrite_fails fun _ => mfails_pure _)

theorem spyOne_fails {x : IOW} {spy : Option Nat} {push : Push} : MFails (spyOne spy x push) := by
  unfold spyOne
  split
  · refine mfails_ask fun r => ?_
    cases r
    · exact Or.inl rfl
    · exact Or.inr (mfails_pure _)
  · exact mfails_pure _

theorem pushAll_fails {x : IOW} {spy : Option Nat} {pushs : List Push} {n : Nat} : MFails (pushAll x spy pushs n) := by
  induction pushs generalizing n with
  | nil => exact mfails_pure _
  | cons p ps ih => exact MFails.bind writeOne_fails fun _ => MFails.bind spyOne_fails fun _ => ih

theorem notifyRead_fails {mon : Notifications} {pull : Pull} : MFails (notifyRead mon pull) := by
  unfold notifyRead
  split
  · refine mfails_ask fun r => ?_
    cases r
    · exact Or.inl rfl
    · exact Or.inr (mfails_pure _)
  · exact mfails_pure _

theorem notifyWritten_fails {mon : Notifications} {pull : Pull} : MFails (notifyWritten mon pull) := by
  unfold notifyWritten
  split
  · refine mfails_ask fun r => ?_
    cases r
    · exact Or.inl rfl
    · exact Or.inr (mfails_pure _)
  · exact mfails_pure _

theorem motionWorker_fails {pull mon pushs spy b} (hp : pull ≠ .none) (hb : b = true → ∃ j c, pull = .receiver j c) :
    MFails (motionWorker pull mon pushs spy b) := by
  unfold motionWorker
  refine MFails.bind (motionRead_fails hp hb) fun x => ?_
  split
  · exact mfails_pure _
  · refine MFails.bind notifyRead_fails fun _ => MFails.bind pushAll_fails fun n => MFails.bind notifyWritten_fails fun _ => ?_
    split <;> exact mfails_pure _

/-- A relay that ends with an error has had something fail. -/
theorem relay_fails {pull mon spy push n tr e} (h : LoopRuns (motionBody pull mon spy push) n tr (.error e)) (hp : pull ≠ .none) :
    ∃ a ∈ acts tr, a.fails = true := by
  obtain ⟨s, t1, t2, rfl, _, h2⟩ := h.rounds
  suffices h : ∃ a ∈ acts t2, a.fails = true by
    obtain ⟨a, ha, hf⟩ := h; exact ⟨a, by simp [ha], hf⟩
  rcases motionBody_inv h2 with ⟨e', _, hw⟩ | ⟨res, u1, u2, rfl, hw, ⟨_, _, h0⟩ | ⟨_, ⟨_, h0⟩ | ⟨j, hh, _, _, ha⟩⟩⟩
  · exact motionWorker_fails hp (by simp) _ _ hw
  · simp at h0
  · simp at h0
  · exact ⟨.flush hh false, by simp [ha], rfl⟩

theorem regulator_fails {pull push spy ctl n tr e} (h : LoopRuns (regulatorBody pull push spy ctl) n tr (.error e)) (hp : pull ≠ .none) :
    ∃ a ∈ acts tr, a.fails = true := by
  obtain ⟨s, t1, t2, rfl, _, h2⟩ := h.rounds
  suffices h : ∃ a ∈ acts t2, a.fails = true by
    obtain ⟨a, ha, hf⟩ := h; exact ⟨a, by simp [ha], hf⟩
  obtain ⟨r, u1, u2, rfl, hw, h2⟩ := regulatorBody_inv h2
  rcases h2 with ⟨res, rfl, hf, hc, h0⟩ | ⟨res, rfl, hf, hc, h0⟩ | ⟨e, rfl, rfl, h0⟩
  · simp at h0
  · simp at h0
  · rw [List.append_nil]
    exact motionWorker_fails hp (by simp) _ _ hw

theorem junction_fails {inputs pushs spy tr e} (hd : DistinctInputs inputs) (hs : AllSenders pushs)
    (hi : ∀ x ∈ inputs, ∃ j c, x.1 = .receiver j c) (h : JunctionRuns inputs pushs spy tr (.error e)) :
    ∃ a ∈ acts tr, a.fails = true := by
  obtain ⟨s, t1, t2, rfl, h1, h2⟩ := LoopRuns.rounds h
  obtain ⟨D, hJ, _⟩ := JInv.init.rounds hd hs h1
  suffices h : ∃ a ∈ acts t2, a.fails = true by
    obtain ⟨a, ha, hf⟩ := h; exact ⟨a, by simp [ha], hf⟩
  obtain ⟨k, ws1, ws2, tail, rfl, hp, hend⟩ := junctionBody_inv h2 hs
  rcases hend with ⟨e', ws', w, _, rfl, hres, _⟩ | ⟨_, _, ⟨s', hx, _⟩ | ⟨_, hx, _⟩⟩
  · have hmem : w.pull ∈ s.stdin.flatten := by
      have := hp.group.subset (List.mem_map.mpr ⟨w, by simp, rfl⟩ : w.pull ∈ _)
      cases hg : s.stdin[k]? with
      | none => rw [hg] at this; simp at this
      | some g => rw [hg] at this; exact List.mem_flatten.mpr ⟨g, List.mem_of_getElem? hg, by simpa using this⟩
    obtain ⟨x, hx, hxp⟩ := List.mem_map.mp (hJ.mem.mp hmem).1
    obtain ⟨j, c, hj⟩ := hi x hx
    rw [hxp] at hj
    have hw := hp.runs2 w (by simp)
    unfold PollRun at hw
    rw [hres] at hw
    obtain ⟨a, ha, hf⟩ := motionWorker_fails (by rw [hj]; simp) (fun _ => ⟨j, c, hj⟩) _ _ hw
    refine ⟨a, ?_, hf⟩
    simp [ha]
  · simp at hx
  · simp at hx

end Verif
