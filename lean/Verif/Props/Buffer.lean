import Verif.Lemmas.Edge
import Verif.Lemmas.Only
import Verif.Lemmas.Replay
/-!
# Property C23: what goes into a buffer comes out
-/
namespace Verif

/-- A buffer's two halves inside a larger system: they are tasks `a` and `b`, nobody else uses the channel between them, which is not
the buffer's input or output. -/
structure BufferIn {ι : Type} [DecidableEq ι] (cap : Caps) (sys : ι → Option Task) (τ : List (ι × Ev)) (a b : ι)
    (ch : BufferChans) (j : PullJourney) (out : Push) (t : End) : Prop where
  run : Execution cap sys τ
  ina : sys a = some (bufferIn ch j out)
  outb : sys b = some (bufferOut ch out)
  ne : a ≠ b
  own : ∀ x ∈ τ, x.2.q.on = some (.data, ch.inner) → x.1 = a ∨ x.1 = b
  input : ch.input ≠ ch.inner
  target : out.target = some t
  apart : t ≠ .chan ch.inner

section
variable {ι : Type} [DecidableEq ι] {cap : Caps} {sys : ι → Option Task} {τ : List (ι × Ev)} {a b : ι}
  {ch : BufferChans} {j : PullJourney} {out : Push} {t : End}

private theorem apartIn : ({ written := some ch.mIn } : Notifications).Apart := by rintro x ⟨h, _⟩; simp at h
private theorem apartOut : ({ read := some ch.mOut } : Notifications).Apart := by rintro x ⟨_, h⟩; simp at h

theorem receivedFrom_source {pull : Pull} {s : End} {tr : List Ev} (hs : pull.source = some s)
    (h : ∀ s d, Act.got s d ∈ acts tr → pull.source = some s) : receivedFrom s tr = received tr :=
  receivedFrom_eq (fun s' d hd => by have := h s' d hd; rw [hs] at this; exact (Option.some.inj this).symm)

theorem got_act {c : Nat} {e : Ev} (h : gotOf .data c e ≠ none) : ∃ d, act e = .got (.chan c) d := by
  obtain ⟨q, r⟩ := e
  cases q with
  | recv k c' =>
    cases k <;> cases r <;> simp [gotOf] at h
    obtain rfl := h
    exact ⟨_, rfl⟩
  | tryRecv k c' =>
    cases k <;> cases r <;> simp [gotOf] at h
    obtain rfl := h
    exact ⟨_, rfl⟩
  | _ => simp [gotOf] at h

theorem sent_act {c : Nat} {e : Ev} (h : sentOf .data c e ≠ none) : ∃ d, act e = .offer (.chan c) d .ok := by
  obtain ⟨q, r⟩ := e
  cases q with
  | send k c' v =>
    cases k <;> cases r <;> simp [sentOf] at h
    obtain rfl := h
    exact ⟨_, rfl⟩
  | _ => simp [sentOf] at h

/-- The facts about the two halves, taken together. -/
theorem BufferIn.facts (h : BufferIn cap sys τ a b ch j out t) :
    Ordered (proj a τ) ∧ Ordered (proj b τ) ∧
    (∀ x ∈ τ, sentOf .data ch.inner x.2 ≠ none → x.1 = a) ∧ (∀ x ∈ τ, gotOf .data ch.inner x.2 ≠ none → x.1 = b) ∧
    offeredTo (.chan ch.inner) (proj a τ) <+: received (proj a τ) ∧
    (received (proj a τ)).length ≤ (offeredTo (.chan ch.inner) (proj a τ)).length + 1 ∧
    receivedFrom (.chan ch.inner) (proj b τ) = received (proj b τ) ∧
    (offers (proj b τ)).map Offer.d <+: received (proj b τ) ∧
    (received (proj b τ)).length ≤ ((offers (proj b τ)).map Offer.d).length + 1 ∧
    (∀ o ∈ offers (proj b τ), o.to = t) ∧
    offeredTo (.chan ch.inner) (proj a τ) = (offers (proj a τ)).map Offer.d := by
  have pa := h.run.tasks a _ h.ina
  have pb := h.run.tasks b _ h.outb
  obtain ⟨_, _, _, _, _, _, _, ra, sa⟩ := relay_parts pa (by simp) apartIn
  obtain ⟨_, _, _, _, _, _, _, rb, sb⟩ := relay_parts pb (by simp) apartOut
  obtain ⟨a1, a2, a3⟩ := ra (.chan ch.inner) rfl
  obtain ⟨b1, b2, b3⟩ := rb t h.target
  have ea := offeredTo_eq a3
  refine ⟨relay_ordered pa (by simp) apartIn, relay_ordered pb (by simp) apartOut, ?_, ?_, by rw [ea]; exact a1, by rw [ea]; simpa using a2,
    receivedFrom_source (pull := .receiver ⟨0, 0⟩ ch.inner) rfl sb, b1, by simpa using b2, b3, ea⟩
  · intro x hx hs
    obtain ⟨d, hd⟩ := sent_act hs
    have hon : x.2.q.on = some (.data, ch.inner) := by
      cases hv : sentOf .data ch.inner x.2 with
      | none => exact absurd hv hs
      | some v => exact on_of_sent hv
    rcases h.own x hx hon with hi | hi
    · exact hi
    · exfalso
      have : (⟨.chan ch.inner, d, .ok⟩ : Offer) ∈ offers (proj b τ) := by
        unfold offers
        rw [List.mem_filterMap]
        refine ⟨_, List.mem_map.mpr ⟨x.2, mem_proj.mpr (by rw [← hi]; exact hx), hd⟩, rfl⟩
      exact h.apart (b3 _ this).symm
  · intro x hx hs
    obtain ⟨d, hd⟩ := got_act hs
    have hon : x.2.q.on = some (.data, ch.inner) := by
      cases hv : gotOf .data ch.inner x.2 with
      | none => exact absurd hv hs
      | some v => exact on_of_got hv
    rcases h.own x hx hon with hi | hi
    · exfalso
      have := sa (.chan ch.inner) d (List.mem_map.mpr ⟨x.2, mem_proj.mpr (by rw [← hi]; exact hx), hd⟩)
      simp [Pull.source] at this
      exact h.input this
    · exact hi

/-- **C23**, always: what a buffer has passed on is an initial segment of what it has accepted, all of it to its output. -/
theorem C23_buffer_prefix (h : BufferIn cap sys τ a b ch j out t) :
    (offers (proj b τ)).map Offer.d <+: received (proj a τ) ∧ ∀ o ∈ offers (proj b τ), o.to = t := by
  obtain ⟨oa, ob, hs, hg, a1, a2, eb, b1, b2, b3, ea⟩ := h.facts
  refine ⟨?_, b3⟩
  obtain ⟨st, hst⟩ := Option.isSome_iff_exists.mp h.run.chans
  have f := edge_prefix hst hs hg
  have pre := accepted_prefix hst ch.inner a
  have r1 : received (proj b τ) <+: received (proj a τ) := by
    have : received (proj b τ) <+: acceptedBy (.chan ch.inner) (proj a τ) := ⟨_, by rw [← eb]; exact f.symm⟩
    exact this.trans (pre.trans a1)
  exact b1.trans r1

/-- **C23**, while the output half is at work: what the buffer has passed on, followed by what it holds, is what it has accepted.
It holds what is in the channel between the halves and at most one message in each half. -/
theorem C23_buffer_holds (h : BufferIn cap sys τ a b ch j out t) {q : Req} (hq : (bufferOut ch out).Awaits (proj b τ) q)
    {st : Store} (hst : execAll cap Store.init (τ.map Prod.snd) = some st) :
    ∃ hb ha, received (proj a τ) = (offers (proj b τ)).map Offer.d ++ hb ++ (st .data ch.inner).q ++ ha ∧
      hb.length ≤ 1 ∧ ha.length ≤ 1 := by
  obtain ⟨oa, ob, hs, hg, ⟨ha, a1⟩, a2, eb, ⟨hb, b1⟩, b2, b3, ea⟩ := h.facts
  have f := edge_prefix hst hs hg
  have hopen := relay_running hq (by simp) apartOut (c := ch.inner) (by rw [h.target]; simpa using h.apart)
  rw [edge_open hst h.own (oa.retired _) hopen, eb] at f
  refine ⟨hb, ha, ?_, ?_, ?_⟩
  · rw [← a1, f, ← b1]
  · rw [← b1] at b2; simp at b2; exact b2
  · rw [← a1] at a2; simp at a2; exact a2

/-- **C23**, at the end: when both halves have ended without error and the output has accepted everything, the buffer has passed on everything it
accepted, in order, and its output has been closed after the last message. The number reported is that of the messages, plus one for the end. -/
theorem C23_buffer_complete (h : BufferIn cap sys τ a b ch j out t)
    {ta tb da db : List Ev} {n m : Nat} (hla : LoopRuns (bufferIn ch j out).body (0 : Nat) ta (.ok n)) (hpa : proj a τ = ta ++ da)
    (hlb : LoopRuns (bufferOut ch out).body (0 : Nat) tb (.ok m)) (hpb : proj b τ = tb ++ db)
    (hok : ∀ o ∈ offers (proj b τ), o.w = .ok) :
    (offers (proj b τ)).map (fun o => (o.to, o.d)) = (received (proj a τ)).map (fun d => (t, d)) ∧
    n = (received (proj a τ)).length + 1 ∧
    ∃ t1 t2, proj b τ = t1 ++ t2 ∧ closings t1 = [] ∧ offers t2 = [] ∧ closeActs out { read := some ch.mOut } <+: acts t2 := by
  obtain ⟨oa, ob, hs, hg, a1, a2, eb, b1, b2, b3, ea⟩ := h.facts
  obtain ⟨st, hst⟩ := Option.isSome_iff_exists.mp h.run.chans
  have dropa : da <+: dropEvs (bufferIn ch j out).drops :=
    Task.after hla (by rw [← hpa]; exact h.run.tasks a _ h.ina)
  have dropb : db <+: dropEvs (bufferOut ch out).drops :=
    Task.after hlb (by rw [← hpb]; exact h.run.tasks b _ h.outb)
  obtain ⟨ra, ea', oa', _⟩ := drops_acts dropa
  obtain ⟨rb, eb', ob', _⟩ := drops_acts dropb
  obtain ⟨ca1, ca2, _⟩ := C07_relay_complete hla (by simp) apartIn (.chan ch.inner) rfl
  obtain ⟨cb1, cb2, t1, t2, rfl, cb3, cb4⟩ := C07_relay_complete hlb (by simp) apartOut t h.target
  have hend : endings (t1 ++ t2) = 1 := by
    rcases cb2 with ⟨h1, _⟩ | ⟨_, _, _, O, d, why, ho⟩
    · exact h1
    · exfalso
      have := hok ⟨t, d, .closed why⟩ (by rw [hpb, offers_append, ho]; simp)
      simp at this
  have hin : Act.ended (.chan ch.inner) ∈ acts (proj b τ) := by
    have : 0 < endings (proj b τ) := by rw [hpb, endings_append]; omega
    unfold endings at this
    rw [List.countP_pos_iff] at this
    obtain ⟨x, hx, hy⟩ := this
    cases x <;> simp at hy
    rename_i s
    have := relay_ended (h.run.tasks b _ h.outb) s hx
    simp [Pull.source] at this
    rw [this]; exact hx
  obtain ⟨e1, e2, e3⟩ := edge_complete hst h.own (oa.retired _) (ob.retired _) hs hg hin
  have hall : received (proj b τ) = received (proj a τ) := by
    rw [← eb, e2, ea, hpa, offers_append, received_append, ra, oa', List.append_nil, List.append_nil]
    have := congrArg (List.map Prod.snd) ca1
    rw [List.map_map, List.map_map] at this
    exact this.trans (List.map_id' _)
  refine ⟨?_, ?_, t1, t2 ++ db, by rw [hpb]; simp, cb3, ?_, ?_⟩
  · rw [← hall, hpb, offers_append, received_append, rb, ob', List.append_nil, List.append_nil]
    exact cb1
  · rcases ca2 with ⟨_, h2⟩ | ⟨_, _, _, O, d, why, ho⟩
    · rw [hpa, received_append, ra, List.append_nil]; exact h2
    · exfalso
      have hx : acceptedBy (.chan ch.inner) (proj a τ) = offeredTo (.chan ch.inner) (proj a τ) := e1
      have : (acceptedBy (.chan ch.inner) (proj a τ)).length < (offeredTo (.chan ch.inner) (proj a τ)).length := by
        rw [hpa, acceptedBy_append, offeredTo_append]
        have z1 : acceptedBy (.chan ch.inner) da = [] := by unfold acceptedBy; rw [oa']; rfl
        have z2 : offeredTo (.chan ch.inner) da = [] := by unfold offeredTo; rw [oa']; rfl
        have z3 : (acceptedBy (.chan ch.inner) ta).length ≤ O.length := by
          unfold acceptedBy; rw [ho, List.filterMap_append]; simp; exact List.length_filterMap_le _ _
        have z4 : offeredTo (.chan ch.inner) ta = (offers ta).map Offer.d := by
          apply offeredTo_eq
          intro o hx
          have := List.mem_map_of_mem (f := fun o : Offer => (o.to, o.d)) hx
          rw [ca1] at this
          obtain ⟨d', _, hd⟩ := List.mem_map.mp this
          simp at hd
          exact hd.1.symm
        rw [z1, z2, z4, ho]; simp; omega
      rw [hx] at this
      exact absurd this (by omega)
  · rw [offers_append, ob', List.append_nil]
    obtain ⟨_, _, c3, _⟩ := closeActs_proj cb4
    exact c3
  · rw [acts_append, cb4]; exact List.prefix_append _ _

end

/-- A buffer passes one message on and ends. -/
example :
    let ch : BufferChans := ⟨0, 1, 0, 1, none, none⟩
    let out : Push := .sender ⟨2, some .out, 3, .terminate⟩ 2
    let sys : Nat → Option Task := fun i => if i = 1 then some (bufferIn ch ⟨1, 2⟩ out) else if i = 2 then some (bufferOut ch out) else none
    let ta : List Ev := [⟨.recv .data 0, some [97]⟩, ⟨.send .data 1 [97], true⟩, ⟨.send .mon 0 (.wrote 0), true⟩,
      ⟨.recv .data 0, none⟩, ⟨.send .mon 0 (.wrote 0), true⟩, ⟨.close .data 1, ()⟩, ⟨.close .mon 0, ()⟩]
    let tb : List Ev := [⟨.recv .data 1, some [97]⟩, ⟨.send .mon 1 (.read 0), true⟩, ⟨.send .data 2 [97], true⟩,
      ⟨.recv .data 1, none⟩, ⟨.send .mon 1 (.read 0), true⟩, ⟨.close .data 2, ()⟩, ⟨.close .mon 1, ()⟩]
    let τ : List (Nat × Ev) := [(0, ⟨.send .data 0 [97], true⟩), (0, ⟨.close .data 0, ()⟩)] ++ ta.map (1, ·) ++ tb.map (2, ·)
    BufferIn (fun _ _ => some 8) sys τ 1 2 ch ⟨1, 2⟩ out (.chan 2) ∧
    LoopRuns (bufferIn ch ⟨1, 2⟩ out).body (0 : Nat) ta (.ok 2) ∧ LoopRuns (bufferOut ch out).body (0 : Nat) tb (.ok 2) ∧
    proj 1 τ = ta ++ [] ∧ proj 2 τ = tb ++ [] ∧ (∀ o ∈ offers (proj 2 τ), o.w = .ok) := by
  intro ch out sys ta tb τ
  have la : LoopRuns (bufferIn ch ⟨1, 2⟩ out).body (0 : Nat) ta (.ok 2) := by
    refine .next (s' := (1 : Nat)) (tr := ta.take 3) (tr' := ta.drop 3) ?_ (.stop ?_)
    · exact ⟨some [97], _, rfl, true, _, rfl, true, _, rfl, rfl, rfl⟩
    · exact ⟨none, _, rfl, true, _, rfl, (), _, rfl, (), _, rfl, rfl, rfl⟩
  have lb : LoopRuns (bufferOut ch out).body (0 : Nat) tb (.ok 2) := by
    refine .next (s' := (1 : Nat)) (tr := tb.take 3) (tr' := tb.drop 3) ?_ (.stop ?_)
    · exact ⟨some [97], _, rfl, true, _, rfl, true, _, rfl, rfl, rfl⟩
    · exact ⟨none, _, rfl, true, _, rfl, (), _, rfl, (), _, rfl, rfl, rfl⟩
  refine ⟨⟨⟨by decide, ?_⟩, rfl, rfl, by decide, by decide, by decide, rfl, by decide⟩, la, lb, rfl, rfl, by decide⟩
  intro i t hi
  by_cases h1 : i = 1
  · subst h1
    simp [sys] at hi; subst hi
    exact Or.inl (LoopRuns.toPartial la)
  · by_cases h2 : i = 2
    · subst h2
      simp [sys] at hi; subst hi
      exact Or.inl (LoopRuns.toPartial lb)
    · simp [sys, h1, h2] at hi

end Verif
