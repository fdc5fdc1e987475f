import Verif.Lemmas.World
import Verif.Spec.Filter
import Verif.Props.Bytes
/-!
# What goes through pipes and programs
-/
namespace Verif

section
variable {w : Waiter} {cs : List Capture} {cap : Caps} {room : Nat} {prog : Str → Program} {T : List Happening} {c : Config} {hs : List Hop}

/-- What writes into a channel has nothing to flush. -/
def NoFlush (q : Req) : Prop := ∀ h, q ≠ .ioFlush h

theorem sender_noFlush {pull j ch n} : (motionBody pull {} none (.sender j ch) n).Only NoFlush := by
  unfold motionBody
  refine Prog.Only.bind (p := ExceptT.run _) ?_ ?_
  · refine MOnly.bind ?_ fun r => ?_
    · unfold motionWorker
      refine MOnly.bind ?_ fun x => ?_
      · cases pull with
        | none => exact monly_pure _
        | receiver j c =>
          refine MOnly.bind (monly_ask (by intro c; simp)) ?_
          intro a; cases a <;> exact monly_pure _
        | stream j c =>
          refine MOnly.bind (monly_ask (by intro c; simp)) ?_
          intro a; cases a <;> first | exact monly_pure _ | exact monly_throw _
      split
      · exact monly_pure _
      · refine MOnly.bind (monly_pure _) fun _ => MOnly.bind ?_ fun n => MOnly.bind (monly_pure _) fun _ => ?_
        · refine MOnly.bind ?_ fun _ => MOnly.bind ?_ fun _ => monly_pure _
          · cases x with
            | data d =>
              have hwr : MOnly NoFlush (motionWrite (.sender j ch) d) := by
                refine MOnly.bind (monly_ask (by intro c; simp)) ?_
                intro a; cases a <;> simp <;> first | exact monly_pure _ | exact monly_throw _
              simp only [writeOne]
              split
              · exact MOnly.bind hwr fun _ => monly_pure _
              · refine MOnly.tryCatch (MOnly.bind hwr fun _ => monly_pure _) ?_
                intro e; cases e <;> first | exact monly_pure _ | exact monly_throw _
            | _ => exact monly_pure _
          · cases x <;> exact monly_pure _
        · split <;> exact monly_pure _
    generalize (if r.read = true then n + 1 else n) = m
    show MOnly _ (if r.finished = true then _ else _)
    split
    · refine MOnly.bind ?_ fun _ => MOnly.bind (monly_pure _) fun _ => MOnly.bind (monly_pure _) fun _ => monly_pure _
      exact MOnly.bind (monly_ask (by intro c; simp)) fun _ => monly_pure _
    · exact monly_pure _
  · intro a
    rcases a with e | (n | n) <;> exact trivial

theorem Wish.Allows.took_some {v : Wish} {d : Bytes} (h : v.Allows (.took d)) : d ≠ [] := by
  cases h with
  | took h => exact h

theorem Waiter.WorldRun.lives (h : w.WorldRun cs cap room prog T) (x : Str) : (prog x).Lives (historyOf x T) := by
  induction h with
  | start => exact .start
  | @next T a _ ha ih =>
    cases ha with
    | core => simpa using ih
    | feed => simpa using ih
    | draw => simpa using ih
    | @prog y e h1 h2 h3 h4 =>
      rw [historyOf_append, historyOf_prog]
      split
      · next hy => subst hy; exact .next ih h2 h3
      · simpa using ih

theorem Waiter.RelayOver.mono {x : Str} {p : Piece} {a : Happening} (ha : w.Next cs cap room prog T a) (h : w.RelayOver cs (coreOf T) x p) : w.RelayOver cs (coreOf (T ++ [a])) x p := by
  intro t ht
  have hd := h t ht
  cases ha with
  | feed => simpa using hd
  | draw => simpa using hd
  | prog => simpa using hd
  | @core i e h1 h2 =>
    by_cases hi : i = .part (.launch, x) p
    · subst hi
      have := h1.exec.tasks _ _ ht
      rw [proj_append, proj_one, if_pos rfl] at this
      exact absurd this hd.stops
    · simpa [proj_one, hi] using hd

theorem Task.Done.no_awaits {t : Task} {tr : List Ev} {q : Req} (h : t.Done tr) (h' : t.Awaits tr q) (r : q.Resp) : False := h.stops (h'.step r)

/-- Once a program has read to the end, it has read all that was written to it, and nothing more will be. -/
theorem Waiter.WorldRun.readsAll (h : w.WorldRun cs cap room prog T) {x : Str} (hr : ReadsAll (historyOf x T)) :
    takenIn (historyOf x T) = fedTo x T ∧ w.RelayOver cs (coreOf T) x .input := by
  induction h with
  | start => obtain ⟨a, b, e, _⟩ := hr; simp [historyOf] at e
  | @next T a hT ha ih =>
    by_cases hb : ReadsAll (historyOf x T)
    · obtain ⟨i1, i2⟩ := ih hb
      refine ⟨?_, i2.mono ha⟩
      cases ha with
      | core => simpa using i1
      | draw => simpa using i1
      | @feed y d m t h h1 h2 h3 h4 h5 h6 =>
        by_cases hy : y = x
        · subst hy
          exact ((i2 t h1).no_awaits h2 .ok).elim
        · simpa [hy] using i1
      | @prog y e h1 h2 h3 h4 =>
        by_cases hy : y = x
        · subst hy
          cases e with
          | took d =>
            have := h4.2
            rw [inPipe, ← i1, List.drop_length] at this
            exact absurd (List.prefix_nil.mp this) h3.took_some
          | _ => simpa [takenIn] using i1
        · simpa [hy] using i1
    · cases ha with
      | core => exact absurd (by simpa using hr) hb
      | draw => exact absurd (by simpa using hr) hb
      | feed => exact absurd (by simpa using hr) hb
      | @prog y e h1 h2 h3 h4 =>
        rw [historyOf_append, historyOf_prog] at hr
        split at hr
        · next hy =>
          subst hy
          obtain ⟨u, v, e1, e2⟩ := hr
          rcases List.eq_nil_or_concat v with rfl | ⟨v', z, rfl⟩
          · obtain ⟨rfl, rfl⟩ := snoc_inj e1
            obtain ⟨q1, q2⟩ := h4.resolve_left e2
            refine ⟨?_, by simpa using q2⟩
            have := hT.taken y
            obtain ⟨s, hs⟩ := this
            rw [inPipe, ← hs, List.drop_left] at q1
            subst q1
            simpa [takenIn] using hs
          · exfalso
            rw [List.concat_eq_append, ← List.cons_append, ← List.append_assoc] at e1
            exact hb ⟨u, v', (snoc_inj e1).1, e2⟩
        · exact absurd (by simpa using hr) hb

theorem Waiter.WorldRun.nothing (h : w.WorldRun cs cap room prog T) {x : Str} {a b : List PEv} (e : historyOf x T = a ++ .sawEnd :: b) : takenIn b = [] := by
  induction h generalizing b with
  | start => simp [historyOf] at e
  | @next T s hT hs ih =>
    cases hs with
    | core => exact ih (by simpa using e)
    | draw => exact ih (by simpa using e)
    | feed => exact ih (by simpa using e)
    | @prog y z h1 h2 h3 h4 =>
      rw [historyOf_append, historyOf_prog] at e
      split at e
      · next hy =>
        subst hy
        rcases List.eq_nil_or_concat b with rfl | ⟨v', z', rfl⟩
        · rfl
        · rw [List.concat_eq_append, ← List.cons_append, ← List.append_assoc] at e
          obtain ⟨e1, rfl⟩ := snoc_inj e
          rw [List.concat_eq_append, takenIn_append, ih e1]
          cases z with
          | took d =>
            exfalso
            have hr : ReadsAll (historyOf y T) := ⟨a, v', e1, fun g => h4.1 (by rw [e1]; exact g.mono)⟩
            have := h4.2
            rw [inPipe, ← (hT.readsAll hr).1, List.drop_length] at this
            exact h3.took_some (List.prefix_nil.mp this)
          | _ => rfl
      · exact ih (by simpa using e)

theorem act_offer {h : Nat} {d : Bytes} {r : WOut} {e : Ev} (he : act e = .offer (.handle h) d r) : ∃ r' : IoRes, e = ⟨.ioWrite h d, r'⟩ ∧ (r' = .ok → r = .ok) := by
  obtain ⟨q, r'⟩ := e
  cases q with
  | recv k c => cases k <;> cases r' <;> simp [act] at he
  | tryRecv k c => cases k <;> cases r' <;> simp [act] at he
  | send k c v => cases k <;> simp [act] at he
  | streamRead h => cases r' <;> simp [act] at he
  | ioWrite h d => cases r' <;> simp [act] at he <;> obtain ⟨rfl, rfl, rfl⟩ := he <;> exact ⟨_, rfl, by simp⟩
  | _ => simp [act] at he

/-- As long as a program reads, whatever is written to it is accepted. -/
theorem Rigged.heard (A : Rigged c hs w) (hC : Complete hs) (h : w.WorldRun cs cap room prog T) {x : Str} {n : Node} (hn : w.node (.part (.launch, x) .input) = some n)
    (hS : ¬ ShutIn (historyOf x T)) : ∀ o ∈ offers (proj (.part (.launch, x) .input) (coreOf T)), o.w = .ok := by
  induction h with
  | start => intro o ho; cases ho
  | @next T a hT ha ih =>
    cases ha with
    | feed => simpa using ih (by simpa using hS)
    | draw => simpa using ih (by simpa using hS)
    | prog => simpa using ih fun g => hS (by rw [historyOf_append]; exact g.mono)
    | @core i e h1 h2 =>
      have hS' : ¬ ShutIn (historyOf x T) := by simpa using hS
      by_cases hi : i = .part (.launch, x) .input
      · subst hi
        have hpar := h1.exec.tasks _ _ (sys_node hn)
        intro o ho
        simp only [coreOf_append, coreOf_core, proj_append, proj_one, if_true] at ho hpar
        have hto := (node_conduct ((A.wired hC).ok (.part (.launch, x) .input) _ hn) hpar).to
        rw [offers_append] at ho hto
        rcases List.mem_append.mp ho with ho | ho
        · exact ih hS' o ho
        · have hto := hto o (List.mem_append_right _ ho)
          obtain ⟨j, ch, j', rfl⟩ := A.inputNode hn
          simp [Node.targets, Push.target] at hto
          obtain ⟨t, d, r⟩ := o
          dsimp only at hto ⊢
          subst hto
          have he : act e = .offer (.handle (childOf (w.idOf (.launch, x))).stdin) d r := by
            simp only [offers, acts, List.map_cons, List.map_nil] at ho
            generalize act e = a at ho
            cases a <;> simp at ho
            obtain ⟨rfl, rfl, rfl⟩ := ho
            rfl
          obtain ⟨r', he', hr'⟩ := act_offer he
          rcases h2.write x _ d r' rfl he' with ⟨g, _⟩ | ⟨_, g⟩
          · exact hr' g
          · exact absurd g hS'
      · have : proj (.part (.launch, x) .input) (coreOf (T ++ [.core i e])) = proj (.part (.launch, x) .input) (coreOf T) := by simp [proj_one, hi]
        rw [this]
        exact ih hS'

/-- What is in the pipe to a program, or has been, is the beginning of what the relay has taken in. -/
theorem Rigged.fedReceived (A : Rigged c hs w) (hC : Complete hs) (h : w.WorldRun cs cap room prog T) (x : Str) :
    fedTo x T <+: (received (proj (.part (.launch, x) .input) (coreOf T))).flatten := by
  induction h with
  | start => simp [fedTo]
  | @next T a hT ha ih =>
    cases ha with
    | draw => simpa using ih
    | prog => simpa using ih
    | core =>
      simp only [fedTo_append, fedTo_core, List.append_nil, coreOf_append, proj_append, received_append, List.flatten_append]
      exact ih.trans (List.prefix_append _ _)
    | @feed y d m t h h1 h2 h3 h4 h5 h6 =>
      by_cases hy : y = x
      · subst hy
        have F := A.fed hC hT h1
        obtain ⟨n, hn, rfl⟩ := A.launchNode hC (by simp [relayPieces]) h1
        have Q := node_conduct ((A.wired hC).ok (.part (.launch, y) .input) _ hn) (h2.step .ok)
        have hall := A.heard hC hT hn h5
        obtain ⟨j, ch, j', rfl⟩ := A.inputNode hn
        have hto := Q.to ⟨.handle h, m, .ok⟩ (by simp [offers, acts, act])
        simp [Node.targets, Push.target] at hto
        subst hto
        have hc := (Q.copies (.handle (childOf (w.idOf (.launch, y))).stdin) (by simp [Node.targets, Push.target])).1
        have e1 : received (proj (.part (.launch, y) .input) (coreOf T) ++ [⟨.ioWrite (childOf (w.idOf (.launch, y))).stdin m, .ok⟩]) = received (proj (.part (.launch, y) .input) (coreOf T)) := by
          simp [received, acts, act]
        have e2 : offeredTo (.handle (childOf (w.idOf (.launch, y))).stdin) [⟨.ioWrite (childOf (w.idOf (.launch, y))).stdin m, .ok⟩] = [m] := by
          simp [offeredTo, offers, acts, act]
        rw [e1, offeredTo_append, e2, ← acceptedBy_all hall] at hc
        have := flatten_prefix hc
        simp only [List.flatten_append, List.flatten_cons, List.flatten_nil, List.append_nil] at this
        simp only [fedTo_append, fedTo_feed, if_true, coreOf_append, coreOf_feed, List.append_nil]
        refine List.IsPrefix.trans ?_ this
        obtain ⟨u, hu⟩ := F.given
        have h3' := h3
        rw [Waiter.begun, ← hu, List.drop_left] at h3'
        rw [← hu, List.append_assoc]
        exact (List.prefix_append_right_inj _).mpr h3'
      · simpa [hy] using ih

/-- What a program prints is what its stream delivers, however it comes. -/
theorem Waiter.WorldRun.portReads (h : w.WorldRun cs cap room prog T) (x : Str) (p : Port) :
    ∃ chunks, (∀ d ∈ chunks, d ≠ []) ∧ chunks.flatten = putOut p (historyOf x T) ∧ ReadsFrom (w.portOf x p) chunks (proj (.part (.launch, x) p.piece) (coreOf T)) := by
  have D := h.drawnPort x p
  obtain ⟨u, hu⟩ := h.drawn x p
  by_cases he : u = []
  · subst he
    exact ⟨_, h.fine x p, by simpa using hu, D.reads⟩
  · refine ⟨drawnFrom x p T ++ [u], ?_, by simpa using hu, D.reads.more (h.fine x p) (D.whole.resolve_right fun g => ?_) he⟩
    · intro d hd
      rcases List.mem_append.mp hd with hd | hd
      · exact h.fine x p d hd
      · simp at hd; subst hd; exact he
    · have := g.2
      rw [outPipe, ← hu, List.drop_left] at this
      exact he this

/-- A relay from a program that has ended without failure has seen the end of what the program prints. -/
theorem Rigged.printed (A : Rigged c hs w) (hC : Complete hs) (h : w.WorldRun cs cap room prog T) {x : Str} {p : Port} (hs' : w.sys cs (.part (.launch, x) p.piece) ≠ none)
    (ho : w.RelayOver cs (coreOf T) x p.piece) (hf : ∀ f ∈ acts (proj (.part (.launch, x) p.piece) (coreOf T)), f.fails = false) : Shut p (historyOf x T) := by
  obtain ⟨t, ht⟩ := Option.ne_none_iff_exists'.mp hs'
  have hd := ho t ht
  obtain ⟨n, hn, rfl⟩ := A.launchNode hC p.relays ht
  have fin := node_finished ((A.wired hC).ok (.part (.launch, x) p.piece) _ hn) hd hf
  obtain ⟨j, j', ch, rfl⟩ := A.portNode hn
  have he := ended_answers (fin.ended (.handle (w.portOf x p)) (by simp [Node.sources, Pull.source]))
  rcases (h.drawnPort x p).whole with g | g
  · obtain ⟨d, hd⟩ := g _ he; cases hd
  · exact g.1

end
end Verif
