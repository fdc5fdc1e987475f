import Verif.Lemmas.WorldSettles
import Verif.Lemmas.JunctionClose
import Verif.Lemmas.Senders
import Verif.Spec.Looks
/-!
# What can still happen once nothing is on its way any more
-/
namespace Verif

theorem Inert.fine {v : List Ev} (h : Inert v) : ∀ a ∈ acts v, a.fails = false := by
  intro a ha
  rcases h a ha with ⟨_, _, rfl⟩ | ⟨_, rfl⟩ <;> rfl

/-- What a junction does that has passed on everything and not seen all its inputs end. -/
theorem junction_step {inputs pushs} {tr : List Ev} {e : Ev} (hok : (Node.junction inputs pushs none).Ok) (hp : (Node.junction inputs pushs none).task.Partial (tr ++ [e]))
    (nf : ∀ a ∈ acts tr, a.fails = false) (hopen : ∃ s ∈ (Node.junction inputs pushs none).sources, Act.ended s ∉ acts tr)
    (hpass : ∀ t ∈ (Node.junction inputs pushs none).targets, offeredTo t tr = received tr) :
    (∃ s d, act e = .got s d ∧ s ∈ (Node.junction inputs pushs none).sources) ∨ (∃ s, act e = .ended s) ∨ (∃ s, act e = .empty s) ∨ (∃ n, act e = .sleep n) ∨
    ∃ c, act e = .close .data c ∧ Act.ended (.chan c) ∈ acts tr := by
  have cond := node_conduct hok hp
  have hs : AllSenders pushs := hok.2.2.2.1
  have hne : pushs ≠ [] := hok.2.2.2.2.2
  have hon : ∀ k c, e.q.on = some (k, c) → k = .data := fun k c h => node_plain hok rfl hp (e := e) (by simp) h
  rcases hp.last with ⟨s, t1, t2, h1, h2, rfl⟩ | ⟨_, _, t2, _, _, hd⟩
  case inr => 
    have : t2 ++ [e] = [] := List.prefix_nil.mp hd
    simp at this
  change LoopRounds (junctionBody pushs none) _ t1 s at h1
  obtain ⟨t3, x, hrun⟩ := (h2.step e.2).extend
  change (junctionBody pushs none s).Runs _ x at hrun
  obtain ⟨k, ws1, ws2, tail, htr, hpass', hend⟩ := junctionBody_inv hrun hs
  have hin := inert_of_tail hs hend
  have hrunall : ∀ w ∈ ws1 ++ ws2, PollRun pushs none w := by
    intro w hw
    rw [List.mem_append] at hw
    rcases hw with hw | hw
    · exact hpass'.runs1 w hw
    · exact hpass'.runs2 w hw
  have key : (∃ w ∈ ws1 ++ ws2, act e ∈ acts w.tr) ∨ ((∃ z, t2 = pollTrace (ws1 ++ ws2) ++ z) ∧ e ∈ tail) := by
    have htr' : t2 ++ (e :: t3) = pollTrace (ws1 ++ ws2) ++ tail := by simpa using htr
    rw [List.append_eq_append_iff] at htr'
    rcases htr' with ⟨z, e1, e2⟩ | ⟨z, e1, e2⟩
    · cases z with
      | nil =>
        right
        rw [List.nil_append] at e2
        exact ⟨⟨[], by rw [e1]; simp⟩, by rw [← e2]; simp⟩
      | cons y z =>
        left
        rw [List.cons_append, List.cons.injEq] at e2
        obtain ⟨rfl, _⟩ := e2
        exact mem_acts_pollTrace (by rw [e1]; simp)
    · right
      exact ⟨⟨z, e1⟩, by rw [e2]; simp⟩
  rcases key with ⟨w, hw, hm⟩ | ⟨⟨z, hz⟩, hm⟩
  · have poll := hrunall w hw
    have loud : (act e).isQuiet = false → False := by
      intro h
      cases ha : act e <;> simp [ha, Act.isQuiet] at h
      case offer t d o =>
        have ht : t ∈ (Node.junction inputs pushs none).targets := cond.to ⟨t, d, o⟩ (mem_offers.mpr (by simp [acts, ha]))
        have h1 := (cond.copies t ht).1.length_le
        have e1 : offeredTo t (t1 ++ t2 ++ [e]) = offeredTo t (t1 ++ t2) ++ [d] := by simp [offeredTo, offers, acts, ha]
        have e2 : received (t1 ++ t2 ++ [e]) = received (t1 ++ t2) := by simp [received, acts, ha]
        rw [e1, e2, hpass t ht, List.length_append, List.length_singleton] at h1
        omega
      case spy c m b =>
        obtain ⟨q, r⟩ := e
        have hq : q.on = some (.spy, c) := by
          cases q with
          | recv k c' => cases k <;> cases r <;> simp [act] at ha
          | tryRecv k c' => cases k <;> cases r <;> simp [act] at ha
          | send k c' v => cases k <;> simp [act] at ha; simp [Req.on, ha]
          | ioWrite h d => cases r <;> simp [act] at ha
          | streamRead h => cases r <;> simp [act] at ha
          | _ => simp [act] at ha
        cases hon _ _ hq
    rcases poll_shape poll with ⟨s, _, ha, _⟩ | ⟨s, d, rest, _, ha, hq, _⟩ | ⟨s, rest, _, ha, hq, _⟩ | ⟨h0, _⟩
    · rw [ha] at hm
      exact Or.inr (Or.inr (Or.inl ⟨s, by simpa using hm⟩))
    · rw [ha, List.mem_cons] at hm
      rcases hm with hm | hm
      · exact Or.inl ⟨s, d, hm, cond.got s d (by simp [acts, hm])⟩
      · exact (loud (hq _ hm)).elim
    · rw [ha, List.mem_cons] at hm
      rcases hm with hm | hm
      · exact Or.inr (Or.inl ⟨s, hm⟩)
      · exact (loud (hq _ hm)).elim
    · rw [h0] at hm; simp [acts] at hm
  · have hma : act e ∈ acts tail := List.mem_map.mpr ⟨e, hm, rfl⟩
    have sub : ∀ a, a ∈ acts (pollTrace (ws1 ++ ws2)) → a ∈ acts (t1 ++ t2) := fun a h => by rw [hz]; simp only [acts_append, List.mem_append]; exact Or.inr (Or.inl h)
    rcases hin _ hma with ⟨k', c, hc⟩ | ⟨n, hn⟩
    case inr => exact Or.inr (Or.inr (Or.inr (Or.inl ⟨n, hn⟩)))
    right; right; right; right
    -- if this were the end, all inputs would have ended
    have stop : ∀ r, x = .inr r → False := by
      rintro r rfl
      have hruns := h1.stop hrun
      have total : t1 ++ (t2 ++ [⟨e.q, e.2⟩] ++ t3) = t1 ++ (pollTrace (ws1 ++ ws2) ++ tail) := by rw [htr]
      rw [total] at hruns
      have hdone : (Node.junction inputs pushs none).task.Done (t1 ++ (pollTrace (ws1 ++ ws2) ++ tail)) := ⟨r, _, hruns, by simp [Node.task, junctionTask, dropEvs]⟩
      have fine : ∀ a ∈ acts (t1 ++ (pollTrace (ws1 ++ ws2) ++ tail)), a.fails = false := by
        intro a ha
        simp only [acts_append, List.mem_append] at ha
        rcases ha with ha | ha | ha
        · exact nf a (by simp [ha])
        · exact nf a (sub a ha)
        · exact hin.fine a ha
      have fin := node_finished hok hdone fine
      obtain ⟨s', hs', hn⟩ := hopen
      have := fin.ended s' hs'
      simp only [acts_append, List.mem_append] at this
      rcases this with h | h | h
      · exact hn (by simp [h])
      · exact hn (sub _ h)
      · rcases hin _ h with ⟨_, _, h⟩ | ⟨_, h⟩ <;> cases h
    rcases hend with ⟨er, _, _, hx, _⟩ | ⟨_, _, ⟨s', hx, _, _, _, h⟩ | ⟨_, hx, _⟩⟩
    · exact (stop _ hx).elim
    · rcases h with ⟨_, h, _⟩ | ⟨_, h, _⟩
      · rw [h, hc] at hma; simp at hma
      · rw [h, hc, mem_finActs] at hma
        obtain ⟨p, hp1, hp2⟩ := hma
        obtain ⟨w, hw, rfl⟩ := List.mem_map.mp hp1
        rw [List.mem_filter] at hw
        have hsrc : k' = .data ∧ w.pull.source = some (.chan c) := by
          cases hpp : w.pull <;> simp [hpp, dropActs] at hp2
          obtain ⟨rfl, rfl⟩ := hp2
          exact ⟨rfl, rfl⟩
        obtain ⟨rfl, hsrc⟩ := hsrc
        refine ⟨c, hc, ?_⟩
        have hwin : ∀ a, a ∈ acts w.tr → a ∈ acts (t1 ++ t2) := fun a ha => sub a (by
          obtain ⟨u, v, huv⟩ := List.append_of_mem (show w ∈ ws1 ++ ws2 by simp [hw.1])
          rw [huv]
          simp [pollTrace, ha])
        obtain ⟨s'', hs1, hs2 | ⟨_, u1, u, u2, d, _, hu, _, hoff, hcl⟩⟩ := poll_fin (hrunall w (by simp [hw.1])) hs hw.2
        · rw [hsrc] at hs1; cases hs1
          exact hwin _ hs2
        · exfalso
          obtain ⟨p, hp⟩ := List.exists_mem_of_ne_nil _ hne
          obtain ⟨j, c', rfl⟩ := hs p hp
          have hm : (End.chan c', d) ∈ (offers u).map (fun o => (o.to, o.d)) := by
            rw [hoff]; unfold toEach
            exact List.mem_map.mpr ⟨_, List.mem_filterMap.mpr ⟨_, hp, rfl⟩, rfl⟩
          obtain ⟨o, ho, _⟩ := List.mem_map.mp hm
          obtain ⟨why, hw'⟩ := hcl o ho
          have := nf _ (hwin _ (by rw [hu]; simp only [acts_append, List.mem_append]; exact Or.inl (Or.inr (mem_offers.mp ho))))
          rw [hw'] at this; simp [Act.fails] at this
    · exact (stop _ hx).elim


theorem looks_act {e : Ev} (h : e.looks = true) : (∀ s d, act e ≠ .got s d) ∧ (∀ t d o, act e ≠ .offer t d o) ∧ (act e).fails = false ∧ (act e).trouble = false := by
  obtain ⟨q, r⟩ := e
  cases q with
  | recv k c => cases k <;> cases r <;> simp [Ev.looks] at h <;> simp [act, Act.fails, Act.trouble]
  | tryRecv k c => cases k <;> cases r <;> simp [Ev.looks] at h <;> simp [act, Act.fails, Act.trouble]
  | send k c v => simp [Ev.looks] at h
  | close k c => simp [act, Act.fails, Act.trouble]
  | stat k c => simp [act, Act.fails, Act.trouble]
  | sleep n => simp [act, Act.fails, Act.trouble]
  | _ => simp [Ev.looks] at h

theorem looks_trace {L : List Ev} (h : ∀ e ∈ L, e.looks = true) (tr : List Ev) : received (tr ++ L) = received tr ∧ offers (tr ++ L) = offers tr := by
  induction L generalizing tr with
  | nil => simp
  | cons e L ih =>
    have h1 := ih (fun e he => h e (by simp [he])) (tr ++ [e])
    rw [List.append_assoc, List.singleton_append] at h1
    obtain ⟨g1, g2, _⟩ := looks_act (h e (by simp))
    rw [h1.1, h1.2]
    constructor
    · cases ha : act e with
      | got s d => exact absurd ha (g1 s d)
      | _ => simp [received, acts, ha]
    · cases ha : act e with
      | offer s d o => exact absurd ha (g2 s d o)
      | _ => simp [offers, acts, ha]

/-- What cannot be done in one state cannot be done in another that agrees on the channel concerned. -/
theorem exec_like {cap : Caps} {st st' : Store} {e : Ev} (h : ∀ k c, e.q.on = some (k, c) → st k c = st' k c) (he : (exec cap st' e).isSome) : (exec cap st e).isSome := by
  obtain ⟨q, r⟩ := e
  cases q with
  | recv k c => cases r <;> simp only [exec, h k c rfl] at he ⊢ <;> (repeat' split at he) <;> simp_all
  | tryRecv k c => cases r <;> simp only [exec, h k c rfl] at he ⊢ <;> (repeat' split at he) <;> simp_all
  | send k c v => cases r <;> simp only [exec, h k c rfl] at he ⊢ <;> (repeat' split at he) <;> simp_all
  | stat k c => obtain ⟨a, b⟩ := r; simp only [exec, h k c rfl] at he ⊢; (repeat' split at he) <;> simp_all
  | _ => simp [exec]

/-- A channel somebody has seen the end of is closed and empty. -/
theorem ended_shut {cap : Caps} {st : Store} {es : List Ev} {ch : Nat} (h : execAll cap Store.init es = some st) (he : Act.ended (.chan ch) ∈ acts es) :
    (st .data ch).q = [] ∧ (st .data ch).closed = true := by
  obtain ⟨e, he1, he2⟩ := List.mem_map.mp he
  obtain ⟨u, v, rfl⟩ := List.append_of_mem he1
  obtain ⟨st1, h1, h2⟩ := execAll_split h
  obtain ⟨st2, h3, h4⟩ := execAll_cons h2
  have h5 : (st1 .data ch).q = [] ∧ (st1 .data ch).closed = true ∧ st2 = st1 := by
    rcases ended_event he2 with rfl | rfl <;> simp only [exec] at h3 <;> split at h3 <;> simp at h3 <;> rename_i hh <;> exact ⟨by simpa using hh.1, hh.2, h3.symm⟩
  obtain ⟨h6, h7, rfl⟩ := h5
  clear h h1 h2 h3 he he1 he2
  induction v generalizing st2 with
  | nil => simp [execAll] at h4; subst h4; exact ⟨h6, h7⟩
  | cons e v ih =>
    obtain ⟨st3, h8, h9⟩ := execAll_cons h4
    obtain ⟨k1, k2, k3⟩ := exec_chan h8 .data ch
    refine ih st3 h9 ?_ (by rw [k2, h7]; rfl)
    cases hs : sentOf .data ch e with
    | some v => have := (k3 v hs).1; rw [h7] at this; cases this
    | none =>
      rw [h6, hs] at k1
      simp at k1
      exact k1.2

theorem got_none {cap : Caps} {st st' : Store} {e : Ev} {ch : Nat} {d : Bytes} (h : exec cap st e = some st') (ha : act e = .got (.chan ch) d) : (st .data ch).q ≠ [] := by
  obtain ⟨q, r⟩ := e
  cases q with
  | recv k c' =>
    cases k <;> cases r <;> simp [act] at ha
    obtain ⟨rfl, rfl⟩ := ha
    intro hq; simp [exec, hq] at h
  | tryRecv k c' =>
    cases k <;> cases r <;> simp [act] at ha
    obtain ⟨rfl, rfl⟩ := ha
    intro hq; simp [exec, hq] at h
  | send k c' v => cases k <;> cases r <;> simp [act] at ha
  | ioWrite h d => cases r <;> simp [act] at ha
  | streamRead h => cases r <;> simp [act] at ha
  | _ => simp [act] at ha

theorem empty_event {e : Ev} {s : End} (h : act e = .empty s) : ∃ c, e = ⟨.tryRecv .data c, .empty⟩ := by
  obtain ⟨q, r⟩ := e
  cases q with
  | recv k c' => cases k <;> cases r <;> simp [act] at h
  | tryRecv k c' => cases k <;> cases r <;> simp [act] at h; exact ⟨_, rfl⟩
  | send k c' v => cases k <;> cases r <;> simp [act] at h
  | ioWrite h d => cases r <;> simp [act] at h
  | streamRead h => cases r <;> simp [act] at h
  | _ => simp [act] at h

theorem sleep_event {e : Ev} {n : Nat} (h : act e = .sleep n) : e = ⟨.sleep n, ()⟩ := by
  obtain ⟨q, r⟩ := e
  cases q with
  | recv k c' => cases k <;> cases r <;> simp [act] at h
  | tryRecv k c' => cases k <;> cases r <;> simp [act] at h
  | send k c' v => cases k <;> cases r <;> simp [act] at h
  | ioWrite h d => cases r <;> simp [act] at h
  | streamRead h => cases r <;> simp [act] at h
  | sleep m => simp [act] at h; rw [h]
  | _ => simp [act] at h

theorem close_event {e : Ev} {k : Kind} {c : Nat} (h : act e = .close k c) : e = ⟨.close k c, ()⟩ := by
  obtain ⟨q, r⟩ := e
  cases q with
  | recv k c' => cases k <;> cases r <;> simp [act] at h
  | tryRecv k c' => cases k <;> cases r <;> simp [act] at h
  | send k c' v => cases k <;> cases r <;> simp [act] at h
  | ioWrite h d => cases r <;> simp [act] at h
  | streamRead h => cases r <;> simp [act] at h
  | close k' c' => simp [act] at h; rw [h.1, h.2]
  | _ => simp [act] at h

theorem Chan.eq_of {k : Kind} {a b : Chan k} (h1 : a.q = b.q) (h2 : a.closed = b.closed) : a = b := by
  cases a; cases b; simp_all

/-- Closing what is closed changes nothing. -/
theorem close_same {cap : Caps} {st st' : Store} {k : Kind} {c : Nat} (h : exec cap st ⟨.close k c, ()⟩ = some st') (hc : (st k c).closed = true) : st' = st := by
  funext k' c'
  obtain ⟨h1, h2, _⟩ := exec_chan h k' c'
  simp [sentOf, gotOf] at h1
  refine Chan.eq_of h1.symm ?_
  rw [h2]
  by_cases hh : k = k' ∧ c = c'
  · obtain ⟨rfl, rfl⟩ := hh; rw [hc]; rfl
  · simp [closesChan, hh]


section
variable {c : Config} {hs : List Hop} {w : Waiter} {cs : List Capture} {cap : Caps} {room : Nat} {prog : Str → Program} {st : Store} {T : List Happening}

theorem Same.symm {T T' : List Happening} (S : Same w cs T T') : Same w cs T' T :=
  ⟨fun x => (S.history x).symm, fun x => (S.fed x).symm, fun x p => (S.drawn x p).symm, fun x p hp => (S.relay x p hp).symm⟩

theorem Comp.node_spy {k : Comp} {id n : Nat} {p : Piece} {inputs pushs spy} (h : k.node id n p = some (.junction inputs pushs spy)) : spy = none := by
  unfold Comp.node at h
  split at h <;> first | (simp only [Option.some.injEq, Node.junction.injEq] at h; exact h.2.2.symm) | (unfold relayNode at h; split at h <;> cases h) | cases h

/-- Nobody waits for a notification. -/
theorem Rigged.noNews (A : Rigged c hs w) (hC : Complete hs) (M : Attended [] w) {i : Who} {t : Task} (ht : w.sys [] i = some t) {tr : List Ev} {ch : Nat} (hq : t.Awaits tr (.recv .mon ch)) : False := by
  cases hn : w.node i with
  | some n =>
    have e := sys_node (cs := []) hn
    rw [ht] at e; cases e
    have hp := hq.step none
    rcases A.kindsAll hC hn hp (e := ⟨.recv .mon ch, none⟩) (by simp) rfl with h | ⟨_, x, hm, hx⟩ | ⟨h, _⟩
    · cases h
    · obtain ⟨s, t1, t2, _, h3, _⟩ := hq
      have noMon : (n.task.body s).Only NoNews := by
        rcases hx with ⟨_, rfl⟩ | ⟨_, rfl⟩ <;>
        · obtain ⟨a, b, m, hk⟩ := A.bufferNodes hC rfl hm
          simp only [Waiter.node, hk, Comp.node, Option.some.injEq] at hn
          subst hn
          exact relay_noMon
      exact Prog.Only.awaits noMon h3 ch rfl
    · cases h
  | none =>
    rcases A.others hC ht hn with ⟨r, e, ch', g, _, _, rfl, _⟩ | ⟨r, m, _, _, _, rfl, _⟩ | ⟨r, a, _, ha, _⟩ | ⟨r, x, _, _, rfl, _⟩
    · obtain ⟨s, t1, t2, _, h3, _⟩ := hq
      have := Prog.Only.awaits (exitBody_only e) h3
      simp at this
    · have := count_noNews (hq.step none) ⟨.recv .mon ch, none⟩ (by simp)
      simp at this
    · cases ha
    · have := dropTask_only (hq.step none) ⟨.recv .mon ch, none⟩ (by simp)
      cases this

/-- How things are related to how they were when nothing was on its way any more. -/
structure Waiter.Later (w : Waiter) (st : Store) (T T' : List Happening) (st' : Store) : Prop where
  history : ∀ x, historyOf x T' = historyOf x T
  fed : ∀ x, fedTo x T' = fedTo x T
  drawn : ∀ x p, drawnFrom x p T' = drawnFrom x p T
  others : ∀ i, ¬ w.Dozes [] st (coreOf T) i → proj i (coreOf T') = proj i (coreOf T)
  dozing : ∀ i, w.Dozes [] st (coreOf T) i → ∃ L, proj i (coreOf T') = proj i (coreOf T) ++ L ∧ (∀ e ∈ L, e.looks = true) ∧ ∀ s, Act.ended s ∈ acts L → Act.ended s ∈ acts (proj i (coreOf T))
  chans : ∀ k ch, k ≠ .mon → st' k ch = st k ch
  mons : ∀ ch, st' .mon ch = st .mon ch ∨ (st .mon ch).q = [] ∧ (st' .mon ch).q = []

/-- The parts of a launch do not doze. -/
theorem Rigged.awake (A : Rigged c hs w) {x : Str} {p : Piece} {τ : List (Who × Ev)} (hp : p ∈ relayPieces) : ¬ w.Dozes [] st τ (.part (.launch, x) p) := by
  rintro ⟨(⟨inputs, pushs, spy, hn, _⟩ | ⟨r, h, _⟩) | ⟨_, h, _⟩, _⟩
  · simp only [relayPieces, List.mem_cons, List.not_mem_nil, or_false] at hp
    rcases hp with rfl | rfl | rfl
    · obtain ⟨_, _, _, h⟩ := A.inputNode hn; cases h
    · obtain ⟨_, _, _, h⟩ := A.portNode (p := .out) hn; cases h
    · obtain ⟨_, _, _, h⟩ := A.portNode (p := .err) hn; cases h
  · cases h
    simp [relayPieces] at hp
  · cases h

theorem Waiter.Later.same (A : Rigged c hs w) {T' : List Happening} {st' : Store} (S : w.Later st T T' st') : Same w [] T T' :=
  ⟨S.history, S.fed, S.drawn, fun _ _ hp => S.others _ (A.awake hp)⟩

theorem Rigged.later (A : Rigged c hs w) (hC : Complete hs) (M : Attended [] w) (hcap : ∀ k ch, cap k ch ≠ some 0) (hT : w.WorldRun [] cap room prog T)
    (hst : execAll cap Store.init ((coreOf T).map Prod.snd) = some st) (hno : ¬ w.Stirs [] cap room prog st T)
    (hj : ∀ i inputs pushs spy, w.node i = some (.junction inputs pushs spy) → ∀ f ∈ acts (proj i (coreOf T)), f.fails = false)
    {T' : List Happening} {st' : Store} (hst' : execAll cap Store.init ((coreOf T').map Prod.snd) = some st') (S : w.Later st T T' st') {a : Happening} (ha : w.Next [] cap room prog T' a) :
    ∃ i e st'', a = .core i e ∧ w.Dozes [] st (coreOf T) i ∧ e.looks = true ∧ execAll cap Store.init ((coreOf (T' ++ [a])).map Prod.snd) = some st'' ∧ w.Later st T (T' ++ [a]) st'' := by
  have same := (S.same A).symm
  cases ha with
  | feed h1 h2 h3 h4 h5 h6 =>
    exfalso
    refine hno ⟨_, .feed h1 (by rw [same.relay _ _ (by simp [relayPieces])]; exact h2) (by rw [same.begun]; exact h3) h4 (by rw [same.history]; exact h5) (by rw [same.inPipe]; exact h6), ?_⟩
    rintro i e ⟨⟩
  | @draw x p d t h h1 h2 h3 h4 =>
    exfalso
    refine hno ⟨.draw x p d, .draw h1 (by rw [same.relay _ _ (by cases p <;> simp [relayPieces, Port.piece])]; exact h2) (by rw [same.outPipe]; exact h3) h4, ?_⟩
    rintro i e ⟨⟩
  | prog h1 h2 h3 h4 =>
    exfalso
    refine hno ⟨_, .prog h1 (by rw [same.history]; exact h2) (by rw [same.history]; exact h3) (same.serves h4), ?_⟩
    rintro i e ⟨⟩
  | @core i e hr hans =>
    obtain ⟨t, ht⟩ := Option.ne_none_iff_exists'.mp (hr.known (i, e) (by simp))
    have hp := hr.exec.tasks i t ht
    rw [proj_append, show proj i [(i, e)] = [e] by simp [proj]] at hp
    obtain ⟨st'', hs'', hx⟩ : ∃ st'', execAll cap Store.init ((coreOf (T' ++ [.core i e])).map Prod.snd) = some st'' ∧ Verif.exec cap st' e = some st'' := by
      have h1 := hr.exec.chans
      obtain ⟨st'', hs''⟩ := Option.isSome_iff_exists.mp h1
      refine ⟨st'', by simpa [coreOf] using hs'', ?_⟩
      rw [List.map_append] at hs''
      obtain ⟨st1, h2, h3⟩ := execAll_split hs''
      rw [hst'] at h2; cases h2
      obtain ⟨st2, h4, h5⟩ := execAll_cons h3
      simp [execAll] at h5
      rw [h4, h5]
    by_cases hd : w.Dozes [] st (coreOf T) i
    case neg =>
      exfalso
      have hpi := S.others i hd
      rw [hpi] at hp
      have possible : ∀ e', t.Partial (proj i (coreOf T) ++ [e']) → (Verif.exec cap st e').isSome → w.Answered T i e' → False := by
        intro e' h1 h2 h3
        obtain ⟨s', h2⟩ := Option.isSome_iff_exists.mp h2
        refine hno ⟨.core i e', .core (hT.core.step hst ht h1 h2 ?_) h3, ?_⟩
        · rintro r rfl p hp' t' ht'
          have h4 := hr.exits (coreOf T') [] r e rfl p hp' t' ht'
          have hl : r.1 = .launch := by
            rcases A.others hC ht node_no_exit with ⟨r', _, _, _, h1, h2, _⟩ | ⟨_, _, h1, _⟩ | ⟨_, _, h1, _⟩ | ⟨_, _, h1, _⟩
            · cases h1; exact h2
            all_goals cases h1
          obtain ⟨_, x⟩ := r
          cases hl
          rwa [S.others _ (A.awake hp')] at h4
        · rintro _ _ ⟨⟩; exact hd
      by_cases hag : ∀ k ch, e.q.on = some (k, ch) → st k ch = st' k ch
      · exact possible e hp (exec_like hag (by simp [hx])) (same.answered hans)
      have hon : ∃ ch, e.q.on = some (.mon, ch) ∧ (st .mon ch).q = [] := by
        refine Classical.byContradiction fun hne => hag fun k ch hk => ?_
        by_cases hm : k = .mon
        · subst hm
          rcases S.mons ch with h | ⟨h, _⟩
          · exact h.symm
          · exact (hne ⟨ch, hk, h⟩).elim
        · exact (S.chans k ch hm).symm
      obtain ⟨ch, hk, hemp⟩ := hon
      have plain : ∀ r, w.Answered T i ⟨e.q, r⟩ := by
        intro r
        refine ⟨?_, ?_, ?_, ?_⟩
        · rintro x h d r' _ h1; injection h1 with h1; rw [h1] at hk; cases hk
        · rintro x h r' _ h1; injection h1 with h1; rw [h1] at hk; cases hk
        · rintro x p h r' _ h1; injection h1 with h1; rw [h1] at hk; cases hk
        · rintro x r' _ h1; injection h1 with h1; rw [h1] at hk; cases hk
      rcases hp.last with hq | ⟨_, _, t2, _, _, hdr⟩
      · by_cases himp : Impossible cap st e.q
        · rcases impossible_cases himp with ⟨k, c', h1, _⟩ | ⟨k, c', v, h1, _, h2⟩
          · rw [h1] at hk hq
            simp only [Req.on, Option.some.injEq, Prod.mk.injEq] at hk
            obtain ⟨rfl, rfl⟩ := hk
            exact A.noNews hC M ht hq
          · rw [h1] at hk
            simp only [Req.on, Option.some.injEq, Prod.mk.injEq] at hk
            obtain ⟨rfl, rfl⟩ := hk
            exact h2 (caps_room hcap hemp)
        · have : ∃ r, Verif.exec cap st ⟨e.q, r⟩ ≠ none := Classical.byContradiction fun h => himp fun r => Classical.byContradiction fun h' => h ⟨r, h'⟩
          obtain ⟨r, hr'⟩ := this
          exact possible ⟨e.q, r⟩ (hq.step r) (Option.isSome_iff_ne_none.mpr hr') (plain r)
      · have : e ∈ dropEvs t.drops := hdr.subset (by simp)
        obtain ⟨y, _, rfl⟩ := List.mem_map.mp this
        exact possible _ hp (by simp [Verif.exec]) (plain _)
    case pos =>
      have finish : e.looks = true → (∀ s, act e = .ended s → Act.ended s ∈ acts (proj i (coreOf T))) → (∀ k ch, k ≠ .mon → st'' k ch = st' k ch) →
          (∀ ch, st'' .mon ch = st' .mon ch ∨ (st .mon ch).q = [] ∧ (st'' .mon ch).q = []) → 
          ∃ i' e' st'', Happening.core i e = .core i' e' ∧ w.Dozes [] st (coreOf T) i' ∧ e'.looks = true ∧ execAll cap Store.init ((coreOf (T' ++ [.core i e])).map Prod.snd) = some st'' ∧ w.Later st T (T' ++ [.core i e]) st'' := by
        intro k1 k2 k3 k4
        have hcore : coreOf (T' ++ [.core i e]) = coreOf T' ++ [(i, e)] := by simp [coreOf]
        refine ⟨i, e, st'', rfl, hd, k1, hs'', ?_, ?_, ?_, ?_, ?_, ?_, ?_⟩
        · intro x; rw [historyOf_append, S.history]; simp [historyOf]
        · intro x; rw [fedTo_append, S.fed]; simp [fedTo]
        · intro x p; rw [drawnFrom_append, S.drawn]; simp [drawnFrom]
        · intro j hj'
          have hne : i ≠ j := fun h => hj' (h ▸ hd)
          rw [hcore, proj_append, S.others j hj', proj_cons_ne hne]; simp [proj]
        · intro j hj'
          obtain ⟨L, l1, l2, l3⟩ := S.dozing j hj'
          by_cases hij : i = j
          · subst hij
            refine ⟨L ++ [e], by rw [hcore, proj_append, l1, proj_cons_self]; simp [proj], ?_, ?_⟩
            · intro e' he'
              rcases List.mem_append.mp he' with h | h
              · exact l2 e' h
              · simp at h; subst h; exact k1
            · intro s hs
              rw [acts_append, List.mem_append] at hs
              rcases hs with h | h
              · exact l3 s h
              · simp [acts] at h; exact k2 s h.symm
          · exact ⟨L, by rw [hcore, proj_append, l1, proj_cons_ne hij]; simp [proj], l2, l3⟩
        · intro k ch hk; rw [k3 k ch hk, S.chans k ch hk]
        · intro ch
          rcases k4 ch with h | h
          · rw [h]; exact S.mons ch
          · exact Or.inr h
      have still : st'' = st' → (∀ k ch, k ≠ .mon → st'' k ch = st' k ch) ∧ ∀ ch, st'' .mon ch = st' .mon ch ∨ (st .mon ch).q = [] ∧ (st'' .mon ch).q = [] := by
        rintro rfl; exact ⟨fun _ _ _ => rfl, fun _ => Or.inl rfl⟩
      obtain ⟨L, l1, l2, l3⟩ := S.dozing i hd
      have hd' := hd
      obtain ⟨(⟨inputs, pushs, spy, hn, hopen, hidle⟩ | ⟨r, rfl, hmons, _⟩) | ⟨_, h, _⟩, hpassed⟩ := hd'
      · have hn : w.node i = some (.junction inputs pushs spy) := hn
        have e1 := sys_node (cs := []) hn
        rw [ht] at e1; cases e1
        have hok : (Node.junction inputs pushs spy).Ok := (A.wired hC).ok i _ hn
        have hspy : spy = none := by
          obtain ⟨r, p, kk, rfl, hm, hk, hexp, hkn⟩ := A.node_inv hn
          exact Comp.node_spy hkn
        subst hspy
        have key := junction_step hok hp ?_ ?_ ?_
        · have oldEnd : ∀ ch, Act.ended (.chan ch) ∈ acts (proj i (coreOf T)) → (st .data ch).q = [] ∧ (st .data ch).closed = true := by
            intro ch h
            refine ended_shut hst ?_
            obtain ⟨e', h1, h2⟩ := List.mem_map.mp h
            exact List.mem_map.mpr ⟨e', List.mem_map.mpr ⟨(i, e'), mem_proj.mp h1, rfl⟩, h2⟩
          have isChan : ∀ s ∈ (Node.junction inputs pushs none).sources, ∃ ch, s = .chan ch := by
            intro s hs'
            obtain ⟨y, hy, hys⟩ := List.mem_filterMap.mp hs'
            obtain ⟨jj, c', hp''⟩ := hok.2.1 y hy
            rw [hp''] at hys; cases hys
            exact ⟨c', rfl⟩
          have used : ∀ {ch}, .chan ch ∈ (Node.junction inputs pushs none).sources → Act.ended (.chan ch) ∉ acts (proj i (coreOf T)) → Network.InUse (proj i (coreOf T)) (.chan ch) := by
            intro ch hs' hen
            refine ⟨hen, fun _ e' hcl => ?_⟩
            cases e'
            have hp' : (Node.junction inputs pushs none).task.Partial (proj i (coreOf T)) := by
              rw [l1] at hp
              exact hp.prefix.prefix
            rcases node_closes hok hp' hs' hcl with h | ⟨f, h1, h2⟩
            · exact hen h
            · rw [hj i _ _ _ hn f h1] at h2; cases h2
          have cond := node_conduct hok hp
          have noEnd : ∀ {a : Act}, act e = a → (∀ s, a ≠ .ended s) → ∀ s, act e = .ended s → Act.ended s ∈ acts (proj i (coreOf T)) := fun h1 h2 s h3 => (h2 s (h1.symm.trans h3)).elim
          rcases key with ⟨s, d, ha, hsrc⟩ | ⟨s, ha⟩ | ⟨s, ha⟩ | ⟨n, ha⟩ | ⟨ch, ha, hen⟩
          · exfalso
            obtain ⟨ch, rfl⟩ := isChan s hsrc
            refine got_none hx ha ?_
            rw [S.chans _ _ (by simp)]
            by_cases hen : Act.ended (.chan ch) ∈ acts (proj i (coreOf T))
            · exact (oldEnd ch hen).1
            · exact (hidle ch hsrc (used hsrc hen)).1
          · have hsrc := cond.ended s (by simp [acts, ha])
            obtain ⟨ch, rfl⟩ := isChan s hsrc
            have h5 : (st' .data ch).closed = true ∧ st'' = st' ∧ e.looks = true := by
              rcases ended_event ha with rfl | rfl <;> simp only [Verif.exec] at hx <;> split at hx <;> simp at hx <;> rename_i hh <;> exact ⟨hh.2, hx.symm, rfl⟩
            refine finish h5.2.2 (fun s hs' => ?_) (still h5.2.1).1 (still h5.2.1).2
            rw [ha] at hs'; cases hs'
            refine Classical.byContradiction fun hen => ?_
            have := (hidle ch hsrc (used hsrc hen)).2
            rw [← S.chans _ _ (by simp), h5.1] at this
            cases this
          · obtain ⟨ch, rfl⟩ := empty_event ha
            have h5 : st'' = st' := by
              simp only [Verif.exec] at hx
              split at hx <;> simp at hx
              exact hx.symm
            exact finish rfl (noEnd ha (by simp)) (still h5).1 (still h5).2
          · obtain rfl := sleep_event ha
            have h5 : st'' = st' := by simp [Verif.exec] at hx; exact hx.symm
            exact finish rfl (noEnd ha (by simp)) (still h5).1 (still h5).2
          · obtain rfl := close_event ha
            have h5 : st'' = st' := close_same hx (by
              rw [S.chans _ _ (by simp)]
              refine (oldEnd ch ?_).2
              rw [l1, acts_append, List.mem_append] at hen
              exact hen.elim id (l3 _))
            exact finish rfl (noEnd ha (by simp)) (still h5).1 (still h5).2
        · intro a ha
          rw [l1, acts_append, List.mem_append] at ha
          rcases ha with h | h
          · exact hj i _ _ _ hn a h
          · obtain ⟨e', h1, rfl⟩ := List.mem_map.mp h
            exact (looks_act (l2 e' h1)).2.2.1
        · obtain ⟨s, hs1, hs2⟩ := hopen
          refine ⟨s, hs1, fun h => hs2.1 ?_⟩
          rw [l1, acts_append, List.mem_append] at h
          exact h.elim id (l3 s)
        · intro t ht'
          have h1 := hpassed _ hn t ht'
          have h2 : acceptedBy t (proj i (coreOf T)) = offeredTo t (proj i (coreOf T)) := acceptedBy_all fun o hom => by
            have := hj i inputs pushs none hn (.offer o.to o.d o.w) (mem_offers.mp hom)
            obtain ⟨_, _, wo⟩ := o
            cases wo <;> simp [Act.fails] at this ⊢
          obtain ⟨g1, g2⟩ := looks_trace l2 (proj i (coreOf T))
          rw [l1, g1, ← h1, h2]
          simp only [offeredTo, g2]
      · have hnn : w.node (.part r .count) = none := by
          cases hn : w.node (.part r .count) with
          | none => rfl
          | some n =>
            obtain ⟨r', p, kk, h1, _, _, _, hkn⟩ := A.node_inv hn
            cases h1
            cases kk <;> simp [Comp.node] at hkn
        rcases A.others hC ht hnn with ⟨_, _, _, _, h, _⟩ | ⟨r', m, h, hb, _, rfl, a, b, hk⟩ | ⟨_, _, h, _⟩ | ⟨_, _, h, _⟩
        · cases h
        · cases h
          have hm : m = false := by
            obtain ⟨_, x⟩ := r
            cases hb
            have := M.monitor x a b m hk
            cases m with
            | false => rfl
            | true => simp at this
          subst hm
          have emp : ∀ c ∈ [2 * w.idOf r, 2 * w.idOf r + 1], (st' .mon c).q = [] := by
            intro c' hc'
            rcases S.mons c' with h | ⟨_, h⟩
            · rw [h]; exact hmons c' hc'
            · exact h
          have hin := count_uses hp e (by simp)
          have noEnd : (∀ s, act e ≠ .ended s) → ∀ s, act e = .ended s → Act.ended s ∈ acts (proj (.part r .count) (coreOf T)) := fun h s h1 => (h s h1).elim
          obtain ⟨q, rr⟩ := e
          rcases count_noNews hp ⟨q, rr⟩ (by simp) with ⟨c', h⟩ | ⟨c', h⟩ | ⟨c', h⟩ | ⟨_, _, h, _⟩ | ⟨k, c', h⟩
          · cases h
            have hc' : c' ∈ [2 * w.idOf r, 2 * w.idOf r + 1] := by simpa [countChans] using hin _ rfl
            have h5 : (∀ v, rr ≠ .got v) ∧ st'' = st' := by
              cases rr <;> simp only [Verif.exec, emp c' hc'] at hx <;> simp at hx
              all_goals exact ⟨by simp, hx.2.symm⟩
            refine finish ?_ (noEnd (by cases rr <;> simp [act])) (still h5.2).1 (still h5.2).2
            cases rr with
            | got v => exact (h5.1 v rfl).elim
            | _ => rfl
          · cases h
            have h5 : st'' = st' := by
              obtain ⟨a, b⟩ := rr
              simp only [Verif.exec] at hx
              split at hx <;> simp at hx
              exact hx.symm
            exact finish rfl (noEnd (by simp [act])) (still h5).1 (still h5).2
          · cases h
            have h5 : st'' = st' := by simp [Verif.exec] at hx; exact hx.symm
            exact finish rfl (noEnd (by simp [act])) (still h5).1 (still h5).2
          · cases h
          · cases h
            have hc' : k = .mon ∧ c' ∈ [2 * w.idOf r, 2 * w.idOf r + 1] := by
              have := hin _ rfl
              simp [countChans] at this
              rcases this with ⟨rfl, rfl⟩ | ⟨rfl, rfl⟩ <;> simp
            obtain ⟨rfl, hc'⟩ := hc'
            have other : ∀ k ch, ¬ (k = .mon ∧ ch = c') → st'' k ch = st' k ch := by
              intro k ch hne
              obtain ⟨g1, g2, _⟩ := exec_chan hx k ch
              simp [sentOf, gotOf] at g1
              refine Chan.eq_of g1.symm ?_
              rw [g2]
              have : ¬ (.mon = k ∧ c' = ch) := fun h => hne ⟨h.1.symm, h.2.symm⟩
              simp [closesChan, this]
            refine finish rfl (noEnd (by simp [act])) (fun k ch hk => other k ch fun h => hk h.1) fun ch => ?_
            by_cases h : ch = c'
            · subst h
              obtain ⟨g1, _⟩ := exec_chan hx .mon ch
              simp [sentOf, gotOf] at g1
              exact Or.inr ⟨hmons ch hc', by rw [← g1]; exact emp ch hc'⟩
            · exact Or.inl (other _ _ fun h' => h h'.2)
        · cases h
        · cases h
      · cases h

theorem Rigged.final (A : Rigged c hs w) (hC : Complete hs) (M : Attended [] w) (hcap : ∀ k ch, cap k ch ≠ some 0)
    (hst : execAll cap Store.init ((coreOf T).map Prod.snd) = some st) (hno : ¬ w.Stirs [] cap room prog st T)
    (hj : ∀ i inputs pushs spy, w.node i = some (.junction inputs pushs spy) → ∀ f ∈ acts (proj i (coreOf T)), f.fails = false)
    {U : List Happening} (hU : w.WorldRun [] cap room prog (T ++ U)) :
    (∀ a ∈ U, ∃ i e, a = .core i e ∧ w.Dozes [] st (coreOf T) i ∧ e.looks = true) ∧
    ∃ st', execAll cap Store.init ((coreOf (T ++ U)).map Prod.snd) = some st' ∧ w.Later st T (T ++ U) st' := by
  generalize hn : U.length = n
  induction n generalizing U with
  | zero =>
    have : U = [] := List.eq_nil_of_length_eq_zero hn
    subst this
    refine ⟨by simp, st, by simpa using hst, ?_⟩
    rw [List.append_nil]
    exact ⟨fun _ => rfl, fun _ => rfl, fun _ _ => rfl, fun _ _ => rfl, fun _ _ => ⟨[], by simp, by simp, by simp [acts]⟩, fun _ _ _ => rfl, fun _ => Or.inl rfl⟩
  | succ n ih =>
    rcases List.eq_nil_or_concat U with rfl | ⟨V, a, rfl⟩
    · cases hn
    rw [List.concat_eq_append] at *
    rw [← List.append_assoc] at hU ⊢
    obtain ⟨h1, st', h2, h3⟩ := ih hU.prefix (by simpa using hn)
    obtain ⟨i, e, st'', rfl, h5, h6, h7, h8⟩ := A.later hC M hcap (hU.prefix).prefix hst hno hj h2 h3 hU.last
    refine ⟨fun b hb => ?_, st'', h7, h8⟩
    rcases List.mem_append.mp hb with h | h
    · exact h1 b h
    · simp at h; subst h; exact ⟨i, e, rfl, h5, h6⟩

end

end Verif
