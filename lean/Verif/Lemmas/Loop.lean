import Verif.Lemmas.Worker
/-!
# Lemmas about loops and about the rounds of `motion`
-/
namespace Verif

instance (q : Req) : Nonempty q.Resp := by
  cases q
  case recv => exact ⟨none⟩
  case tryRecv => exact ⟨.empty⟩
  case send => exact ⟨true⟩
  case close => exact ⟨()⟩
  case stat => exact ⟨(true, true)⟩
  case streamRead => exact ⟨.eof⟩
  case ioWrite => exact ⟨.ok⟩
  case ioFlush => exact ⟨true⟩
  case sleep => exact ⟨()⟩
  case status => exact ⟨.err⟩

theorem Prog.exists_runs {α : Type} (p : Prog α) : ∃ tr a, p.Runs tr a := by
  induction p with
  | ret a => exact ⟨[], a, rfl, rfl⟩
  | op q k ih =>
    obtain ⟨r⟩ : Nonempty q.Resp := inferInstance
    obtain ⟨tr, a, h⟩ := ih r
    exact ⟨⟨q, r⟩ :: tr, a, r, tr, rfl, h⟩

/-- Every unfinished run can be continued to a complete one. -/
theorem Prog.Partial.extend {α : Type} {p : Prog α} {tr : List Ev} (h : p.Partial tr) :
    ∃ tr' a, p.Runs (tr ++ tr') a := by
  induction p generalizing tr with
  | ret a =>
    rw [Prog.partial_ret] at h
    subst h; exact ⟨[], a, rfl, rfl⟩
  | op q k ih =>
    cases tr with
    | nil => exact Prog.exists_runs (.op q k)
    | cons e tr =>
      obtain ⟨r, rfl, h⟩ := h
      obtain ⟨tr', a, h'⟩ := ih r h
      exact ⟨tr', a, r, _, rfl, h'⟩

/-- Every loop run is some complete rounds followed by a last one. -/
theorem LoopRuns.rounds {σ ρ : Type} {body : σ → Prog (σ ⊕ ρ)} {s tr r} (h : LoopRuns body s tr r) :
    ∃ s' t1 t2, tr = t1 ++ t2 ∧ LoopRounds body s t1 s' ∧ (body s').Runs t2 (.inr r) := by
  induction h with
  | stop h => exact ⟨_, [], _, rfl, .nil, h⟩
  | next h _ ih =>
    obtain ⟨s', t1, t2, rfl, h1, h2⟩ := ih
    exact ⟨s', _, t2, by rw [List.append_assoc], .next h h1, h2⟩

theorem LoopRuns.toPartial {σ ρ : Type} {body : σ → Prog (σ ⊕ ρ)} {s tr r} (h : LoopRuns body s tr r) :
    LoopPartial body s tr := by
  obtain ⟨s', t1, t2, rfl, h1, h2⟩ := h.rounds
  exact ⟨s', t1, t2, h1, Prog.runs_partial h2, rfl⟩

/-- How many times the input had something to say: a message or its end. -/
def heard (tr : List Ev) : Nat := (received tr).length + endings tr

@[simp] theorem heard_append (a b : List Ev) : heard (a ++ b) = heard a + heard b := by
  simp [heard]; omega

@[simp] theorem received_nil : received [] = [] := rfl
@[simp] theorem offers_nil : offers [] = [] := rfl
@[simp] theorem endings_nil : endings [] = 0 := rfl
@[simp] theorem heard_nil : heard [] = 0 := rfl
@[simp] theorem notified_nil (c : Nat) : notified c [] = [] := rfl
@[simp] theorem closings_nil : closings [] = [] := rfl
@[simp] theorem spied_nil : spied [] = [] := rfl

/-- Number of notifications on an optional channel. -/
def pings (c : Option Nat) (tr : List Ev) : Nat := match c with
  | some c => (notified c tr).length
  | none => 0

@[simp] theorem pings_append (c : Option Nat) (a b : List Ev) : pings c (a ++ b) = pings c a + pings c b := by
  cases c <;> simp [pings]
@[simp] theorem pings_nil (c : Option Nat) : pings c [] = 0 := by cases c <;> rfl

theorem prefix_append_cases {α : Type} {a b t : List α} (h : t <+: a ++ b) : t <+: a ∨ ∃ u, t = a ++ u ∧ u <+: b := by
  obtain ⟨s, hs⟩ := h
  rw [List.append_eq_append_iff] at hs
  rcases hs with ⟨v, rfl, rfl⟩ | ⟨v, rfl, rfl⟩
  · exact Or.inl ⟨v, rfl⟩
  · exact Or.inr ⟨v, rfl, s, rfl⟩

theorem prefix_singleton {α : Type} {x : α} {t : List α} (h : t <+: [x]) : t = [] ∨ t = [x] := by
  cases t with
  | nil => exact Or.inl rfl
  | cons y t =>
    right
    obtain ⟨s, hs⟩ := h
    simp at hs
    simp [hs]

/-- Reading is one event, if the input is connected. -/
theorem read_one {pull : Pull} {tr : List Ev} {x : IOW} (h : MRuns (motionRead pull false) tr (.ok x)) (hp : pull ≠ .none) :
    ∃ e, tr = [e] ∧ heard tr = 1 ∧ offers tr = [] ∧ (∀ c, notified c tr = []) ∧ closings tr = [] ∧
      ((∃ d s, x = .data d ∧ received tr = [d] ∧ pull.source = some s ∧ act e = .got s d) ∨
       (x = .finished ∧ received tr = [] ∧ endings tr = 1)) := by
  have h' := motionRead_runs h
  have hl : ∀ a, acts tr = [a] → ∃ e, tr = [e] ∧ act e = a := by
    intro a ha
    match tr, ha with
    | [e], ha => simp at ha; exact ⟨e, rfl, ha⟩
  have hns : x ≠ .skipped := by
    rintro rfl
    unfold motionRead at h
    split at h
    · simp at h
    · rw [mruns_bind] at h
      rcases h with ⟨e, h, _⟩ | ⟨t1, a, t2, rfl, _, h⟩
      · simp at h
      · cases a <;> simp at h
    · simp_all
    · rw [mruns_bind] at h
      rcases h with ⟨e, h, _⟩ | ⟨t1, a, t2, rfl, _, h⟩
      · simp at h
      · cases a <;> simp at h
    · simp at h
    · simp at h
  cases x with
  | data d =>
    obtain ⟨s, hs, ha⟩ := h'
    obtain ⟨e, rfl, he⟩ := hl _ ha
    refine ⟨e, rfl, ?_, ?_, ?_, ?_, Or.inl ⟨d, s, rfl, ?_, hs, he⟩⟩ <;>
      simp [heard, received, endings, offers, notified, closings, he]
  | finished =>
    rcases h' with ⟨h', _⟩ | ⟨s, hs, ha⟩
    · exact absurd h' hp
    · obtain ⟨e, rfl, he⟩ := hl _ ha
      refine ⟨e, rfl, ?_, ?_, ?_, ?_, Or.inr ⟨rfl, ?_, ?_⟩⟩ <;>
        simp [heard, received, endings, offers, notified, closings, he]
  | skipped => simp at hns

theorem read_err {pull : Pull} {tr : List Ev} {e : MErr} (h : MRuns (motionRead pull false) tr (.error e)) :
    heard tr = 0 ∧ received tr = [] ∧ offers tr = [] ∧ (∀ c, notified c tr = []) ∧ closings tr = [] := by
  have h' := motionRead_runs h
  cases e <;> simp [ReadSees] at h'
  · obtain ⟨_, _, h⟩ := h'
    simp [heard, received, endings, offers, notified, closings, h]
  · simp [heard, received, endings, offers, notified, closings, h']

theorem prefix_acts {t tr : List Ev} (h : t <+: tr) : acts t <+: acts tr := by
  obtain ⟨s, rfl⟩ := h; simp

theorem nr_seen {mon : Notifications} {pull : Pull} {tr t : List Ev} {r} (h : MRuns (notifyRead mon pull) tr r) (ht : t <+: tr) :
    heard t = 0 ∧ received t = [] ∧ offers t = [] ∧ closings t = [] ∧ (∀ c, some c ≠ mon.read → notified c t = []) ∧
    pings mon.read t ≤ 1 ∧ (∀ c, mon.read = some c → ∀ m ∈ notified c t, m = .read 0) ∧
    (r = .ok () → mon.read.isSome = true → pings mon.read tr = 1) := by
  rcases notifyRead_runs h with ⟨h0, rfl, _⟩ | ⟨c, b, hc, h, _⟩
  · simp at ht; subst ht; simp [h0]
  · have := prefix_acts ht
    rw [h] at this
    rcases prefix_singleton this with h' | h' <;>
      simp [heard, received, endings, offers, notified, closings, pings, h, h', hc]
    intro c' hc' h2; simp [h2] at hc'

theorem nw_seen {mon : Notifications} {pull : Pull} {tr t : List Ev} {r} (h : MRuns (notifyWritten mon pull) tr r) (ht : t <+: tr) :
    heard t = 0 ∧ received t = [] ∧ offers t = [] ∧ closings t = [] ∧ (∀ c, some c ≠ mon.written → notified c t = []) ∧
    pings mon.written t ≤ 1 ∧ (∀ c, mon.written = some c → ∀ m ∈ notified c t, m = .wrote 0) ∧
    (r = .ok () → mon.written.isSome = true → pings mon.written tr = 1) := by
  rcases notifyWritten_runs h with ⟨h0, rfl, _⟩ | ⟨c, b, hc, h, _⟩
  · simp at ht; subst ht; simp [h0]
  · have := prefix_acts ht
    rw [h] at this
    rcases prefix_singleton this with h' | h' <;>
      simp [heard, received, endings, offers, notified, closings, pings, h, h', hc]
    intro c' hc' h2; simp [h2] at hc'

end Verif

namespace Verif

theorem quiet_prefix {t tr : List Ev} (h : ∀ a ∈ acts tr, a.isQuiet = false) (ht : t <+: tr) :
    ∀ a ∈ acts t, a.isQuiet = false := fun a ha => h a ((prefix_acts ht).subset ha)

theorem quiet_heard {tr : List Ev} (h : ∀ a ∈ acts tr, a.isQuiet = false) : heard tr = 0 := by
  simp [heard, quiet_received h, quiet_endings h]

theorem quiet_pings {tr : List Ev} (c : Option Nat) (h : ∀ a ∈ acts tr, a.isQuiet = false) : pings c tr = 0 := by
  cases c <;> simp [pings, quiet_notified _ h]

theorem pings_of_ne {c c' : Option Nat} {tr : List Ev} (h : ∀ x, some x ≠ c' → notified x tr = []) (hne : c ≠ c') :
    pings c tr = 0 := by
  cases c with
  | none => rfl
  | some x => simp [pings, h x hne]

/-- What has been seen of one round of forwarding at some moment during it. -/
structure RoundSeen (mon : Notifications) (push : Push) (t : List Ev) : Prop where
  one : heard t ≤ 1
  written : (offers t).map Offer.d <+: received t
  target : ∀ o ∈ offers t, push.target = some o.to
  open_ : closings t = []
  read_le : pings mon.read t ≤ heard t
  written_le : pings mon.written t ≤ heard t
  order : mon.read.isSome = true → pings mon.written t ≤ pings mon.read t
  read_msgs : ∀ c, mon.read = some c → ∀ m ∈ notified c t, m = .read 0
  written_msgs : ∀ c, mon.written = some c → ∀ m ∈ notified c t, m = .wrote 0

/-- What has been seen of a complete successful round. -/
structure RoundDone (mon : Notifications) (push : Push) (t : List Ev) (res : WorkerResult) : Prop
    extends RoundSeen mon push t where
  read : res.read = true
  heard_one : heard t = 1
  all_written : push.target.isSome = true → (offers t).map Offer.d = received t
  read_eq : mon.read.isSome = true → pings mon.read t = 1
  written_eq : mon.written.isSome = true → pings mon.written t = 1
  more : res.finished = false → endings t = 0

/-- The two notification channels of a relay are different ones. -/
def Notifications.Apart (mon : Notifications) : Prop := ∀ c, ¬ (mon.read = some c ∧ mon.written = some c)

theorem offers_prefix {t tr : List Ev} (h : t <+: tr) : offers t <+: offers tr := by
  obtain ⟨s, rfl⟩ := h; simp

theorem Notifications.Apart.ne {mon : Notifications} (h : mon.Apart) {P : Prop}
    (hs : mon.read = mon.written → mon.read.isSome = true → P) : mon.read = mon.written → mon.read.isSome = true → P := hs

theorem pushAll_one_offers {x : IOW} {spy push n t} {r : Except MErr Nat} (h : MRuns (pushAll x spy [push] n) t r)
    (hn : 1 ≤ n) :
    (∀ d, x = .data d → (offers t).map Offer.d <+: [d]) ∧ (x = .finished → offers t = []) ∧
    (∀ o ∈ offers t, push.target = some o.to) ∧
    (∀ d m, x = .data d → r = .ok m → push.target.isSome = true → (offers t).map Offer.d = [d]) := by
  cases x with
  | skipped => 
    have := pushAll_nodata (by simp) h
    simp [this.1]
  | finished =>
    have := pushAll_nodata (by simp) h
    simp [this.1]
  | data d =>
    have key : (offers t).map (fun o => (o.to, o.d)) <+: targets [push] d ∧
        (∀ m, r = .ok m → (offers t).map (fun o => (o.to, o.d)) = targets [push] d) := by
      cases r with
      | ok m => 
        obtain ⟨i1, _⟩ := pushAll_data (by simpa using hn) h
        exact ⟨by rw [i1]; exact List.prefix_rfl, fun _ _ => i1⟩
      | error e => exact ⟨(pushAll_data (by simpa using hn) h).1, by simp⟩
    cases ht : push.target with
    | none =>
      simp [targets, ht] at key
      simp [key]
    | some tg =>
      simp [targets, ht] at key
      obtain ⟨k1, k2⟩ := key
      rcases prefix_singleton k1 with k | k
      · simp at k
        simp [k] at k2 ⊢
        cases r with
        | ok m => simp at k2
        | error => simp
      · match ho : offers t with
        | [] => simp [ho] at k
        | [o] =>
          rw [ho] at k
          simp at k
          obtain ⟨rfl, rfl⟩ := k
          simp
          intro d m h1 _; exact h1
        | _ :: _ :: _ => rw [ho] at k; simp at k

theorem round_seen {pull mon push spy tr t} {r : Except MErr WorkerResult}
    (h : MRuns (motionWorker pull mon [push] spy false) tr r) (hp : pull ≠ .none) (ha : mon.Apart)
    (ht : t <+: tr) : RoundSeen mon push t := by
  have hz : ∀ {u : List Ev}, heard u = 0 → received u = [] → offers u = [] → (∀ c, notified c u = []) → closings u = [] →
      RoundSeen mon push u := by
    intro u h1 h2 h3 h4 h5
    have hpg : ∀ c, pings c u = 0 := by intro c; cases c <;> simp [pings, h4]
    exact ⟨by omega, by simp [h2, h3], by simp [h3], h5, by simp [hpg], by simp [hpg], by simp [hpg], by simp [h4], by simp [h4]⟩
  have hnil : RoundSeen mon push [] := hz rfl rfl rfl (fun _ => rfl) rfl
  rcases motionWorker_inv h with ⟨e, rfl, h1⟩ | ⟨h1, rfl⟩ | ⟨x, t1, t2, rfl, hx, h1, h2⟩
  · have hr := motionRead_runs h1
    have hpre := prefix_acts ht
    cases e <;> simp [ReadSees] at hr
    · obtain ⟨hh, _, hr⟩ := hr
      rw [hr] at hpre
      rcases prefix_singleton hpre with k | k <;> apply hz <;>
        simp [heard, received, endings, offers, notified, closings, k]
    · rw [hr] at hpre
      simp at hpre
      apply hz <;> simp [heard, received, endings, offers, notified, closings, hpre]
  · obtain ⟨e, _, _, _, _, _, h⟩ := read_one h1 hp
    rcases h with ⟨_, _, h, _⟩ | ⟨h, _⟩ <;> simp at h
  · obtain ⟨e, he, hh1, ho1, hn1, hc1, hx1⟩ := read_one h1 hp
    have hp1 : ∀ c, pings c t1 = 0 := by intro c; cases c <;> simp [pings, hn1]
    rcases prefix_append_cases ht with ht | ⟨u, rfl, hu⟩
    · rw [he] at ht
      rcases prefix_singleton ht with rfl | rfl
      · exact hnil
      · rw [← he]
        exact ⟨by omega, by simp [ho1], by simp [ho1], hc1, by simp [hp1], by simp [hp1], by simp [hp1], by simp [hn1], by simp [hn1]⟩
    · have nrApart : ∀ {v t3 r}, MRuns (notifyRead mon pull) t3 r → v <+: t3 → pings mon.written v = 0 := by
        intro v t3 r h3 hv
        have := nr_seen h3 hv
        cases hw : mon.written with
        | none => rfl
        | some c =>
          have : some c ≠ mon.read := by intro hcc; exact ha c ⟨hcc.symm, hw⟩
          simp [pings, (nr_seen h3 hv).2.2.2.2.1 c this]
      have nwApart : ∀ {v t3 r}, MRuns (notifyWritten mon pull) t3 r → v <+: t3 → pings mon.read v = 0 := by
        intro v t3 r h3 hv
        cases hw : mon.read with
        | none => rfl
        | some c =>
          have : some c ≠ mon.written := by intro hcc; exact ha c ⟨hw, hcc.symm⟩
          simp [pings, (nw_seen h3 hv).2.2.2.2.1 c this]
      have nrW : ∀ {v t3 r}, MRuns (notifyRead mon pull) t3 r → v <+: t3 → ∀ c, mon.written = some c → notified c v = [] := by
        intro v t3 r h3 hv c hc
        exact (nr_seen h3 hv).2.2.2.2.1 c (fun hcc => ha c ⟨hcc.symm, hc⟩)
      have nwR : ∀ {v t3 r}, MRuns (notifyWritten mon pull) t3 r → v <+: t3 → ∀ c, mon.read = some c → notified c v = [] := by
        intro v t3 r h3 hv c hc
        exact (nw_seen h3 hv).2.2.2.2.1 c (fun hcc => ha c ⟨hc, hcc.symm⟩)
      -- still notifying
      have stage1 : ∀ {v t3 r}, MRuns (notifyRead mon pull) t3 r → v <+: t3 → RoundSeen mon push (t1 ++ v) := by
        intro v t3 r h3 hv
        obtain ⟨a1, a2, a3, a4, a5, a6, a7, _⟩ := nr_seen h3 hv
        have hw := nrApart h3 hv
        refine ⟨by simp [hh1, a1], by simp [ho1, a3], by simp [ho1, a3], by simp [hc1, a4], by simp [hp1, hh1]; omega,
          by simp [hp1, hw], by simp [hp1, hw], ?_, ?_⟩
        · intro c hc; simp [hn1]; exact a7 c hc
        · intro c hc; simp [hn1, nrW h3 hv c hc]
      rcases h2 with ⟨e, rfl, h3⟩ | ⟨t3, t4, rfl, h3, h4⟩
      · exact stage1 h3 hu
      · rcases prefix_append_cases hu with hu | ⟨v, rfl, hv⟩
        · exact stage1 h3 hu
        · obtain ⟨a1, a2, a3, a4, a5, a6, a7, a8⟩ := nr_seen h3 List.prefix_rfl
          have hw3 := nrApart h3 List.prefix_rfl
          have hsome : mon.read.isSome = true → pings mon.read t3 = 1 := a8 rfl
          have stage2 : ∀ {w t5 r}, MRuns (pushAll x spy [push] [push].length) t5 r → w <+: t5 → RoundSeen mon push (t1 ++ (t3 ++ w)) := by
            intro w t5 r h5 hw
            have hq := quiet_prefix (pushAll_quiet h5) hw
            obtain ⟨b1, b2, b3, _⟩ := pushAll_one_offers h5 (by simp)
            have how := offers_prefix hw
            refine ⟨by simp [hh1, a1, quiet_heard hq], ?_, ?_, by simp [hc1, a4, quiet_closings hq],
              by simp [hp1, hh1, quiet_pings _ hq]; omega, by simp [hp1, hw3, quiet_pings _ hq],
              by simp [hp1, hw3, quiet_pings _ hq], ?_, ?_⟩
            · simp only [offers_append, ho1, a3, List.nil_append, received_append, a2, quiet_received hq, List.append_nil]
              rcases hx1 with ⟨d, s, rfl, hx1, _⟩ | ⟨rfl, hx1, _⟩
              · rw [hx1]
                exact (how.map _).trans (b1 d rfl)
              · rw [b2 rfl] at how
                simp at how
                simp [how]
            · intro o hm
              simp [ho1, a3] at hm
              exact b3 o (how.subset hm)
            · intro c hc; simp [hn1, quiet_notified _ hq]; exact a7 c hc
            · intro c hc; simp [hn1, quiet_notified _ hq, nrW h3 List.prefix_rfl c hc]
          rcases h4 with ⟨e, rfl, h5⟩ | ⟨m, t5, t6, rfl, h5, h6⟩
          · exact stage2 h5 hv
          · rcases prefix_append_cases hv with hv | ⟨w, rfl, hw⟩
            · exact stage2 h5 hv
            · have s2 := stage2 h5 List.prefix_rfl
              have stage3 : ∀ {r}, MRuns (notifyWritten mon pull) t6 r → RoundSeen mon push (t1 ++ (t3 ++ (t5 ++ w))) := by
                intro r h7
                obtain ⟨c1, c2, c3, c4, c5, c6, c7, c8⟩ := nw_seen h7 hw
                have hrw := nwApart h7 hw
                have e1 : t1 ++ (t3 ++ (t5 ++ w)) = (t1 ++ (t3 ++ t5)) ++ w := by simp
                rw [e1]
                have hq := pushAll_quiet h5
                have hh : heard (t1 ++ (t3 ++ t5)) = 1 := by simp [hh1, a1, quiet_heard hq]
                have hpw : pings mon.written (t1 ++ (t3 ++ t5)) = 0 := by simp [hp1, hw3, quiet_pings _ hq]
                have hpr : mon.read.isSome = true → pings mon.read (t1 ++ (t3 ++ t5)) = 1 := by
                  intro hs; simp [hp1, hsome hs, quiet_pings _ hq]
                refine ⟨?_, ?_, ?_, ?_, ?_, ?_, ?_, ?_, ?_⟩
                · rw [heard_append, hh, c1]; omega
                · rw [offers_append, received_append, c3, c2, List.append_nil, List.append_nil]; exact s2.written
                · rw [offers_append, c3, List.append_nil]; exact s2.target
                · rw [closings_append, c4, List.append_nil]; exact s2.open_
                · rw [pings_append, heard_append, hrw, c1]; exact s2.read_le
                · rw [pings_append, heard_append, hpw, hh, c1]; omega
                · intro hs
                  rw [pings_append _ _ w, pings_append _ _ w, hpw, hpr hs]; omega
                · intro c hc
                  rw [notified_append, nwR h7 hw c hc, List.append_nil]; exact s2.read_msgs c hc
                · intro c hc mm hm
                  rw [notified_append, List.mem_append] at hm
                  rcases hm with hm | hm
                  · exact s2.written_msgs c hc mm hm
                  · exact c7 c hc mm hm
              rcases h6 with ⟨e, rfl, h7⟩ | ⟨h7, rfl⟩
              · exact stage3 h7
              · exact stage3 h7

theorem round_done {pull mon push spy tr} {res : WorkerResult}
    (h : MRuns (motionWorker pull mon [push] spy false) tr (.ok res)) (hp : pull ≠ .none) (ha : mon.Apart) :
    RoundDone mon push tr res := by
  have hs := round_seen h hp ha List.prefix_rfl
  suffices hd : res.read = true ∧ heard tr = 1 ∧
      (push.target.isSome = true → (offers tr).map Offer.d = received tr) ∧
      (mon.read.isSome = true → pings mon.read tr = 1) ∧ (mon.written.isSome = true → pings mon.written tr = 1) ∧
      (res.finished = false → endings tr = 0) from
    ⟨hs, hd.1, hd.2.1, hd.2.2.1, hd.2.2.2.1, hd.2.2.2.2.1, hd.2.2.2.2.2⟩
  rcases motionWorker_inv h with ⟨e, h0, h1⟩ | ⟨h1, hr⟩ | ⟨x, t1, t2, rfl, hx, h1, h2⟩
  · simp at h0
  · obtain ⟨e, _, _, _, _, _, h⟩ := read_one h1 hp
    rcases h with ⟨_, _, h, _⟩ | ⟨h, _⟩ <;> simp at h
  · obtain ⟨e, he, hh1, ho1, hn1, hc1, hx1⟩ := read_one h1 hp
    have hp1 : ∀ c, pings c t1 = 0 := by intro c; cases c <;> simp [pings, hn1]
    rcases h2 with ⟨e, h0, h3⟩ | ⟨t3, t4, rfl, h3, h4⟩
    · simp at h0
    · rcases h4 with ⟨e, h0, h5⟩ | ⟨m, t5, t6, rfl, h5, h6⟩
      · simp at h0
      · rcases h6 with ⟨e, h0, h7⟩ | ⟨h7, hr⟩
        · simp at h0
        · simp at hr; subst hr
          obtain ⟨a1, a2, a3, a4, a5, a6, a7, a8⟩ := nr_seen h3 List.prefix_rfl
          obtain ⟨c1, c2, c3, c4, c5, c6, c7, c8⟩ := nw_seen h7 List.prefix_rfl
          have hq := pushAll_quiet h5
          obtain ⟨b1, b2, b3, b4⟩ := pushAll_one_offers h5 (by simp)
          refine ⟨rfl, by simp [hh1, a1, c1, quiet_heard hq], ?_, ?_, ?_, ?_⟩
          · intro hs
            simp only [offers_append, ho1, a3, c3, List.nil_append, List.append_nil, received_append, a2, quiet_received hq, c2]
            rcases hx1 with ⟨d, s, rfl, hx1, _⟩ | ⟨rfl, hx1, _⟩
            · rw [hx1]; exact b4 d m rfl rfl hs
            · simp [b2, hx1]
          · intro hs
            have : pings mon.read t6 = 0 := by
              cases hw : mon.read with
              | none => rfl
              | some c =>
                have : some c ≠ mon.written := by intro hcc; exact ha c ⟨hw, hcc.symm⟩
                simp [pings, c5 c this]
            simp [hp1, quiet_pings _ hq, a8 rfl hs, this]
          · intro hs
            have : pings mon.written t3 = 0 := by
              cases hw : mon.written with
              | none => rfl
              | some c =>
                have : some c ≠ mon.read := by intro hcc; exact ha c ⟨hcc.symm, hw⟩
                simp [pings, a5 c this]
            simp [hp1, quiet_pings _ hq, c8 rfl hs, this]
          · intro hf
            simp at hf
            rcases hx1 with ⟨d, s, rfl, hx1, _⟩ | ⟨rfl, hx1, _⟩
            · have : heard (t1 ++ (t3 ++ (t5 ++ t6))) = 1 := by simp [hh1, a1, c1, quiet_heard hq]
              have hl : (received (t1 ++ (t3 ++ (t5 ++ t6)))).length = 1 := by simp [hx1, a2, c2, quiet_received hq]
              unfold heard at this; omega
            · simp at hf

end Verif
