import Verif.Lemmas.BufferCount
import Verif.Lemmas.Last
import Verif.Lemmas.Replay
import Verif.Props.Buffer
import Verif.Props.Backpressure
/-!
# Properties C24 and C25: a buffer's size count
-/
namespace Verif

/-- The three activities of a buffer, in the order in which they are polled (buffer.rs:170-172). -/
def bufferActs {ι : Type} (a b t : ι) (ch : BufferChans) (j : PullJourney) (out : Push) : List (ι × Task) :=
  [(a, bufferIn ch j out), (b, bufferOut ch out), (t, bufferCount ch)]

/-- A buffer inside a larger system: its activities are tasks `a`, `b` and `t`; nobody else uses the channels it makes; they are
channels of their own. -/
structure BufferOwn {ι : Type} [DecidableEq ι] (cap : Caps) (sys : ι → Option Task) (τ : List (ι × Ev)) (a b t : ι)
    (ch : BufferChans) (j : PullJourney) (out : Push) : Prop where
  run : Execution cap sys τ
  ina : sys a = some (bufferIn ch j out)
  outb : sys b = some (bufferOut ch out)
  cnt : sys t = some (bufferCount ch)
  ab : a ≠ b
  at_ : a ≠ t
  bt : b ≠ t
  own : ∀ x ∈ τ, ∀ kc, x.2.q.on = some kc → kc ∈ [(Kind.data, ch.inner), (.mon, ch.mIn), (.mon, ch.mOut)] → x.1 = a ∨ x.1 = b ∨ x.1 = t
  input : ch.input ≠ ch.inner
  mons : ch.mIn ≠ ch.mOut
  output : (Kind.data, ch.inner) ∉ out.owned

/-- The capacities of the notification channels are known, too. -/
structure BufferSys {ι : Type} [DecidableEq ι] (cap : Caps) (sys : ι → Option Task) (τ : List (ι × Ev)) (a b t : ι)
    (ch : BufferChans) (j : PullJourney) (out : Push) (ci co : Nat) : Prop extends BufferOwn cap sys τ a b t ch j out where
  capIn : cap .mon ch.mIn = some ci
  capOut : cap .mon ch.mOut = some co

section
variable {ι : Type} [DecidableEq ι] {cap : Caps} {sys : ι → Option Task} {τ : List (ι × Ev)} {a b t : ι}
  {ch : BufferChans} {j : PullJourney} {out : Push} {ci co : Nat}

theorem BufferOwn.prefix {τ₁ τ₂ : List (ι × Ev)} (h : BufferOwn cap sys (τ₁ ++ τ₂) a b t ch j out) :
    BufferOwn cap sys τ₁ a b t ch j out :=
  { h with run := h.run.prefix, own := fun x hx => h.own x (by simp [hx]) }

theorem BufferSys.prefix {τ₁ τ₂ : List (ι × Ev)} (h : BufferSys cap sys (τ₁ ++ τ₂) a b t ch j out ci co) :
    BufferSys cap sys τ₁ a b t ch j out ci co :=
  { h with toBufferOwn := h.toBufferOwn.prefix }

theorem BufferOwn.inReq (h : BufferOwn cap sys τ a b t ch j out) {e : Ev} (he : (a, e) ∈ τ) : InReq ch e.q :=
  Task.only (P := InReq ch) (fun n => by rw [show (bufferIn ch j out).body n = _ from bufferIn_tree ch j out n]; exact in_only)
    (fun kc _ => Or.inr (Or.inr (Or.inr ⟨_, _, rfl⟩))) (h.run.tasks a _ h.ina) e (mem_proj.mpr he)

theorem BufferOwn.outReq (h : BufferOwn cap sys τ a b t ch j out) {e : Ev} (he : (b, e) ∈ τ) : OutReq ch e.q :=
  Task.only (P := OutReq ch) (fun n => by rw [show (bufferOut ch out).body n = _ from bufferOut_tree ch out n]; exact out_only h.output)
    (fun kc _ => Or.inr (Or.inr (Or.inr ⟨_, _, rfl⟩))) (h.run.tasks b _ h.outb) e (mem_proj.mpr he)

theorem BufferOwn.countReq (h : BufferOwn cap sys τ a b t ch j out) {e : Ev} (he : (t, e) ∈ τ) :
    CountReq ch.mIn ch.mOut e.q ∨ ∃ k c, e.q = .close k c ∧ k ≠ .data :=
  Task.only (P := fun q => CountReq ch.mIn ch.mOut q ∨ ∃ k c, q = .close k c ∧ k ≠ .data) (fun s => (count_only s).mono fun q h => Or.inl h)
    (fun kc hkc => Or.inr ⟨_, _, rfl, by
      simp only [bufferCount, totalTask, List.mem_append, Option.mem_toList, Option.map_eq_some_iff, List.mem_cons, List.not_mem_nil, or_false] at hkc
      rcases hkc with ⟨c, _, rfl⟩ | rfl | rfl <;> simp⟩) (h.run.tasks t _ h.cnt) e (mem_proj.mpr he)

theorem BufferOwn.inChans (h : BufferOwn cap sys τ a b t ch j out) {e : Ev} (he : (a, e) ∈ τ) : e.q.on ≠ some (.mon, ch.mOut) := by
  intro ho
  have := relayTask_only (h.run.tasks a _ h.ina) e (mem_proj.mpr he) _ ho
  simp [relayChans, Push.owned, Pull.owned] at this
  exact h.mons this.symm

theorem BufferOwn.outChans (h : BufferOwn cap sys τ a b t ch j out) {e : Ev} (he : (b, e) ∈ τ) : e.q.on ≠ some (.mon, ch.mIn) := by
  intro ho
  have := relayTask_only (h.run.tasks b _ h.outb) e (mem_proj.mpr he) _ ho
  simp only [relayChans, Pull.owned, List.mem_append] at this
  rcases this with (((h1 | h1) | h1) | h1) | h1
  · cases out <;> simp [Push.owned] at h1
  · simp at h1; exact h.mons h1
  · simp at h1
  · cases hs : ch.spy <;> simp [hs] at h1
  · simp at h1

theorem BufferOwn.onInner (h : BufferOwn cap sys τ a b t ch j out) : ∀ x ∈ τ, x.2.q.on = some (.data, ch.inner) → x.1 = a ∨ x.1 = b := by
  rintro ⟨i, e⟩ hx ho
  rcases h.own _ hx _ ho (by simp) with hi | hi | hi
  · exact Or.inl hi
  · exact Or.inr hi
  · exfalso
    simp only at hi ho; subst hi
    rcases h.countReq hx with (h1 | h1 | ⟨_, h1⟩) | ⟨k, c, h1, h2⟩
    · rw [h1] at ho; simp [Req.on] at ho
    · rw [h1] at ho; simp [Req.on] at ho
    · exact h1.2.2.1 _ ho
    · rw [h1] at ho; simp [Req.on] at ho; exact h2 ho.1

theorem BufferOwn.onIn (h : BufferOwn cap sys τ a b t ch j out) : ∀ x ∈ τ, x.2.q.on = some (.mon, ch.mIn) → x.1 = a ∨ x.1 = t := by
  rintro ⟨i, e⟩ hx ho
  rcases h.own _ hx _ ho (by simp) with hi | hi | hi
  · exact Or.inl hi
  · exfalso; simp only at hi ho; subst hi; exact h.outChans hx ho
  · exact Or.inr hi

theorem BufferOwn.onOut (h : BufferOwn cap sys τ a b t ch j out) : ∀ x ∈ τ, x.2.q.on = some (.mon, ch.mOut) → x.1 = b ∨ x.1 = t := by
  rintro ⟨i, e⟩ hx ho
  rcases h.own _ hx _ ho (by simp) with hi | hi | hi
  · exfalso; simp only at hi ho; subst hi; exact h.inChans hx ho
  · exact Or.inl hi
  · exact Or.inr hi

theorem sent_req {k c} {e : Ev} (h : sentOf k c e ≠ none) : ∃ v, e = ⟨.send k c v, true⟩ := by
  obtain ⟨q, r⟩ := e
  cases q with
  | send k' c' v =>
    cases r with
    | false => simp [sentOf] at h
    | true =>
      simp only [sentOf] at h
      split at h
      · rename_i hh; obtain ⟨rfl, rfl⟩ := hh; exact ⟨v, rfl⟩
      · simp at h
  | _ => simp [sentOf] at h

theorem got_req {k c} {e : Ev} (h : gotOf k c e ≠ none) : e.q = .recv k c ∨ e.q = .tryRecv k c := by
  obtain ⟨q, r⟩ := e
  cases q with
  | recv k' c' =>
    cases r with
    | none => simp [gotOf] at h
    | some v =>
      simp only [gotOf] at h
      split at h
      · rename_i hh; obtain ⟨rfl, rfl⟩ := hh; exact Or.inl rfl
      · simp at h
  | tryRecv k' c' =>
    cases r with
    | got v =>
      simp only [gotOf] at h
      split at h
      · rename_i hh; obtain ⟨rfl, rfl⟩ := hh; exact Or.inr rfl
      · simp at h
    | _ => simp [gotOf] at h
  | _ => simp [gotOf] at h

theorem on_sent {k c} {e : Ev} (h : sentOf k c e ≠ none) : e.q.on = some (k, c) := by
  obtain ⟨v, rfl⟩ := sent_req h; rfl
theorem on_got {k c} {e : Ev} (h : gotOf k c e ≠ none) : e.q.on = some (k, c) := by
  rcases got_req h with h | h <;> rw [h] <;> rfl

/-- Who puts into and takes out of the channels. -/
theorem BufferOwn.ends (h : BufferOwn cap sys τ a b t ch j out) :
    (∀ x ∈ τ, sentOf .data ch.inner x.2 ≠ none → x.1 = a) ∧ (∀ x ∈ τ, gotOf .data ch.inner x.2 ≠ none → x.1 = b) ∧
    (∀ x ∈ τ, sentOf .mon ch.mIn x.2 ≠ none → x.1 = a) ∧ (∀ x ∈ τ, gotOf .mon ch.mIn x.2 ≠ none → x.1 = t) ∧
    (∀ x ∈ τ, sentOf .mon ch.mOut x.2 ≠ none → x.1 = b) ∧ (∀ x ∈ τ, gotOf .mon ch.mOut x.2 ≠ none → x.1 = t) := by
  refine ⟨?_, ?_, ?_, ?_, ?_, ?_⟩ <;> rintro ⟨i, e⟩ hx hs <;> simp only at hs ⊢
  · rcases h.onInner _ hx (on_sent hs) with hi | hi
    · exact hi
    · exfalso
      simp only at hi; subst hi
      obtain ⟨v, rfl⟩ := sent_req hs
      rcases h.outReq hx with h1 | h1 | h1 | ⟨_, _, h1⟩
      · simp at h1
      · simp at h1
      · exact (h1 _ rfl).1 rfl
      · simp at h1
  · rcases h.onInner _ hx (on_got hs) with hi | hi
    · exfalso
      simp only at hi; subst hi
      rcases got_req hs with hr | hr <;> rcases h.inReq hx with h1 | ⟨_, h1⟩ | h1 | ⟨_, _, h1⟩ <;> rw [h1] at hr <;> simp at hr
      exact h.input hr
    · exact hi
  · rcases h.onIn _ hx (on_sent hs) with hi | hi
    · exact hi
    · exfalso
      simp only at hi; subst hi
      obtain ⟨v, rfl⟩ := sent_req hs
      rcases h.countReq hx with (h1 | h1 | ⟨_, h1⟩) | ⟨k, c, h1, h2⟩
      · simp at h1
      · simp at h1
      · exact h1.2.1 _ _ rfl
      · simp at h1
  · rcases h.onIn _ hx (on_got hs) with hi | hi
    · exfalso
      simp only at hi; subst hi
      rcases got_req hs with hr | hr <;> rcases h.inReq hx with h1 | ⟨_, h1⟩ | h1 | ⟨_, _, h1⟩ <;> rw [h1] at hr <;> simp at hr
    · exact hi
  · rcases h.onOut _ hx (on_sent hs) with hi | hi
    · exact hi
    · exfalso
      simp only at hi; subst hi
      obtain ⟨v, rfl⟩ := sent_req hs
      rcases h.countReq hx with (h1 | h1 | ⟨_, h1⟩) | ⟨k, c, h1, h2⟩
      · simp at h1
      · simp at h1
      · exact h1.2.1 _ _ rfl
      · simp at h1
  · rcases h.onOut _ hx (on_got hs) with hi | hi
    · exfalso
      simp only at hi; subst hi
      have ho := on_got hs
      rcases h.outReq hx with h1 | h1 | h1 | ⟨_, _, h1⟩
      · rw [h1] at ho; simp [Req.on] at ho
      · rcases got_req hs with hr | hr <;> rw [h1] at hr <;> simp at hr
      · exact (h1 _ ho).2 rfl
      · rcases got_req hs with hr | hr <;> rw [h1] at hr <;> simp at hr
    · exact hi

/-- The numbers of notifications. -/
theorem BufferOwn.fifos (h : BufferOwn cap sys τ a b t ch j out) {st : Store} (hst : execAll cap Store.init (τ.map Prod.snd) = some st) :
    sentOn .mon ch.mIn (proj a τ) = gotOn .mon ch.mIn (proj t τ) ++ (st .mon ch.mIn).q ∧
    sentOn .mon ch.mOut (proj b τ) = gotOn .mon ch.mOut (proj t τ) ++ (st .mon ch.mOut).q ∧
    sentOn .data ch.inner (proj a τ) = gotOn .data ch.inner (proj b τ) ++ (st .data ch.inner).q := by
  obtain ⟨e1, e2, e3, e4, e5, e6⟩ := h.ends
  have f1 := fifo hst .mon ch.mIn
  have f2 := fifo hst .mon ch.mOut
  have f3 := fifo hst .data ch.inner
  rw [sentOn_proj e3, gotOn_proj e4] at f1
  rw [sentOn_proj e5, gotOn_proj e6] at f2
  rw [sentOn_proj e1, gotOn_proj e2] at f3
  exact ⟨by simpa [Store.init] using f1, by simpa [Store.init] using f2, by simpa [Store.init] using f3⟩

theorem BufferSys.rooms (h : BufferSys cap sys τ a b t ch j out ci co) {st : Store} (hst : execAll cap Store.init (τ.map Prod.snd) = some st) :
    (st .mon ch.mIn).q.length ≤ ci ∧ (st .mon ch.mOut).q.length ≤ co :=
  ⟨room_le hst _ _ h.capIn (by simp [Store.init]), room_le hst _ _ h.capOut (by simp [Store.init])⟩

/-- Notifications are of the right kind. -/
theorem BufferOwn.msgs (h : BufferOwn cap sys τ a b t ch j out) :
    (∀ m ∈ gotOn .mon ch.mIn (proj t τ), m = .wrote 0) ∧ (∀ m ∈ gotOn .mon ch.mOut (proj t τ), m = .read 0) := by
  obtain ⟨st, hst⟩ := Option.isSome_iff_exists.mp h.run.chans
  obtain ⟨f1, f2, _⟩ := h.fifos hst
  have inSent : ∀ {k c i} {m : k.Payload}, m ∈ sentOn k c (proj i τ) → (i, (⟨.send k c m, true⟩ : Ev)) ∈ τ := by
    intro k c i m hm
    unfold sentOn at hm
    rw [List.mem_filterMap] at hm
    obtain ⟨e, he, hs⟩ := hm
    obtain ⟨v, rfl⟩ := sent_req (by rw [hs]; simp)
    simp [sentOf] at hs
    subst hs
    exact mem_proj.mp he
  constructor
  · intro m hm
    have := inSent (k := .mon) (by rw [f1]; simp [hm] : m ∈ sentOn .mon ch.mIn (proj a τ))
    rcases h.inReq this with h1 | ⟨_, h1⟩ | h1 | ⟨_, _, h1⟩ <;> simp at h1
    exact h1
  · intro m hm
    have := inSent (k := .mon) (by rw [f2]; simp [hm] : m ∈ sentOn .mon ch.mOut (proj b τ))
    rcases h.outReq this with h1 | h1 | h1 | ⟨_, _, h1⟩
    · simp at h1
    · simp at h1; exact h1
    · exact absurd rfl (h1 _ rfl).2
    · simp at h1

/-- The count has given up listening. -/
def CountGone (t : ι) (ch : BufferChans) (τ : List (ι × Ev)) : Prop := (Kind.mon, ch.mIn) ∈ closings (proj t τ)

theorem refused_lt {c : Nat} {tr : List Ev} (h : Refused c tr) : (acceptedBy (.chan c) tr).length < (offeredTo (.chan c) tr).length := by
  obtain ⟨d, hd⟩ := h
  have le : ∀ tr, (acceptedBy (.chan c) tr).length ≤ (offeredTo (.chan c) tr).length := by
    intro tr
    unfold acceptedBy offeredTo
    induction offers tr with
    | nil => simp
    | cons o l ih =>
      obtain ⟨to, d, w⟩ := o
      by_cases hto : to = .chan c <;> cases w <;> simp [hto] at * <;> omega
  obtain ⟨u, v, rfl⟩ := List.append_of_mem hd
  have e1 : acceptedBy (.chan c) ((⟨.send .data c d, false⟩ : Ev) :: v) = acceptedBy (.chan c) [(⟨.send .data c d, false⟩ : Ev)] ++ acceptedBy (.chan c) v := by
    rw [← acceptedBy_append]; rfl
  have e2 : offeredTo (.chan c) ((⟨.send .data c d, false⟩ : Ev) :: v) = offeredTo (.chan c) [(⟨.send .data c d, false⟩ : Ev)] ++ offeredTo (.chan c) v := by
    rw [← offeredTo_append]; rfl
  have e3 : acceptedBy (.chan c) [(⟨.send .data c d, false⟩ : Ev)] = [] := by simp [acceptedBy, offers, acts, act]
  have e4 : offeredTo (.chan c) [(⟨.send .data c d, false⟩ : Ev)] = [d] := by simp [offeredTo, offers, acts, act]
  rw [acceptedBy_append, offeredTo_append, e1, e2, e3, e4]
  have := le u
  have := le v
  simp only [List.length_append, List.length_cons, List.length_nil]
  omega

/-- Reading is notified no more than writing, or one more while the notification of writing is pending. -/
theorem BufferOwn.balance (h : BufferOwn cap sys τ a b t ch j out) :
    CountGone t ch τ ∨ nSent .mon ch.mOut (proj b τ) ≤ nSent .mon ch.mIn (proj a τ) ∨
    (nSent .mon ch.mOut (proj b τ) ≤ nSent .mon ch.mIn (proj a τ) + 1 ∧ (bufferIn ch j out).Awaits (proj a τ) (.send .mon ch.mIn (.wrote 0))) := by
  obtain ⟨st, hst⟩ := Option.isSome_iff_exists.mp h.run.chans
  obtain ⟨_, _, f3⟩ := h.fifos hst
  have pa := h.run.tasks a _ h.ina
  have pb := h.run.tasks b _ h.outb
  obtain ⟨o1, o2⟩ := out_local pb
  have f3 := congrArg List.length f3
  rw [List.length_append] at f3
  obtain ⟨_, _, _, _, _, _, _, _, sb⟩ := relay_parts pb (by simp) out_apart
  have hr : heard (proj b τ) = nGot .data ch.inner (proj b τ) + endings (proj b τ) := by
    unfold heard nGot
    rw [gotOn_data, receivedFrom_source (pull := .receiver ⟨0, 0⟩ ch.inner) rfl sb]
  have gone : MonRefused ch.mIn (proj a τ) → CountGone t ch τ := by
    rintro ⟨u, m, v, he, hu⟩
    obtain ⟨τ1, τ2, rfl, g1, g2⟩ := proj_split he
    rw [List.map_append] at hst
    obtain ⟨s1, x1, x2⟩ := execAll_split hst
    obtain ⟨s2, x2, _⟩ := execAll_cons x2
    have hc := (exec_send_false x2).1
    rcases (closed_iff x1 .mon ch.mIn).mp hc with hc | ⟨e, he, hc⟩
    · simp [Store.init] at hc
    · obtain ⟨⟨i, e⟩, hi, rfl⟩ := List.mem_map.mp he
      simp only at hc
      rcases h.onIn (i, e) (by simp [hi]) (on_of_closes hc) with hx | hx
      · exfalso
        simp only at hx; subst hx
        have : (Kind.mon, ch.mIn) ∈ closings (proj i τ1) := closedIn_closings.mp ⟨e, mem_proj.mpr hi, hc⟩
        rw [g1, hu] at this; simp at this
      · simp only at hx; subst hx
        exact closedIn_closings.mp ⟨e, mem_proj.mpr (by simp [hi]), hc⟩
  by_cases he : endings (proj b τ) = 0
  · rcases in_local pa with ⟨c1, _⟩ | ⟨c1, c2, _⟩ | c1 | c1 | ⟨_, c2⟩
    · right; left; simp only [nSent, nGot] at *; omega
    · right; right; exact ⟨by simp only [nSent, nGot] at *; omega, c2⟩
    · right; left; simp only [nSent, nGot] at *; omega
    · exact Or.inl (gone c1)
    · right; left; simp only [nSent, nGot] at *; omega
  · have hend : Act.ended (.chan ch.inner) ∈ acts (proj b τ) := by
      have : 0 < endings (proj b τ) := by omega
      unfold endings at this
      rw [List.countP_pos_iff] at this
      obtain ⟨x, hx, hp⟩ := this
      cases x with
      | ended s =>
        have := relay_ended pb s hx
        simp [Pull.source] at this
        rw [this]; exact hx
      | _ => simp at hp
    obtain ⟨e1, e2, _⟩ := h.ends
    have hae : ({ written := some ch.mIn } : Notifications).Apart := by rintro x ⟨h, _⟩; simp at h
    obtain ⟨k1, k2, k3⟩ := edge_complete hst h.onInner ((relay_ordered pa (by simp) hae).retired _) ((relay_ordered pb (by simp) out_apart).retired _) e1 e2 hend
    rcases in_local pa with ⟨_, c1⟩ | ⟨_, _, c1⟩ | c1 | c1 | ⟨c1, _⟩
    · rw [c1] at k3; simp at k3
    · rw [c1] at k3; simp at k3
    · right; left; simp only [nSent, nGot] at *; omega
    · exact Or.inl (gone c1)
    · have := refused_lt c1; rw [k1] at this; omega


/-- The count has looked at the first channel and not yet at the second. -/
abbrev Mid (ch : BufferChans) (tt : List Ev) : Prop := tries ch.mIn tt = tries ch.mOut tt + 1

/-- What holds while the buffer is polled, it being the turn of activity `k`; `ta`, `tb`, `tt` are the histories of the activities. -/
def CountInv (ch : BufferChans) (j : PullJourney) (out : Push) (ci : Nat) (ta tb tt : List Ev) (k : Nat) : Prop :=
  nGot .mon ch.mOut tt ≤ nGot .mon ch.mIn tt ∧
  ((Kind.mon, ch.mIn) ∈ closings tt ∨
    ((k ≠ 2 → ¬ Mid ch tt) ∧
     (k = 1 → (bufferIn ch j out).Awaits ta (.send .mon ch.mIn (.wrote 0)) → nSent .mon ch.mIn ta = nGot .mon ch.mIn tt + ci) ∧
     (k = 2 → (Mid ch tt → nGot .mon ch.mOut tt + 1 ≤ nGot .mon ch.mIn tt ∨ nSent .mon ch.mIn ta ≤ nGot .mon ch.mIn tt) ∧
       (nSent .mon ch.mOut tb ≤ nSent .mon ch.mIn ta ∨
        nSent .mon ch.mOut tb + nGot .mon ch.mIn tt ≤ nSent .mon ch.mIn ta + nGot .mon ch.mOut tt ∨
        (nSent .mon ch.mOut tb + nGot .mon ch.mIn tt ≤ nSent .mon ch.mIn ta + nGot .mon ch.mOut tt + 1 ∧
          nGot .mon ch.mOut tt + 1 ≤ nGot .mon ch.mIn tt ∧ Mid ch tt)))))

theorem proj_snoc_self (i : ι) (e : Ev) (τ : List (ι × Ev)) : proj i (τ ++ [(i, e)]) = proj i τ ++ [e] := by
  unfold proj; rw [List.filterMap_append]; simp
theorem proj_snoc_ne {i k : ι} (h : k ≠ i) (e : Ev) (τ : List (ι × Ev)) : proj i (τ ++ [(k, e)]) = proj i τ := by
  unfold proj; rw [List.filterMap_append]; simp [h]

theorem nGot_snoc (k c) (tr : List Ev) (e : Ev) : nGot k c (tr ++ [e]) = nGot k c tr + (gotOf k c e).toList.length := by
  simp [nGot, gotOn_cons]
theorem tries_snoc (c) (tr : List Ev) (e : Ev) : tries c (tr ++ [e]) = tries c tr + (if isTry c e = true then 1 else 0) := by
  simp [tries, List.countP_append, List.countP_cons]

/-- A step of the count in its turn. -/
theorem BufferSys.count_step {e : Ev} (h : BufferSys cap sys (τ ++ [(t, e)]) a b t ch j out ci co)
    (hi : CountInv ch j out ci (proj a τ) (proj b τ) (proj t τ) 2) :
    CountInv ch j out ci (proj a τ) (proj b τ) (proj t τ ++ [e]) 2 := by
  have h0 := h.prefix
  have pt : (totalTask ch.size ch.mIn ch.mOut).Partial (proj t τ ++ [e]) := by
    have := h.run.tasks t _ h.cnt
    rwa [proj_snoc_self] at this
  obtain ⟨st', hst'⟩ := Option.isSome_iff_exists.mp h.run.chans
  rw [List.map_append] at hst'
  obtain ⟨st, hst, hx⟩ := execAll_split hst'
  obtain ⟨st1, hx, _⟩ := execAll_cons hx
  simp only at hx
  obtain ⟨f1, f2, _⟩ := h0.fifos hst
  have f1 := congrArg List.length f1
  have f2 := congrArg List.length f2
  rw [List.length_append] at f1 f2
  obtain ⟨i1, i2⟩ := hi
  rcases i2 with i2 | ⟨_, _, i2⟩
  · -- gone
    obtain ⟨k, c, rfl⟩ := count_closed pt (by intro hn; rw [hn] at i2; simp at i2)
    refine ⟨?_, Or.inl (by simp [i2])⟩
    rw [nGot_snoc, nGot_snoc]; simpa [gotOf] using i1
  · obtain ⟨i3, i4⟩ := i2 rfl
    obtain ⟨m1, m2⟩ := h0.msgs
    have quiet : gotOf .mon ch.mIn e = none → gotOf .mon ch.mOut e = none → isTry ch.mIn e = false → isTry ch.mOut e = false →
        CountInv ch j out ci (proj a τ) (proj b τ) (proj t τ ++ [e]) 2 := by
      intro q1 q2 q3 q4
      refine ⟨?_, Or.inr ⟨by simp, by simp, fun _ => ⟨?_, ?_⟩⟩⟩
      · rw [nGot_snoc, nGot_snoc, q1, q2]; simpa using i1
      · have z1 : nGot .mon ch.mIn (proj t τ ++ [e]) = nGot .mon ch.mIn (proj t τ) := by rw [nGot_snoc, q1]; rfl
        have z2 : nGot .mon ch.mOut (proj t τ ++ [e]) = nGot .mon ch.mOut (proj t τ) := by rw [nGot_snoc, q2]; rfl
        rw [z1, z2]
        simp only [Mid, tries_snoc, q3, q4]; simpa [Mid] using i3
      · have z1 : nGot .mon ch.mIn (proj t τ ++ [e]) = nGot .mon ch.mIn (proj t τ) := by rw [nGot_snoc, q1]; rfl
        have z2 : nGot .mon ch.mOut (proj t τ ++ [e]) = nGot .mon ch.mOut (proj t τ) := by rw [nGot_snoc, q2]; rfl
        rw [z1, z2]
        simp only [Mid, tries_snoc, q3, q4]; simpa [Mid] using i4
    rcases count_local h.mons pt.prefix m1 m2 i1 with ⟨mid, haw⟩ | ⟨nomid, _⟩
    · have hq := haw.next pt
      obtain ⟨q, z⟩ := e
      simp only at hq; subst hq
      have i3 := i3 mid
      have t1 : isTry ch.mIn ⟨.tryRecv .mon ch.mOut, z⟩ = false := by simp [isTry, Ne.symm h.mons]
      have t2 : isTry ch.mOut ⟨.tryRecv .mon ch.mOut, z⟩ = true := by simp [isTry]
      have g1 : gotOf .mon ch.mIn ⟨.tryRecv .mon ch.mOut, z⟩ = none := got_try_ne (Ne.symm h.mons) z
      have g2 := got_try ch.mOut z
      have fin : took z ≤ (st .mon ch.mOut).q.length ∧ (took z = 0 → (st .mon ch.mOut).q = []) := by
        cases z with
        | got v =>
          have := (exec_got hx (k := .mon) (c := ch.mOut) (v := v) (by simp [gotOf])).1
          rw [this]; simp [took]
        | empty => rw [(exec_try_empty hx).1]; simp [took]
        | closed => rw [(exec_try_closed hx).1]; simp [took]
      have tk : took z = 0 ∨ took z = 1 := by cases z <;> simp [took]
      refine ⟨?_, Or.inr ⟨by simp, by simp, fun _ => ⟨?_, ?_⟩⟩⟩
      · rw [nGot_snoc, nGot_snoc, g1, g2]
        simp only [nSent, nGot, Option.toList, List.length_nil] at *
        omega
      · intro hm
        simp only [Mid, tries_snoc, t1, t2] at hm mid
        simp at hm; omega
      · rw [nGot_snoc, nGot_snoc, g1, g2]
        simp only [nSent, nGot, Option.toList, List.length_nil] at *
        rcases tk with tk | tk
        · have := fin.2 tk
          rw [this] at f2
          simp at f2
          right; left; omega
        · rw [tk]
          rcases i4 with i4 | i4 | i4
          · exact Or.inl i4
          · right; left; omega
          · right; left; omega
    · have nm : ¬ Mid ch (proj t τ) := by simp only [Mid]; omega
      obtain ⟨q, z⟩ := e
      rcases h.countReq (e := ⟨q, z⟩) (by simp) with (hq | hq | ⟨size, hq⟩) | ⟨k, c, hq, _⟩
      · simp only at hq; subst hq
        have t1 : isTry ch.mIn ⟨.tryRecv .mon ch.mIn, z⟩ = true := by simp [isTry]
        have t2 : isTry ch.mOut ⟨.tryRecv .mon ch.mIn, z⟩ = false := by simp [isTry, h.mons]
        have g1 : gotOf .mon ch.mOut ⟨.tryRecv .mon ch.mIn, z⟩ = none := got_try_ne h.mons z
        have g2 := got_try ch.mIn z
        have fin : took z = 0 → (st .mon ch.mIn).q = [] := by
          cases z with
          | got v => simp [took]
          | empty => rw [(exec_try_empty hx).1]; simp
          | closed => rw [(exec_try_closed hx).1]; simp
        have tk : took z = 0 ∨ took z = 1 := by cases z <;> simp [took]
        have mid' : Mid ch (proj t τ ++ [⟨.tryRecv .mon ch.mIn, z⟩]) := by
          simp only [Mid, tries_snoc, t1, t2]; simp; exact nomid
        refine ⟨?_, Or.inr ⟨by simp, by simp, fun _ => ⟨fun _ => ?_, ?_⟩⟩⟩
        · rw [nGot_snoc, nGot_snoc, g1, g2]
          simp only [nSent, nGot, Option.toList, List.length_nil] at *
          omega
        · rw [nGot_snoc, nGot_snoc, g1, g2]
          simp only [nSent, nGot, Option.toList, List.length_nil] at *
          rcases tk with tk | tk
          · have := fin tk
            rw [this] at f1
            simp at f1
            right; omega
          · left; omega
        · refine (?_ : _ ∨ _ ∨ (_ ∧ _ ∧ Mid _ _))
          rw [nGot_snoc, nGot_snoc, g1, g2]
          have i4' := i4.resolve_right
          simp only [nSent, nGot, Option.toList, List.length_nil] at *
          rcases i4 with i4 | i4 | ⟨_, _, i4⟩
          · exact Or.inl i4
          · right
            rcases tk with tk | tk
            · left; omega
            · right; exact ⟨by omega, by omega, mid'⟩
          · exact absurd i4 nm
      · exfalso
        simp only at hq; subst hq
        have := count_tries h.mons pt
        rw [tries_snoc, tries_snoc] at this
        simp [isTry, Ne.symm h.mons] at this
        simp only [tries] at *
        omega
      · simp only at hq
        apply quiet
        · cases q with
          | tryRecv k c => exact absurd rfl (hq.1 k c).1
          | recv k c => exact absurd rfl (hq.1 k c).2.1
          | _ => rfl
        · cases q with
          | tryRecv k c => exact absurd rfl (hq.1 k c).1
          | recv k c => exact absurd rfl (hq.1 k c).2.1
          | _ => rfl
        · cases q with
          | tryRecv k c => exact absurd rfl (hq.1 k c).1
          | _ => rfl
        · cases q with
          | tryRecv k c => exact absurd rfl (hq.1 k c).1
          | _ => rfl
      · simp only at hq; subst hq
        exact quiet rfl rfl rfl rfl

/-- What holds while the buffer is polled. -/
theorem BufferSys.inv (hle : co ≤ ci) {k : Nat} (hp : Polled cap (bufferActs a b t ch j out) τ k)
    (h : BufferSys cap sys τ a b t ch j out ci co) : CountInv ch j out ci (proj a τ) (proj b τ) (proj t τ) k := by
  induction hp with
  | start => exact ⟨by simp [nGot], Or.inr ⟨by simp [Mid], by simp, by simp⟩⟩
  | @act τ k i t' e hp hk ih =>
    have ih := ih h.prefix
    match k, hk with
    | 0, hk =>
      simp [bufferActs] at hk
      obtain ⟨rfl, rfl⟩ := hk
      rw [proj_snoc_ne h.at_, proj_snoc_ne h.ab]
      refine ⟨ih.1, ih.2.imp id fun ih => ⟨ih.1, by simp, by simp⟩⟩
    | 1, hk =>
      simp [bufferActs] at hk
      obtain ⟨rfl, rfl⟩ := hk
      rw [proj_snoc_ne h.bt, proj_snoc_ne (Ne.symm h.ab)]
      refine ⟨ih.1, ih.2.imp id fun ih => ⟨ih.1, ih.2.1, by simp⟩⟩
    | 2, hk =>
      simp [bufferActs] at hk
      obtain ⟨rfl, rfl⟩ := hk
      have := h.count_step ih
      rw [proj_snoc_ne (Ne.symm h.at_), proj_snoc_ne (Ne.symm h.bt), proj_snoc_self]
      exact this
    | k + 3, hk => simp [bufferActs] at hk
  | @other τ k i e hp hne ih =>
    have ih := ih h.prefix
    simp [bufferActs] at hne
    rw [proj_snoc_ne (Ne.symm hne.1), proj_snoc_ne (Ne.symm hne.2.1), proj_snoc_ne (Ne.symm hne.2.2)]
    exact ih
  | @yield τ k i t' hp hk hb ih =>
    have ih := ih h
    obtain ⟨st, hst⟩ := Option.isSome_iff_exists.mp h.run.chans
    obtain ⟨f1, f2, _⟩ := h.fifos hst
    obtain ⟨c1, c2⟩ := h.rooms hst
    have f1 := congrArg List.length f1
    have f2 := congrArg List.length f2
    rw [List.length_append] at f1 f2
    match k, hk with
    | 0, hk =>
      simp [bufferActs] at hk
      obtain ⟨rfl, rfl⟩ := hk
      refine ⟨ih.1, ih.2.imp id fun ih => ⟨fun _ => ih.1 (by simp), fun _ haw => ?_, fun hk => by simp [bufferActs] at hk⟩⟩
      rcases hb with hd | ⟨q, st', hq, hst', hm⟩
      · exact absurd (haw.step true) hd.stops
      · rw [hst] at hst'
        obtain rfl := Option.some.inj hst'
        have hqe := hq.next (haw.step true)
        simp only at hqe
        subst hqe
        have h1 := hm true
        have h2 := hm false
        simp only [exec] at h1 h2
        have hcl : (st .mon ch.mIn).closed = false := by
          cases hc : (st .mon ch.mIn).closed with
          | false => rfl
          | true => rw [hc] at h2; simp at h2
        rw [hcl, h.capIn] at h1
        simp [hasRoom] at h1
        simp only [nSent, nGot] at *
        omega
    | 1, hk =>
      simp [bufferActs] at hk
      obtain ⟨rfl, rfl⟩ := hk
      refine ⟨ih.1, ?_⟩
      rcases ih.2 with i2 | ⟨i2, i3, _⟩
      · exact Or.inl i2
      · rcases h.balance with g | g | ⟨g1, g2⟩
        · exact Or.inl g
        · exact Or.inr ⟨fun hk => absurd rfl hk, fun hk => by simp [bufferActs] at hk, fun _ => ⟨fun hm => absurd hm (i2 (by simp)), Or.inl g⟩⟩
        · refine Or.inr ⟨fun hk => absurd rfl hk, fun hk => by simp [bufferActs] at hk, fun _ => ⟨fun hm => absurd hm (i2 (by simp)), ?_⟩⟩
          have := i3 rfl g2
          right; left
          simp only [nSent, nGot] at *
          omega
    | 2, hk =>
      simp [bufferActs] at hk
      obtain ⟨rfl, rfl⟩ := hk
      refine ⟨ih.1, ih.2.imp id fun i2 => ⟨fun _ hmid => ?_, fun hk => by simp [bufferActs] at hk, fun hk => by simp [bufferActs] at hk⟩⟩
      have pt : (totalTask ch.size ch.mIn ch.mOut).Partial (proj t τ) := h.run.tasks t _ h.cnt
      obtain ⟨m1, m2⟩ := h.msgs
      rcases count_local h.mons pt m1 m2 ih.1 with ⟨_, haw⟩ | ⟨nomid, _⟩
      · rcases hb with hd | ⟨q, st', hq, hst', hm⟩
        · exact absurd (haw.step .empty) hd.stops
        · have hqe := hq.next (haw.step .empty)
          simp only at hqe
          subst hqe
          have h1 := hm .empty
          have h2 := hm .closed
          simp only [exec] at h1 h2
          cases hqq : (st' .mon ch.mOut).q with
          | nil =>
            cases hc : (st' .mon ch.mOut).closed with
            | true => rw [hqq, hc] at h2; simp at h2
            | false => rw [hqq, hc] at h1; simp at h1
          | cons v l =>
            have h3 := hm (.got v)
            simp [exec, hqq] at h3
      · simp only [Mid] at hmid; omega
    | k + 3, hk => simp [bufferActs] at hk

/-- **C24**, no underflow: when the activities of a buffer are polled in order, whatever else happens, the count never ends by subtracting from zero (nor
by a notification of the wrong kind). More is never subtracted than was added. -/
theorem C24_never_underflows (hle : co ≤ ci) {k : Nat} (hp : Polled cap (bufferActs a b t ch j out) τ k)
    (h : BufferSys cap sys τ a b t ch j out ci co) :
    (gotOn .mon ch.mOut (τ.map Prod.snd)).length ≤ (gotOn .mon ch.mIn (τ.map Prod.snd)).length ∧
    ∀ r t1 t2, LoopRuns (bufferCount ch).body (bufferCount ch).init t1 r → proj t τ = t1 ++ t2 → r ≠ .underflow ∧ r ≠ .wrongMessage := by
  obtain ⟨i1, _⟩ := h.inv hle hp
  obtain ⟨_, _, _, e4, _, e6⟩ := h.ends
  refine ⟨by rw [gotOn_proj e4, gotOn_proj e6]; exact i1, ?_⟩
  intro r t1 t2 h1 h2
  obtain ⟨m1, m2⟩ := h.msgs
  have pt : (totalTask ch.size ch.mIn ch.mOut).Partial (proj t τ) := h.run.tasks t _ h.cnt
  rcases count_local h.mons pt m1 m2 i1 with ⟨_, haw⟩ | ⟨_, hr⟩
  · exfalso
    have h3 := haw.step .empty
    rw [h2, List.append_assoc] at h3
    have hd := Task.after (t := totalTask ch.size ch.mIn ch.mOut) h1 h3
    obtain ⟨_, _, _, hm⟩ := mem_dropEvs hd _ (by simp : (⟨.tryRecv .mon ch.mOut, .empty⟩ : Ev) ∈ _)
    simp at hm
  · rcases hr r t1 t2 h1 h2 with ⟨n, rfl⟩ | rfl <;> exact ⟨fun h => TotalEnd.noConfusion h, fun h => TotalEnd.noConfusion h⟩

/-- **C24**, every report: a reported size is the number of notifications of writing handled so far minus that of notifications of
reading. (This holds however the activities are run, up to an underflow.) -/
theorem C24_reports {τ₁ τ₂ : List (ι × Ev)} {c v : Nat} {r : Bool}
    (h : BufferOwn cap sys (τ₁ ++ (t, ⟨.send .size c v, r⟩) :: τ₂) a b t ch j out) :
    v + (gotOn .mon ch.mOut (τ₁.map Prod.snd)).length = (gotOn .mon ch.mIn (τ₁.map Prod.snd)).length := by
  have h' : BufferOwn cap sys ((τ₁ ++ [(t, ⟨.send .size c v, r⟩)]) ++ τ₂) a b t ch j out := by simpa using h
  have h0 := h'.prefix.prefix
  have pt : (totalTask ch.size ch.mIn ch.mOut).Partial (proj t τ₁ ++ [⟨.send .size c v, r⟩]) := by
    have := h'.prefix.run.tasks t _ h.cnt
    rwa [proj_snoc_self] at this
  obtain ⟨_, _, _, e4, _, e6⟩ := h0.ends
  rw [gotOn_proj e4, gotOn_proj e6]
  rcases pt.last with ⟨s, t1, t2, h1, h2, he⟩ | ⟨r', t1, t2, _, _, hd⟩
  · obtain ⟨a1, _, _⟩ := count_rounds h.mons h1
    have h3 : (totalBody ch.size ch.mIn ch.mOut s).Partial (t2 ++ [⟨.send .size c v, r⟩]) := h2.step r
    rw [show totalBody ch.size ch.mIn ch.mOut s = _ from total_tree ch.size ch.mIn ch.mOut s] at h3
    rw [he]
    have init : (totalTask ch.size ch.mIn ch.mOut).init.size = 0 := rfl
    rcases count_body h3 with hn | ⟨y, hy, _⟩ | ⟨y, z, rest, hr, hk⟩
    · simp at hn
    · exfalso
      cases t2 with
      | nil => simp at hy
      | cons x t2 => simp at hy
    · have : ∃ rest', rest = rest' ++ [⟨.send .size c v, r⟩] ∧ t2 = ⟨.tryRecv .mon ch.mIn, y⟩ :: ⟨.tryRecv .mon ch.mOut, z⟩ :: rest' := by
        rcases List.eq_nil_or_concat rest with rfl | ⟨rest', x, rfl⟩
        · exfalso
          match t2 with
          | [] => simp at hr
          | [x] => simp at hr
          | x :: x' :: t2 => simp at hr
        · rw [List.concat_eq_append] at hr
          obtain ⟨g1, g2⟩ := snoc_inj (a := t2) (b := ⟨.tryRecv .mon ch.mIn, y⟩ :: ⟨.tryRecv .mon ch.mOut, z⟩ :: rest') (by simpa using hr)
          exact ⟨rest', by simp [g2], g1⟩
      obtain ⟨rest', rfl, rfl⟩ := this
      rcases hk with ⟨hn, _⟩ | ⟨hn, _⟩ | ⟨size', h4, h5⟩
      · simp at hn
      · simp at hn
      · have hv : v = size' := (h5 ⟨.send .size c v, r⟩ (by simp)).2.2.2 c v rfl
        obtain ⟨n1, n2, _⟩ := count_shape (mIn := ch.mIn) (mOut := ch.mOut) h.mons (y := y) (z := z) (rest := rest') (fun e he => h5 e (List.mem_append_left _ he))
        simp only [nGot, gotOn_append, List.length_append] at *
        omega
  · exfalso
    obtain ⟨_, _, _, hm⟩ := mem_dropEvs hd _ (by simp : (⟨.send .size c v, r⟩ : Ev) ∈ _)
    simp at hm

/-- **C24**, when all notifications have been handled: the input half is between messages (or has ended well), the output half is not about to
notify, and both notification channels are empty. Then the notifications of writing handled are the messages accepted
(the end included), those of reading the messages taken out of the buffer. -/
theorem C24_settled (h : BufferOwn cap sys τ a b t ch j out) {st : Store} (hst : execAll cap Store.init (τ.map Prod.snd) = some st)
    (ha : (∃ q, (bufferIn ch j out).Awaits (proj a τ) q ∧ ∀ k c v, q ≠ .send k c v) ∨
      ∃ m t1 t2, LoopRuns (bufferIn ch j out).body (bufferIn ch j out).init t1 (.ok m) ∧ proj a τ = t1 ++ t2)
    {q : Req} (hb : (bufferOut ch out).Awaits (proj b τ) q) (hq : ∀ c v, q ≠ .send .mon c v)
    (e1 : (st .mon ch.mIn).q = []) (e2 : (st .mon ch.mOut).q = []) :
    (gotOn .mon ch.mIn (τ.map Prod.snd)).length = (received (proj a τ)).length + endings (proj a τ) ∧
    (gotOn .mon ch.mOut (τ.map Prod.snd)).length = (received (proj b τ)).length + endings (proj b τ) := by
  obtain ⟨f1, f2, _⟩ := h.fifos hst
  obtain ⟨_, _, _, g4, _, g6⟩ := h.ends
  rw [e1, List.append_nil] at f1
  rw [e2, List.append_nil] at f2
  have s1 : heard (proj a τ) = nSent .mon ch.mIn (proj a τ) := by
    apply in_settled (j := j) (out := out)
    rcases ha with ha | ⟨m, t1, t2, h1, h2⟩
    · exact Or.inl ha
    · refine Or.inr ⟨m, t1, t2, h1, Task.after h1 ?_, h2⟩
      rw [← h2]; exact h.run.tasks a _ h.ina
  have s2 := out_settled hb hq
  have s3 := (out_local (h.run.tasks b _ h.outb)).1
  rw [gotOn_proj g4, gotOn_proj g6, ← f1, ← f2]
  simp only [heard, nSent] at *
  omega

/-- **C24**, the size reported when all notifications have been handled is the number of messages (and end) accepted minus that of those
passed on. -/
theorem C24_exact {τ₁ τ₂ : List (ι × Ev)} {c v : Nat} {r : Bool}
    (h : BufferOwn cap sys (τ₁ ++ (t, ⟨.send .size c v, r⟩) :: τ₂) a b t ch j out) {st : Store}
    (hst : execAll cap Store.init (τ₁.map Prod.snd) = some st)
    (ha : (∃ q, (bufferIn ch j out).Awaits (proj a τ₁) q ∧ ∀ k c v, q ≠ .send k c v) ∨
      ∃ m t1 t2, LoopRuns (bufferIn ch j out).body (bufferIn ch j out).init t1 (.ok m) ∧ proj a τ₁ = t1 ++ t2)
    {q : Req} (hb : (bufferOut ch out).Awaits (proj b τ₁) q) (hq : ∀ c v, q ≠ .send .mon c v)
    (e1 : (st .mon ch.mIn).q = []) (e2 : (st .mon ch.mOut).q = []) :
    v + ((received (proj b τ₁)).length + endings (proj b τ₁)) = (received (proj a τ₁)).length + endings (proj a τ₁) := by
  have h0 := h.prefix
  have := C24_reports h
  obtain ⟨g1, g2⟩ := C24_settled h0 hst ha hb hq e1 e2
  omega

end

/-! ### The hypotheses are met: a buffer in which a message is counted, in the capacities of the code -/

namespace C24
open C22 (ch out msg feed take wake)

/-- The output holds one message. -/
def cap : Caps := fun k c => if k = .data ∧ c = 1 then none else if k = .data ∧ c = 2 then some 1 else some 8

def sys : Nat → Option Task
  | 1 => some (bufferIn ch ⟨1, 2⟩ out)
  | 2 => some (bufferOut ch out)
  | 3 => some (bufferCount ch)
  | _ => none

/-- Two messages come, one of them goes; size 1 is reported. -/
def steps : List (Step Nat) :=
  [.turn, .turn] ++ C22.look ++ [.turn, feed, feed] ++ take ++ take ++ [.turn] ++ C22.pass ++ C22.pass.take 2 ++ [.turn, wake 1] ++
  [.ev 3 ⟨.tryRecv .mon 0, .got (.wrote 0)⟩, .ev 3 ⟨.tryRecv .mon 1, .got (.read 0)⟩, .ev 3 ⟨.stat .mon 0, (false, false)⟩] ++
  [.ev 3 ⟨.tryRecv .mon 0, .got (.wrote 0)⟩, .ev 3 ⟨.tryRecv .mon 1, .got (.read 0)⟩, .ev 3 ⟨.stat .mon 0, (true, false)⟩] ++
  [feed, .ev 3 ⟨.tryRecv .mon 0, .empty⟩, .ev 3 ⟨.tryRecv .mon 1, .empty⟩, .ev 3 ⟨.stat .mon 0, (true, false)⟩, wake 0,
   .ev 3 ⟨.tryRecv .mon 0, .empty⟩, .ev 3 ⟨.tryRecv .mon 1, .empty⟩, .ev 3 ⟨.stat .mon 0, (true, false)⟩, .turn] ++ take ++ [.turn, .turn, wake 1] ++
  [.ev 3 ⟨.tryRecv .mon 0, .got (.wrote 0)⟩, .ev 3 ⟨.tryRecv .mon 1, .empty⟩]
def trace : List (Nat × Ev) := steps.filterMap Step.event
/-- The trace with the report at its end. -/
def reportedTrace : List (Nat × Ev) := trace ++ [(3, ⟨.send .size 0 (1 : Nat), true⟩)]

set_option maxRecDepth 100000 in
theorem store : ∃ st k, Polled cap (bufferActs 1 2 3 ch ⟨1, 2⟩ out) trace k ∧ execAll cap Store.init (trace.map Prod.snd) = some st ∧
    (st .mon 0).q = [] ∧ (st .mon 1).q = [] ∧ (st .size 0).q = [] ∧ (st .size 0).closed = false := by
  have h : (script cap (bufferActs 1 2 3 ch ⟨1, 2⟩ out) steps [] Store.init 0).any (fun (st, _) =>
      ((st .mon 0).q.length == 0 && (st .mon 1).q.length == 0 && (st .size 0).q.length == 0 && !(st .size 0).closed)) = true := by decide +kernel
  cases hx : script cap (bufferActs 1 2 3 ch ⟨1, 2⟩ out) steps [] Store.init 0 with
  | none => rw [hx] at h; simp at h
  | some x =>
    obtain ⟨st, k⟩ := x
    rw [hx] at h
    simp at h
    have ⟨hP, hst⟩ := script_sound (τ := []) rfl .start hx
    exact ⟨st, k, hP, hst, by simp [h], by simp [h], by simp [h], by simp [h]⟩

theorem buffer : BufferSys cap sys reportedTrace 1 2 3 ch ⟨1, 2⟩ out 8 8 where
  run := by
    obtain ⟨st, k, hP, hst, h1, h2, h3, h4⟩ := store
    refine ⟨?_, fun i t hi => ?_⟩
    · unfold reportedTrace
      rw [List.map_append]
      have : exec cap st ⟨.send .size 0 (1 : Nat), true⟩ = some (st.set .size 0 ⟨(st .size 0).q ++ [(1 : Nat)], (st .size 0).closed⟩) := by
        simp [exec, h3, h4, cap, hasRoom]
      rw [execAll_append, hst]
      simp [execAll, this]
    · match i, hi with
      | 1, hi => simp [sys] at hi; subst hi; exact Task.checks_partial (by decide +kernel)
      | 2, hi => simp [sys] at hi; subst hi; exact Task.checks_partial (by decide +kernel)
      | 3, hi => simp [sys] at hi; subst hi; exact Task.checks_partial (by decide +kernel)
  ina := rfl
  outb := rfl
  cnt := rfl
  ab := by decide
  at_ := by decide
  bt := by decide
  own := by decide +kernel
  input := by decide
  mons := by decide
  output := by decide
  capIn := rfl
  capOut := rfl

/-- All hypotheses of the theorems hold together, of a run with arrivals and departures. -/
example : ∃ st k, Polled cap (bufferActs 1 2 3 ch ⟨1, 2⟩ out) trace k ∧ execAll cap Store.init (trace.map Prod.snd) = some st ∧
    BufferSys cap sys reportedTrace 1 2 3 ch ⟨1, 2⟩ out 8 8 ∧
    (bufferIn ch ⟨1, 2⟩ out).Awaits (proj 1 trace) (.recv .data 0) ∧ (bufferOut ch out).Awaits (proj 2 trace) (.send .data 2 msg) ∧
    (st .mon 0).q = [] ∧ (st .mon 1).q = [] ∧
    (received (proj 1 trace)).length = 3 ∧ (received (proj 2 trace)).length = 2 := by
  obtain ⟨st, k, hP, hst, h1, h2, h3, h4⟩ := store
  exact ⟨st, k, hP, hst, buffer, Task.waits_awaits (by decide +kernel), Task.waits_awaits (by decide +kernel), h1, h2, by decide +kernel, by decide +kernel⟩

end C24

/-! ### C25: any interleaving -/

namespace C25
open C22 (ch out cap msg)

/-- The output half reports a message before the input half does. -/
def trace : List (Nat × Ev) := [(0, ⟨.send .data 0 msg, true⟩), (1, ⟨.recv .data 0, some msg⟩), (1, ⟨.send .data 1 msg, true⟩),
  (2, ⟨.recv .data 1, some msg⟩), (2, ⟨.send .mon 1 (.read 0), true⟩), (3, ⟨.tryRecv .mon 0, .empty⟩), (3, ⟨.tryRecv .mon 1, .got (.read 0)⟩)]

end C25

open C25 in
/-- **C25** is false of the code: were the activities of a buffer independent tasks, the count could be the first to hear of a message that leaves, and
end by subtracting from zero. -/
theorem C25_refuted : ∃ τ, BufferSys C22.cap C24.sys τ 1 2 3 C22.ch ⟨1, 2⟩ C22.out 8 8 ∧
    LoopRuns (bufferCount C22.ch).body (bufferCount C22.ch).init (proj 3 τ) .underflow := by
  refine ⟨trace, ⟨⟨⟨by decide +kernel, fun i t hi => ?_⟩, rfl, rfl, rfl, by decide, by decide, by decide, by decide +kernel, by decide, by decide, by decide⟩, rfl, rfl⟩, ?_⟩
  · match i, hi with
    | 1, hi => simp [C24.sys] at hi; subst hi; exact Task.checks_partial (by decide +kernel)
    | 2, hi => simp [C24.sys] at hi; subst hi; exact Task.checks_partial (by decide +kernel)
    | 3, hi => simp [C24.sys] at hi; subst hi; exact Task.checks_partial (by decide +kernel)
  · refine .stop ?_
    exact ⟨.empty, _, rfl, .got (.read 0), _, rfl, rfl, rfl⟩

/-- **C25**, the part that is true: in the interleavings of the code, those of `join`, it does not happen (this is C24). -/
theorem C25_partial {ι : Type} [DecidableEq ι] {cap : Caps} {sys : ι → Option Task} {τ : List (ι × Ev)} {a b t : ι}
    {ch : BufferChans} {j : PullJourney} {out : Push} {n k : Nat} (hp : Polled cap (bufferActs a b t ch j out) τ k)
    (h : BufferSys cap sys τ a b t ch j out n n) (t1 t2 : List Ev)
    (hr : LoopRuns (bufferCount ch).body (bufferCount ch).init t1 .underflow) : proj t τ ≠ t1 ++ t2 :=
  fun he => ((C24_never_underflows (Nat.le_refl _) hp h).2 _ t1 t2 hr he).1 rfl

end Verif
