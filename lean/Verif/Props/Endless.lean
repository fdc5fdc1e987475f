import Verif.Lemmas.Endless
import Verif.Lemmas.FairExists
import Verif.Props.Sharing
import Verif.Props.WorldSettles
/-!
# C105: inputs that never end
-/
namespace Verif
section
variable {c : Config} {R : Map Hop} {order : List (Str × Watch)} {w w' : Waiter} {cap : Caps} {idle : Nat → Prop} {σ : Nat → Option (Who × Ev)}

/-- All connections to one junction have the same number. -/
def SameNumbers (hs : List Hop) : Prop := ∀ f ∈ hs, ∀ h ∈ hs, f.to = h.to → f.to.1 = .junction → f.input.priority = h.input.priority

/-- The one hands on to the other, directly. -/
inductive Feeds (hs : List Hop) : Who → Who → Prop
  | hop {h : Hop} : h ∈ hs → ¬ h.isExit → Feeds hs h.writer h.reader
  | buffer {x : Str} : Mentioned hs (.buffer, x) → Feeds hs (.part (.buffer, x) .input) (.part (.buffer, x) .output)

/-- From there on, every connection to a junction has the least number of those to that junction. -/
def Favoured (hs : List Hop) (a : Who) : Prop :=
  ∀ h ∈ hs, ¬ h.isExit → h.to.1 = .junction → (a = h.writer ∨ Relation.TransGen (Feeds hs) a h.writer) → ∀ f ∈ hs, f.to = h.to → h.input.priority ≤ f.input.priority

theorem SameNumbers.favoured {hs : List Hop} (h : SameNumbers hs) (a : Who) : Favoured hs a := by
  intro g hg _ hj _ f hf e
  rw [h g hg f hf e.symm hj]
  exact Int.le_refl _

/-- From there on, nothing is written to one of these files and streams. -/
def Waiter.Answering (w : Waiter) (idle : Nat → Prop) (hs : List Hop) (a : Who) : Prop :=
  ∀ z n h, (a = z ∨ Relation.TransGen (Feeds hs) a z) → w.node z = some n → .handle h ∈ n.targets → ¬ idle h

theorem Waiter.answering_all (w : Waiter) (hs : List Hop) (a : Who) : w.Answering (fun _ => False) hs a := fun _ _ _ _ _ _ => _root_.id

/-- The circumstances of C105 and C106. -/
theorem endless_of (hc : c.connection = hopSets R) (hw : getWaiter c = .ok w) (hp : w.regulatorSettings order = .ok ([], w')) (hC : Complete (R.map (·.2)))
    (hcap : ∀ k ch, cap k ch ≠ some 0)
    (hσ : w'.FairBut idle [] cap σ) (hf : ∀ n i, ∀ f ∈ acts (proj i (upTo σ n)), f.trouble = false) : Waiter.Endless c (R.map (·.2)) w' cap idle σ := by
  have A := assembled hc hw hp
  refine ⟨A, hC, ?_, hcap, hσ, hf⟩
  have := regulatorSettings_none hp
  subst this
  exact unmanaged hc hw

theorem Waiter.Endless.onward {hs : List Hop} (H : Waiter.Endless c hs w cap idle σ) {a₀ : Who} (hA : Favoured hs a₀) (hU : w.Answering idle hs a₀) :
    w.Onward idle fun a => a₀ = a ∨ Relation.TransGen (Feeds hs) a₀ a := by
  refine ⟨fun a ch b ha he => ?_, fun a n h ha => hU a n h ha⟩
  have A := H.rig
  have hC := H.complete
  rcases (A.edges hC a ch b).mp he with ⟨h, h1, h2, rfl, rfl⟩ | ⟨x, h1, _, rfl, rfl⟩
  · have hh := List.mem_of_getElem? h1
    refine ⟨?_, Or.inr ?_⟩
    · intro inputs pushs spy hn
      obtain ⟨_, x, e⟩ := A.toRigged.junctions hn
      have hj : h.to.1 = .junction ∧ h.reader = .part h.to .main := by
        cases hd : h.dst with
        | mk ty nm => cases ty <;> simp_all [Hop.reader, Hop.to]
      rw [hj.2] at hn
      obtain ⟨q, hq1, hq2⟩ := A.junctionInputs hj.1 hn h1 rfl
      refine ⟨_, hq1, hq2, fun y hy => ?_⟩
      obtain ⟨f, h3, h4, h5⟩ := A.junctionFrom hj.1 hn hy
      rw [h5]
      exact hA h hh h2 hj.1 ha f h3 h4
    · rcases ha with rfl | ha
      · exact .single (.hop hh h2)
      · exact ha.tail (.hop hh h2)
  · refine ⟨?_, Or.inr ?_⟩
    · intro inputs pushs spy hn
      obtain ⟨_, x, e⟩ := A.toRigged.junctions hn
      cases e
    · rcases ha with rfl | ha
      · exact .single (.buffer h1)
      · exact ha.tail (.buffer h1)

/-- **C106** Files and streams that never answer, though they neither end nor fail, hold up only what is on its way to them: everything a component has received gets, in order and complete, through every connection from it,
if nothing from there on is written to one of them, and connections to junctions are of the least number. -/
theorem C106_hop (hc : c.connection = hopSets R) (hw : getWaiter c = .ok w) (hp : w.regulatorSettings order = .ok ([], w')) (hC : Complete (R.map (·.2))) (hcf : CircleFree (R.map (·.2)))
    (hcap : ∀ k ch, cap k ch ≠ some 0)
    (hσ : w'.FairBut idle [] cap σ) (hf : ∀ n i, ∀ f ∈ acts (proj i (upTo σ n)), f.trouble = false)
    {i : Nat} {h : Hop} (hi : (R.map (·.2))[i]? = some h) (hx : ¬ h.isExit) (hA : Favoured (R.map (·.2)) h.writer) (hU : w'.Answering idle (R.map (·.2)) h.writer) (n : Nat) :
    ∃ m, n ≤ m ∧ received (proj h.writer (upTo σ n)) <+: receivedFrom (.chan i) (proj h.reader (upTo σ m)) := by
  have H := endless_of hc hw hp hC hcap hσ hf
  exact H.passes hcf (H.onward hA hU) (Or.inl rfl) ((H.rig.edges hC _ i _).mpr (Or.inl ⟨h, hi, hx, rfl, rfl⟩)) n

/-- **C105** Nothing is held up for ever where, from there on, connections to junctions are of the least number: everything a component has received gets, in order and complete, through every connection from it, even
if the streams never end. -/
theorem C105_favoured_hop (hc : c.connection = hopSets R) (hw : getWaiter c = .ok w) (hp : w.regulatorSettings order = .ok ([], w')) (hC : Complete (R.map (·.2))) (hcf : CircleFree (R.map (·.2)))
    (hcap : ∀ k ch, cap k ch ≠ some 0)
    (hσ : w'.Fair [] cap σ) (hf : ∀ n i, ∀ f ∈ acts (proj i (upTo σ n)), f.trouble = false)
    {i : Nat} {h : Hop} (hi : (R.map (·.2))[i]? = some h) (hx : ¬ h.isExit) (hA : Favoured (R.map (·.2)) h.writer) (n : Nat) :
    ∃ m, n ≤ m ∧ received (proj h.writer (upTo σ n)) <+: receivedFrom (.chan i) (proj h.reader (upTo σ m)) :=
  C106_hop hc hw hp hC hcf hcap (hσ.but _) hf hi hx hA (w'.answering_all _ _) n

/-- **C105** Nothing is held up for ever: everything a component has received gets, in order and complete, through every connection from it, even if the streams never end. -/
theorem C105_hop (hc : c.connection = hopSets R) (hw : getWaiter c = .ok w) (hp : w.regulatorSettings order = .ok ([], w')) (hC : Complete (R.map (·.2))) (hcf : CircleFree (R.map (·.2)))
    (hcap : ∀ k ch, cap k ch ≠ some 0)
    (hsn : SameNumbers (R.map (·.2))) (hσ : w'.Fair [] cap σ) (hf : ∀ n i, ∀ f ∈ acts (proj i (upTo σ n)), f.trouble = false)
    {i : Nat} {h : Hop} (hi : (R.map (·.2))[i]? = some h) (hx : ¬ h.isExit) (n : Nat) :
    ∃ m, n ≤ m ∧ received (proj h.writer (upTo σ n)) <+: receivedFrom (.chan i) (proj h.reader (upTo σ m)) :=
  C105_favoured_hop hc hw hp hC hcf hcap hσ hf hi hx (hsn.favoured _) n

theorem receivedFrom_sublist (s : End) (tr : List Ev) : (receivedFrom s tr).Sublist (received tr) := by
  unfold receivedFrom received
  induction acts tr with
  | nil => exact .refl _
  | cons a l ih =>
    cases a with
    | got t d =>
      simp only [List.filterMap_cons]
      split
      · exact ih.cons _
      · rename_i b hb
        split at hb
        · cases hb; exact ih.cons_cons _
        · cases hb
    | _ => simpa using ih

/-- **C106** Files and streams that never answer hold up only what is on its way to them: everything a component has received gets to every component connected to it, be it through others, other than programs; in order. -/
theorem C106_reaches (hc : c.connection = hopSets R) (hw : getWaiter c = .ok w) (hp : w.regulatorSettings order = .ok ([], w')) (hC : Complete (R.map (·.2))) (hcf : CircleFree (R.map (·.2)))
    (hcap : ∀ k ch, cap k ch ≠ some 0)
    (hσ : w'.FairBut idle [] cap σ) (hf : ∀ n i, ∀ f ∈ acts (proj i (upTo σ n)), f.trouble = false)
    {a z : Who} (hA : Favoured (R.map (·.2)) a) (hU : w'.Answering idle (R.map (·.2)) a) (hpath : Relation.TransGen (Feeds (R.map (·.2))) a z) (n : Nat) :
    ∃ m, n ≤ m ∧ (received (proj a (upTo σ n))).Sublist (received (proj z (upTo σ m))) := by
  have H := endless_of hc hw hp hC hcap hσ hf
  have one : ∀ {b d}, (a = b ∨ Relation.TransGen (Feeds (R.map (·.2))) a b) → Feeds (R.map (·.2)) b d → ∀ n, ∃ m, n ≤ m ∧ (received (proj b (upTo σ n))).Sublist (received (proj d (upTo σ m))) := by
    intro b d hb hab n
    obtain ⟨ch, he⟩ : ∃ ch, w'.net.Edge b ch d := by
      cases hab with
      | hop h1 h2 =>
        obtain ⟨i, hi⟩ := List.getElem?_of_mem h1
        exact ⟨i, (H.rig.edges hC _ i _).mpr (Or.inl ⟨_, hi, h2, rfl, rfl⟩)⟩
      | buffer h1 => exact ⟨_, (H.rig.edges hC _ _ _).mpr (Or.inr ⟨_, h1, rfl, rfl, rfl⟩)⟩
    obtain ⟨m, h1, h2⟩ := H.passes hcf (H.onward hA hU) hb he n
    exact ⟨m, h1, h2.sublist.trans (receivedFrom_sublist _ _)⟩
  induction hpath generalizing n with
  | single h => exact one (Or.inl rfl) h n
  | tail h0 h ih =>
    obtain ⟨m, h1, h2⟩ := ih n
    obtain ⟨m', h3, h4⟩ := one (Or.inr h0) h m
    exact ⟨m', by omega, h2.trans h4⟩

/-- **C105** Where, from there on, connections to junctions are of the least number, everything a component has received gets to every component connected to it, be it through others, other than programs; in order. -/
theorem C105_favoured_reaches (hc : c.connection = hopSets R) (hw : getWaiter c = .ok w) (hp : w.regulatorSettings order = .ok ([], w')) (hC : Complete (R.map (·.2))) (hcf : CircleFree (R.map (·.2)))
    (hcap : ∀ k ch, cap k ch ≠ some 0)
    (hσ : w'.Fair [] cap σ) (hf : ∀ n i, ∀ f ∈ acts (proj i (upTo σ n)), f.trouble = false)
    {a z : Who} (hA : Favoured (R.map (·.2)) a) (hpath : Relation.TransGen (Feeds (R.map (·.2))) a z) (n : Nat) :
    ∃ m, n ≤ m ∧ (received (proj a (upTo σ n))).Sublist (received (proj z (upTo σ m))) :=
  C106_reaches hc hw hp hC hcf hcap (hσ.but _) hf hA (w'.answering_all _ _) hpath n

/-- **C105** Everything a component has received gets to every component connected to it, be it through others, other than programs; in order. -/
theorem C105_reaches (hc : c.connection = hopSets R) (hw : getWaiter c = .ok w) (hp : w.regulatorSettings order = .ok ([], w')) (hC : Complete (R.map (·.2))) (hcf : CircleFree (R.map (·.2)))
    (hcap : ∀ k ch, cap k ch ≠ some 0)
    (hsn : SameNumbers (R.map (·.2))) (hσ : w'.Fair [] cap σ) (hf : ∀ n i, ∀ f ∈ acts (proj i (upTo σ n)), f.trouble = false)
    {a z : Who} (hpath : Relation.TransGen (Feeds (R.map (·.2))) a z) (n : Nat) :
    ∃ m, n ≤ m ∧ (received (proj a (upTo σ n))).Sublist (received (proj z (upTo σ m))) :=
  C105_favoured_reaches hc hw hp hC hcf hcap hσ hf (hsn.favoured _) hpath n

/-- **C106** A file or stream that answers is read to its end, or for ever, though others do not answer, if nothing from there on is written to one that does not. -/
theorem C106_reads (hc : c.connection = hopSets R) (hw : getWaiter c = .ok w) (hp : w.regulatorSettings order = .ok ([], w')) (hC : Complete (R.map (·.2))) (hcf : CircleFree (R.map (·.2)))
    (hcap : ∀ k ch, cap k ch ≠ some 0)
    (hσ : w'.FairBut idle [] cap σ) (hf : ∀ n i, ∀ f ∈ acts (proj i (upTo σ n)), f.trouble = false)
    {i : Who} {n : Node} (hn : w'.node i = some n) {h : Nat} (hs : .handle h ∈ n.sources) (hA : Favoured (R.map (·.2)) i) (hU : w'.Answering idle (R.map (·.2)) i) (hh : ¬ idle h) :
    (∃ m, Act.ended (.handle h) ∈ acts (proj i (upTo σ m))) ∨ ∀ k, ∃ m, k ≤ (receivedFrom (.handle h) (proj i (upTo σ m))).length := by
  have H := endless_of hc hw hp hC hcap hσ hf
  have hok : n.Ok := (H.rig.wired hC).ok i n hn
  refine Classical.byContradiction fun hno => ?_
  rw [not_or] at hno
  obtain ⟨hne, hno⟩ := hno
  obtain ⟨k, hk⟩ := Classical.not_forall.mp hno
  have hsrc := handle_source hok hs
  rcases H.rests hn (M := k) (fun m => by
    have h1 : receivedFrom (.handle h) (proj i (upTo σ m)) = received (proj i (upTo σ m)) := receivedFrom_only (fun s' d hd => by
      have := (node_conduct hok (H.part hn m)).got s' d hd
      rw [hsrc.1] at this; simpa using this)
    rw [← h1]
    exact Nat.le_of_not_le fun h => hk ⟨m, h⟩) 0 with ⟨N, _, hsil⟩ | ⟨_, _, _, e, _⟩
  · by_cases hd : n.task.Done (proj i (upTo σ N))
    · exact hne ⟨N, (node_finished hok hd (H.nofail hn N)).ended _ hs⟩
    · obtain ⟨ch, _, h2, _⟩ | ⟨h', _, h2, h3⟩ := H.waits hn hsil hd (fun h => hU i n h (Or.inl rfl) hn) (fun ch b he => H.room he hsil (by
        obtain ⟨hl, hb⟩ := (H.onward hA hU).least i ch b (Or.inl rfl) he
        obtain ⟨_, m, _, hm, _, h1⟩ := he
        exact H.taken hcf (H.onward hA hU) _ b m ch hm h1 hl hb (Nat.le_add_left _ _)))
      · rw [hsrc.1] at h2
        cases h2
      · rw [hsrc.1] at h2
        cases h2
        exact hh h3
  · exact hsrc.2 _ _ _ e

/-- **C105** A file or stream is read to its end, or for ever, where, from there on, connections to junctions are of the least number. -/
theorem C105_favoured_reads (hc : c.connection = hopSets R) (hw : getWaiter c = .ok w) (hp : w.regulatorSettings order = .ok ([], w')) (hC : Complete (R.map (·.2))) (hcf : CircleFree (R.map (·.2)))
    (hcap : ∀ k ch, cap k ch ≠ some 0)
    (hσ : w'.Fair [] cap σ) (hf : ∀ n i, ∀ f ∈ acts (proj i (upTo σ n)), f.trouble = false)
    {i : Who} {n : Node} (hn : w'.node i = some n) {h : Nat} (hs : .handle h ∈ n.sources) (hA : Favoured (R.map (·.2)) i) :
    (∃ m, Act.ended (.handle h) ∈ acts (proj i (upTo σ m))) ∨ ∀ k, ∃ m, k ≤ (receivedFrom (.handle h) (proj i (upTo σ m))).length :=
  C106_reads hc hw hp hC hcf hcap (hσ.but _) hf hn hs hA (w'.answering_all _ _) _root_.id

/-- **C105** A file or stream is read to its end, or for ever. -/
theorem C105_reads (hc : c.connection = hopSets R) (hw : getWaiter c = .ok w) (hp : w.regulatorSettings order = .ok ([], w')) (hC : Complete (R.map (·.2))) (hcf : CircleFree (R.map (·.2)))
    (hcap : ∀ k ch, cap k ch ≠ some 0)
    (hsn : SameNumbers (R.map (·.2))) (hσ : w'.Fair [] cap σ) (hf : ∀ n i, ∀ f ∈ acts (proj i (upTo σ n)), f.trouble = false)
    {i : Who} {n : Node} (hn : w'.node i = some n) {h : Nat} (hs : .handle h ∈ n.sources) :
    (∃ m, Act.ended (.handle h) ∈ acts (proj i (upTo σ m))) ∨ ∀ k, ∃ m, k ≤ (receivedFrom (.handle h) (proj i (upTo σ m))).length :=
  C105_favoured_reads hc hw hp hC hcf hcap hσ hf hn hs (hsn.favoured _)

end

section
variable {c : Config} {hs : List Hop} {w : Waiter} {cap : Caps}

/-- Exit parts, and drains that let go of their input, do not fail by themselves. -/
theorem others_calm (A : Assembled c hs w) (hC : Complete hs) (hb : ∀ x, ¬ Mentioned hs (.buffer, x)) {i : Who} {t : Task} (h : w.sys [] i = some t) (hn : w.node i = none) {tr : List Ev} (hp : t.Partial tr) :
    ∀ e ∈ tr, (act e).trouble = false ∧ ∀ h, act e ≠ .ended (.handle h) := by
  intro e he
  rcases A.toRigged.others hC h hn with ⟨_, x, _, _, _, _, rfl, _⟩ | ⟨⟨_, x⟩, _, _, hr, hm, _⟩ | ⟨_, _, _, ha, _⟩ | ⟨_, x, _, _, rfl, _⟩
  · obtain ⟨k, s, m, b, _, h1⟩ := exit_partial hp
    have h2 := h1.subset he
    have vain : e ∈ inVain k → (act e).trouble = false ∧ ∀ h, act e ≠ .ended (.handle h) := by
      intro h
      obtain ⟨l, h3, h4⟩ := List.mem_flatten.mp h
      rw [List.eq_of_mem_replicate h3] at h4
      rcases List.mem_cons.mp h4 with rfl | h4
      · simp [act, Act.trouble]
      · rw [List.mem_singleton.mp h4]; simp [act, Act.trouble]
    cases b <;> simp only [exitScript, List.mem_append, List.mem_cons, List.not_mem_nil, or_false] at h2
    · rcases h2 with h2 | rfl | rfl
      · exact vain h2
      · simp [act, Act.trouble]
      · simp [act, Act.trouble]
    · rcases h2 with h2 | rfl | rfl | rfl
      · exact vain h2
      · simp [act, Act.trouble]
      · simp [act, Act.trouble]
      · simp [act, Act.trouble]
  · cases hr
    exact absurd hm (hb x)
  · cases ha
  · obtain ⟨k, ch, _, rfl⟩ := mem_dropEvs (dropTask_partial hp) e he
    simp [act, Act.trouble]

/-- As below, with files and streams that never answer again. -/
theorem goes_on_stalled (idle : Nat → Prop) (A : Assembled c hs w) (hC : Complete hs) (hu : w.Unmanaged) (hb : ∀ x, ¬ Mentioned hs (.buffer, x)) {τ : List (Who × Ev)}
    (hr : w.Run [] cap τ) (hg : ∀ x ∈ τ, (act x.2).trouble = false ∧ ∀ h, act x.2 ≠ .ended (.handle h)) :
    ∃ σ, w.FairBut idle [] cap σ ∧ upTo σ τ.length = τ ∧ (∀ n i, ∀ f ∈ acts (proj i (upTo σ n)), f.trouble = false) ∧ (∀ n i h, Act.ended (.handle h) ∉ acts (proj i (upTo σ n))) ∧
      ∀ n, τ.length ≤ n → ∀ i e, σ n = some (i, e) → ¬ e.q.stalls idle := by
  obtain ⟨σ, hσ, h0, h1⟩ := fair_exists idle (fun e => (act e).trouble = false ∧ ∀ h, act e ≠ .ended (.handle h)) hr
  have good : ∀ n x, σ n = some x → (act x.2).trouble = false ∧ ∀ h, act x.2 ≠ .ended (.handle h) := by
    rintro n ⟨i, e⟩ hx
    by_cases hn : n < τ.length
    · refine hg _ ?_
      rw [← h0]
      have : ∀ m, n < m → (i, e) ∈ upTo σ m := by
        intro m hm
        induction hm with
        | refl => rw [Nat.succ_eq_add_one, upTo, hx]; simp
        | step _ ih => rw [Nat.succ_eq_add_one, upTo]; exact List.mem_append_left _ ih
      exact this _ hn
    · refine Classical.byContradiction fun hbad => hbad ((h1 n (by omega) i e hx).2 ?_)
      have hstall := (h1 n (by omega) i e hx).1
      have hru := hσ.runs (n + 1)
      rw [upTo, hx] at hru
      have hru : w.Run [] cap (upTo σ n ++ [(i, e)]) := hru
      obtain ⟨t, ht⟩ := Option.ne_none_iff_exists'.mp (hru.known (i, e) (by simp))
      obtain ⟨nd, hnd⟩ : ∃ nd, w.node i = some nd := by
        cases hnd : w.node i with
        | some nd => exact ⟨nd, rfl⟩
        | none => exact absurd (others_calm A hC hb ht hnd (hru.exec.tasks i _ ht) e (by simp [proj])) hbad
      have hpar := hru.exec.tasks i _ (sys_node hnd)
      rw [proj_append, show proj i [(i, e)] = [e] by simp [proj]] at hpar
      have other : ∀ (q : Req) (r r' : q.Resp), e = ⟨q, r⟩ → (∀ k ch, q ≠ .close k ch) → (∀ st, Verif.exec cap st ⟨q, r'⟩ = some st) → w.Run [] cap (upTo σ n ++ [(i, ⟨q, r'⟩)]) := by
        rintro q r r' rfl hq hx'
        rcases hpar.last with h2 | ⟨_, _, t2, _, _, h2⟩
        · refine (hσ.runs n).step (storeOf_eq (hσ.runs n).exec.chans) (sys_node hnd) (h2.step r') (hx' _) ?_
          rintro r rfl p hp' t' ht'
          exact hru.exits (upTo σ n) [] r _ rfl p hp' t' ht'
        · obtain ⟨k, ch, _, h3⟩ := mem_dropEvs h2 _ (List.mem_append_right _ (List.mem_singleton.mpr rfl))
          cases h3
          exact absurd rfl (hq _ _)
      have data : ∀ k ch, e.q.on = some (k, ch) → k = .data := by
        intro k ch hon
        rcases A.toRigged.kinds hC hu hnd hpar (e := e) (by simp) hon with h | ⟨_, x, hm, _⟩
        · exact h
        · exact absurd hm (hb x)
      obtain ⟨q, r⟩ := e
      cases q with
      | streamRead h => exact ⟨⟨.streamRead h, .line [10]⟩, by simp [act, Act.trouble], other _ r _ rfl (by simp) (by simp [Verif.exec]), hstall⟩
      | ioWrite h d => exact ⟨⟨.ioWrite h d, .ok⟩, by simp [act, Act.trouble], other _ r _ rfl (by simp) (by simp [Verif.exec]), hstall⟩
      | ioFlush h => exact ⟨⟨.ioFlush h, true⟩, by simp [act, Act.trouble], other _ r _ rfl (by simp) (by simp [Verif.exec]), hstall⟩
      | recv k ch =>
        have := data k ch rfl
        subst this
        exfalso; refine hbad ?_
        cases r <;> simp [act, Act.trouble]
      | tryRecv k ch =>
        have := data k ch rfl
        subst this
        exfalso; refine hbad ?_
        cases r <;> simp [act, Act.trouble]
      | send k ch v =>
        have := data k ch rfl
        subst this
        exfalso; refine hbad ?_
        simp [act, Act.trouble]
      | _ => exfalso; refine hbad ?_; simp [act, Act.trouble]
  have all : ∀ n, ∀ x ∈ upTo σ n, (act x.2).trouble = false ∧ ∀ h, act x.2 ≠ .ended (.handle h) := by
    intro n x hx
    obtain ⟨k, hk⟩ := mem_upTo hx
    exact good k x hk
  refine ⟨σ, hσ, h0, fun n i f hf => ?_, fun n i h hf => ?_, fun n hn i e he => (h1 n hn i e he).1⟩
  · obtain ⟨e, he, rfl⟩ := List.mem_map.mp hf
    exact (all n _ (mem_proj.mp he)).1
  · obtain ⟨e, he, hact⟩ := List.mem_map.mp hf
    exact (all n _ (mem_proj.mp he)).2 h hact

/-- Where there are no buffers, all can go on for ever, without any failure and without any file or stream coming to its end. -/
theorem goes_on_for_ever (A : Assembled c hs w) (hC : Complete hs) (hu : w.Unmanaged) (hb : ∀ x, ¬ Mentioned hs (.buffer, x)) {τ : List (Who × Ev)}
    (hr : w.Run [] cap τ) (hg : ∀ x ∈ τ, (act x.2).trouble = false ∧ ∀ h, act x.2 ≠ .ended (.handle h)) :
    ∃ σ, w.Fair [] cap σ ∧ upTo σ τ.length = τ ∧ (∀ n i, ∀ f ∈ acts (proj i (upTo σ n)), f.trouble = false) ∧ ∀ n i h, Act.ended (.handle h) ∉ acts (proj i (upTo σ n)) := by
  obtain ⟨σ, hσ, h1, h2, h3, _⟩ := goes_on_stalled (fun _ => False) A hC hu hb hr hg
  exact ⟨σ, hσ.fair_all, h1, h2, h3⟩

end

namespace Example

def evenRank : Who → Nat
  | .part (.faucet, _) _ => 0
  | .part (.junction, _) _ => 1
  | .part (.buffer, _) .input => 1
  | _ => 2
theorem even_free : CircleFree ((confluence 0 0 0).map (·.2)) := circleFree_of evenRank (by decide +kernel) (by decide +kernel) (fun _ => Nat.lt_succ_self 1)
theorem even_built : getWaiter (confluenceConfig 0 0 0) = .ok (confluenceWaiter 0 0 0) := by decide +kernel
theorem even_complete : Complete ((confluence 0 0 0).map (·.2)) := complete_of (by decide +kernel) (by decide +kernel)
theorem even_bufferless (x : Str) : ¬ Mentioned ((confluence 0 0 0).map (·.2)) (.buffer, x) := by
  rintro ⟨h, hh, he⟩
  have : ∀ h ∈ (confluence 0 0 0).map (·.2), h.from.1 ≠ .buffer ∧ h.to.1 ≠ .buffer := by decide +kernel
  rcases he with he | he
  · exact (this h hh).1 (by rw [he])
  · exact (this h hh).2 (by rw [he])
theorem even_numbers : SameNumbers ((confluence 0 0 0).map (·.2)) := by
  have : ∀ h ∈ (confluence 0 0 0).map (·.2), h.input.priority = 0 := by decide +kernel
  intro f hf h hh _ _
  rw [this f hf, this h hh]
/-- Neither a failure nor the end of a file or stream. -/
def lasting (τ : List (Who × Ev)) : Bool := τ.all fun x => match act x.2 with
  | .ended (.handle _) => false
  | a => !a.trouble
theorem lasting_sound {τ : List (Who × Ev)} (h : lasting τ = true) : ∀ x ∈ τ, (act x.2).trouble = false ∧ ∀ h, act x.2 ≠ .ended (.handle h) := by
  intro x hx
  have := List.all_eq_true.mp h x hx
  split at this
  · cases this
  · next h1 => exact ⟨by simpa using this, fun h h2 => h1 h h2⟩

/-- Three streams that never end are merged: each of them is read for ever, everything read gets to `lake`. -/
example : ∃ σ, upTo σ 22 = (confluenceTrace 0 0 0).take 22 ∧ (confluenceWaiter 0 0 0).Fair [] estuaryCaps σ ∧ (∀ n i h, Act.ended (.handle h) ∉ acts (proj i (upTo σ n))) ∧
    ∀ x ∈ ["left".toList, "right".toList, "rush".toList], (∀ k, ∃ m, k ≤ (received (proj (.part (.faucet, x) .main) (upTo σ m))).length) ∧
      ∀ n, ∃ m, n ≤ m ∧ (received (proj (.part (.faucet, x) .main) (upTo σ n))).Sublist (received (proj (.part (.drain, "lake".toList) .main) (upTo σ m))) := by
  have A := assembled (c := confluenceConfig 0 0 0) (R := confluence 0 0 0) (order := []) rfl even_built rfl
  obtain ⟨σ, hσ, h0, h1, h2⟩ := goes_on_for_ever A even_complete (unmanaged (R := confluence 0 0 0) rfl even_built) even_bufferless
    (τ := (confluenceTrace 0 0 0).take 22) (cap := estuaryCaps) (Waiter.runs_sound (by decide +kernel)) (lasting_sound (by decide +kernel))
  refine ⟨σ, by simpa [show ((confluenceTrace 0 0 0).take 22).length = 22 by decide +kernel] using h0, hσ, h2, fun x hx => ⟨fun k => ?_, fun n => ?_⟩⟩
  · have hn : ∃ h n, (confluenceWaiter 0 0 0).node (.part (.faucet, x) .main) = some n ∧ .handle h ∈ n.sources := by
      have key : ∀ {i : Who} {h : Nat}, ((confluenceWaiter 0 0 0).node i).map Node.sources = some [.handle h] → ∃ h n, (confluenceWaiter 0 0 0).node i = some n ∧ .handle h ∈ n.sources := by
        intro i h h3
        obtain ⟨n, h4, h5⟩ := Option.map_eq_some_iff.mp h3
        exact ⟨h, n, h4, by rw [h5]; simp⟩
      simp only [List.mem_cons, List.not_mem_nil, or_false] at hx
      rcases hx with rfl | rfl | rfl
      · exact key (h := 0) (by decide +kernel)
      · exact key (h := 6) (by decide +kernel)
      · exact key (h := 9) (by decide +kernel)
    obtain ⟨h, n, hn, hs⟩ := hn
    rcases C105_reads (c := confluenceConfig 0 0 0) (R := confluence 0 0 0) (order := []) rfl even_built rfl even_complete even_free (fun _ _ => by simp [estuaryCaps])
      even_numbers hσ h1 hn hs with ⟨m, h3⟩ | h3
    · exact absurd h3 (h2 m _ h)
    · obtain ⟨m, hm⟩ := h3 k
      exact ⟨m, Nat.le_trans hm (receivedFrom_sublist _ _).length_le⟩
  · refine C105_reaches (c := confluenceConfig 0 0 0) (R := confluence 0 0 0) (order := []) rfl even_built rfl even_complete even_free (fun _ _ => by simp [estuaryCaps])
      even_numbers hσ h1 (.tail (.single (b := estuaryJoin) ?_) ?_) n
    · simp only [List.mem_cons, List.not_mem_nil, or_false] at hx
      rcases hx with rfl | rfl | rfl
      · exact .hop (h := ((confluence 0 0 0).map (·.2))[0]) (List.getElem_mem _) (by decide +kernel)
      · exact .hop (h := ((confluence 0 0 0).map (·.2))[1]) (List.getElem_mem _) (by decide +kernel)
      · exact .hop (h := ((confluence 0 0 0).map (·.2))[2]) (List.getElem_mem _) (by decide +kernel)
    · exact .hop (h := ((confluence 0 0 0).map (·.2))[3]) (List.getElem_mem _) (by decide +kernel)

end Example
end Verif
