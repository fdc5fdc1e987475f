import Verif.Props.EndlessDrain
import Verif.Props.ExitCode
import Verif.Props.Transit
/-!
# C106: streams that give nothing, and outputs that take nothing
-/
namespace Verif
section
variable {c c' : Config} {hs : List Hop} {M R R' : Map Hop} {S : List SIns} {E : List EIns} {T : List Spy} {a : Who} {w : Waiter} {idle : Nat → Prop}

/-- What is written from there on, in terms of the configuration as it is written. -/
theorem Laid.answering (P : Laid c M R R' S E T) (hhs : ∀ h, h ∈ hs ↔ ∃ b i, c.HopOf b i h) (hS : ∀ x ∈ S, a ≠ atJunction x.junction) (hE : ∀ y ∈ E, a ≠ atJunction y.junction)
    (A : Assembled c' (R'.map (·.2)) w) (hU : w.Answering idle hs a) : w.Answering idle (R'.map (·.2)) a := by
  intro z n h hz hn ht
  have key : ∀ {z}, Relation.TransGen (Feeds (R'.map (·.2))) a z → Traced hs S E a z := by
    intro z hp
    induction hp with
    | single h => exact P.traced hhs hS hE (.here (Or.inl rfl)) h
    | tail _ h ih => exact P.traced hhs hS hE ih h
  have hz : Traced hs S E a z := by
    rcases hz with rfl | hz
    · exact .here (Or.inl rfl)
    · exact key hz
  cases hz with
  | here hz => exact hU z n h hz hn ht
  | start _ _ => rcases A.handles hn ht with e | ⟨e, _⟩ <;> cases e
  | merge _ _ => rcases A.handles hn ht with e | ⟨e, _⟩ <;> cases e

end

section
variable {c c' : Config} {hs : List Hop} {perm : List OutRef → List OutRef} {perm' : List InRef → List InRef} {spyOrder : List Str → List Str} {printed : List Str}
  {w w' : Waiter} {order : List (Str × Watch)} {cap : Caps} {idle : Nat → Prop} {σ : Nat → Option (Who × Ev)}

/-- **C106** In terms of the configuration as it is written: without circles and managers, everything a component has received gets to every component connected to it, be it through others, other than programs, in order, though
some files and streams never answer, if nothing is written to these from there on, and every connection from there on has the least number of those that end at the same place. -/
theorem C106_written_reaches (hS : c.Sound hs) (hcf : CircleFree hs) (hp : ∀ l, (perm l).Perm l) (hp' : ∀ l, (perm' l).Perm l) (ho : ∀ l, (spyOrder l).Perm l)
    (hm : manipulate perm perm' spyOrder c = some (c', printed)) (hw : getWaiter c' = .ok w) (hq : w.regulatorSettings order = .ok ([], w')) (hcap : ∀ k ch, cap k ch ≠ some 0)
    (hσ : w'.FairBut idle [] cap σ) (hf : ∀ n i, ∀ f ∈ acts (proj i (upTo σ n)), f.trouble = false) {a z : Who} (he : FavouredEnds hs a) (hU : w'.Answering idle hs a)
    (hpath : Relation.TransGen (Feeds hs) a z) (n : Nat) :
    ∃ m, n ≤ m ∧ (received (proj a (upTo σ n))).Sublist (received (proj z (upTo σ m))) := by
  obtain ⟨M, R, R', S, E, T, drain', printed', h1, P, h3⟩ := hS.laid hp hp' ho
  rw [hm] at h1
  cases h1
  obtain ⟨hfav, hpath'⟩ := P.favoured_path hS.hops he hpath
  have hA := P.answering hS.hops (P.apart hS.hops hpath).1 (P.apart hS.hops hpath).2 (assembled (R := R') rfl hw hq) hU
  exact C106_reaches rfl hw hq (P.complete hS.hops hS.complete) (P.circleFree hS.hops hS.legal.notDrain hcf) hcap hσ hf hfav hA hpath' n

/-- **C106** … and is written to what that component writes to. -/
theorem C106_written_drained (hS : c.Sound hs) (hcf : CircleFree hs) (hp : ∀ l, (perm l).Perm l) (hp' : ∀ l, (perm' l).Perm l) (ho : ∀ l, (spyOrder l).Perm l)
    (hm : manipulate perm perm' spyOrder c = some (c', printed)) (hw : getWaiter c' = .ok w) (hq : w.regulatorSettings order = .ok ([], w')) (hcap : ∀ k ch, cap k ch ≠ some 0)
    (hσ : w'.FairBut idle [] cap σ) (hf : ∀ n i, ∀ f ∈ acts (proj i (upTo σ n)), f.trouble = false) {a z : Who} (he : FavouredEnds hs a) (hU : w'.Answering idle hs a)
    (hpath : Relation.TransGen (Feeds hs) a z) {v : Node} (hv : w'.node z = some v) {t : End} (ht : t ∈ v.targets) (n : Nat) :
    ∃ m, n ≤ m ∧ (received (proj a (upTo σ n))).Sublist (acceptedBy t (proj z (upTo σ m))) := by
  obtain ⟨M, R, R', S, E, T, drain', printed', h1, P, h3⟩ := hS.laid hp hp' ho
  rw [hm] at h1
  cases h1
  obtain ⟨hfav, hpath'⟩ := P.favoured_path hS.hops he hpath
  have hA := P.answering hS.hops (P.apart hS.hops hpath).1 (P.apart hS.hops hpath).2 (assembled (R := R') rfl hw hq) hU
  exact C106_drained rfl hw hq (P.complete hS.hops hS.complete) (P.circleFree hS.hops hS.legal.notDrain hcf) hcap hσ hf hfav hA hpath' hv ht n

/-- **C106** A file or stream that answers is read to its end, or for ever, though others do not answer. -/
theorem C106_written_reads (hS : c.Sound hs) (hcf : CircleFree hs) (hp : ∀ l, (perm l).Perm l) (hp' : ∀ l, (perm' l).Perm l) (ho : ∀ l, (spyOrder l).Perm l)
    (hm : manipulate perm perm' spyOrder c = some (c', printed)) (hw : getWaiter c' = .ok w) (hq : w.regulatorSettings order = .ok ([], w')) (hcap : ∀ k ch, cap k ch ≠ some 0)
    (hσ : w'.FairBut idle [] cap σ) (hf : ∀ n i, ∀ f ∈ acts (proj i (upTo σ n)), f.trouble = false) {i : Who} {v : Node} (hn : w'.node i = some v) {h : Nat} (hs' : .handle h ∈ v.sources)
    (hi : ∀ J, i ≠ atJunction J) (he : FavouredEnds hs i) (hU : w'.Answering idle hs i) (hh : ¬ idle h) :
    (∃ m, Act.ended (.handle h) ∈ acts (proj i (upTo σ m))) ∨ ∀ k, ∃ m, k ≤ (receivedFrom (.handle h) (proj i (upTo σ m))).length := by
  obtain ⟨M, R, R', S, E, T, drain', printed', h1, P, h3⟩ := hS.laid hp hp' ho
  rw [hm] at h1
  cases h1
  have hA := P.answering hS.hops (fun _ _ => hi _) (fun _ _ => hi _) (assembled (R := R') rfl hw hq) hU
  exact C106_reads rfl hw hq (P.complete hS.hops hS.complete) (P.circleFree hS.hops hS.legal.notDrain hcf) hcap hσ hf hn hs' (P.favoured hS.hops (fun _ _ => hi _) (fun _ _ => hi _) he) hA hh

end

section
variable {c : Config} {R : Map Hop} {order : List (Str × Watch)} {w w' : Waiter} {cs : List Capture} {σ : Nat → Option (Who × Ev)}

/-- **C106** What is on its way to a file, stream or program that takes nothing any more is held up: through regulators and junctions, as long as nothing on the way was found closed, only so many lines are ever read from what it
comes from. -/
theorem C106_holds (hc : c.connection = hopSets R) (hw : getWaiter c = .ok w) (hp : w.regulatorSettings order = .ok (cs, w')) (hC : Complete (R.map (·.2)))
    (hr : ∀ k, w'.Run cs (realCaps (R.map (·.2))) (upTo σ k)) {a b n s : Nat} {l : List Nat} {g h : Hop} (hl : Along (R.map (·.2)) [.regulator, .junction] (a :: l) n)
    (hb : (a :: l).getLast? = some b) (hg : (R.map (·.2))[a]? = some g) (hh : (R.map (·.2))[b]? = some h) (hs : g.stream w'.idOf = some s)
    (ho : ∀ k, ∀ ch ∈ a :: l, ∀ x ∈ upTo σ k, ∀ d, x.2 ≠ ⟨.send .data ch d, false⟩)
    {m : Node} {t : End} (hm : w'.node h.reader = some m) (ht : t ∈ m.targets) {N : Nat} (hN : ∀ k, N ≤ k → ∀ e, σ k = some (h.reader, e) → ∀ d r, act e ≠ .offer t d r) :
    ∃ B, ∀ k, (receivedFrom (.handle s) (proj g.writer (upTo σ k))).length ≤ B := by
  have same : ∀ j, offeredTo t (proj h.reader (upTo σ (N + j))) = offeredTo t (proj h.reader (upTo σ N)) := by
    intro j
    induction j with
    | zero => rfl
    | succ j ih =>
      rcases proj_upTo_succ (σ := σ) h.reader (N + j) with h1 | ⟨e, he, h1⟩
      · rw [← Nat.add_assoc, h1, ih]
      · rw [← Nat.add_assoc, h1, offeredTo_append, ih]
        have : offeredTo t [e] = [] := by
          cases hof : offeredTo t [e] with
          | nil => rfl
          | cons d _ =>
            exfalso
            have hd : d ∈ offeredTo t [e] := by rw [hof]; simp
            simp only [offeredTo, offers, acts, List.map_cons, List.map_nil] at hd
            cases hact : act e <;> simp [hact] at hd
            rename_i t' d' r
            obtain ⟨h2, _⟩ := hd
            subst h2
            exact hN _ (by omega) e he d' r hact
        rw [this, List.append_nil]
  refine ⟨(offeredTo t (proj h.reader (upTo σ N))).length + n + 2, fun k => ?_⟩
  have h1 := C83_ahead hc hw hp hC (hr (N + k)) hl hb hg hh hs (ho (N + k)) hm ht
  rw [same k] at h1
  obtain ⟨u, hu, _⟩ := proj_since (σ := σ) g.writer (show k ≤ N + k by omega)
  rw [hu, receivedFrom_append, List.length_append] at h1
  omega

end

theorem act_got_handle {h : Nat} {d : Bytes} {e : Ev} (he : act e = .got (.handle h) d) : e.q = .streamRead h := by
  obtain ⟨q, r⟩ := e
  cases q with
  | recv k c => cases k <;> cases r <;> simp [act] at he
  | tryRecv k c => cases k <;> cases r <;> simp [act] at he
  | send k c v => cases k <;> simp [act] at he
  | streamRead h => cases r <;> simp [act] at he; obtain ⟨rfl, rfl⟩ := he; rfl
  | ioWrite h d => cases r <;> simp [act] at he
  | _ => simp [act] at he

namespace Example

theorem basin_reached {z : Who} (h : Relation.TransGen (Feeds basinHops) basinRush z) : z = basinSea := by
  have one : ∀ {a z}, Feeds basinHops a z → z = basinSea := by
    intro a z hz
    cases hz with
    | hop h2 _ => exact (by decide +kernel : ∀ h ∈ basinHops, h.reader = basinSea) _ h2
    | buffer h2 => exact absurd h2 (basin_bufferless _)
  cases h with
  | single h => exact one h
  | tail _ h => exact one h

/-- Three streams end at one drain. Two of them never give anything. The third is read for ever, and all of it is written. -/
example : ∃ (w : Waiter) (σ : Nat → Option (Who × Ev)) (x y : Nat), w.FairBut (fun h => h ≠ x ∧ h ≠ y) [] estuaryCaps σ ∧
    (∀ n i h, (∃ d, Act.got (.handle h) d ∈ acts (proj i (upTo σ n))) → h = x ∨ h = y) ∧
    (∀ k, ∃ m, k ≤ (receivedFrom (.handle x) (proj basinRush (upTo σ m))).length) ∧
    ∀ n, ∃ m, n ≤ m ∧ (received (proj basinRush (upTo σ n))).Sublist (acceptedBy (.handle y) (proj basinSea (upTo σ m))) := by
  have pe : ∀ {α : Type} (l : List α), (id l).Perm l := fun _ => .refl _
  obtain ⟨c', R', printed, w, h1, h2, hw, _⟩ := C71_starts basin_sound (perm := id) (perm' := id) (spyOrder := id) pe pe pe
  have hb : basinWaiter = w := by
    unfold basinWaiter
    rw [h1]
    simp only [hw]
    rfl
  have key : ∃ x y, (basinWaiter.node basinRush).map (fun v => (v.sources, v.targets.all fun t => match t with | .handle _ => false | _ => true)) = some ([.handle x], true) ∧
      (basinWaiter.node basinSea).map Node.targets = some [.handle y] ∧ x ≠ y := ⟨9, 12, by decide +kernel⟩
  rw [hb] at key
  obtain ⟨x, y, k1, k2, hxy⟩ := key
  obtain ⟨v, hv, ev⟩ := Option.map_eq_some_iff.mp k1
  obtain ⟨u, hu, eu⟩ := Option.map_eq_some_iff.mp k2
  simp only [Prod.mk.injEq, List.all_eq_true] at ev
  obtain ⟨σ, hσ, _, h4, h5, h6⟩ := C106_written_lasts (cap := estuaryCaps) (τ := []) (fun h => h ≠ x ∧ h ≠ y) basin_sound basin_bufferless pe pe pe h1 hw (runs_nothing w) (by simp)
  have hU : w.Answering (fun h => h ≠ x ∧ h ≠ y) basinHops basinRush := by
    rintro z n h (rfl | hz) hn ht
    · rw [hv] at hn; cases hn
      have := ev.2 _ ht
      cases this
    · rw [basin_reached hz, hu] at hn; cases hn
      rw [eu] at ht
      simp only [List.mem_singleton, End.handle.injEq] at ht
      exact fun h => h.2 ht
  refine ⟨w, σ, x, y, hσ, ?_, ?_, fun n => ?_⟩
  · rintro n i h ⟨d, hd⟩
    obtain ⟨e, he, hact⟩ := List.mem_map.mp hd
    obtain ⟨k, hk⟩ := mem_upTo (mem_proj.mp he)
    have hne := h6 k (Nat.zero_le _) i e hk
    rw [act_got_handle hact] at hne
    refine Classical.byContradiction fun hc => hne ?_
    exact ⟨fun h => hc (Or.inl h), fun h => hc (Or.inr h)⟩
  · rcases C106_written_reads basin_sound basin_free pe pe pe h1 hw (order := []) rfl (fun _ _ => by simp [estuaryCaps]) hσ h4 hv (h := x) (by rw [ev.1]; simp) (by simp [basinRush, atJunction]) basin_favoured hU
      (fun h => h.1 rfl) with ⟨m, h7⟩ | h7
    · exact absurd h7 (h5 m _ x)
    · exact h7
  · exact C106_written_drained basin_sound basin_free pe pe pe h1 hw (order := []) rfl (fun _ _ => by simp [estuaryCaps]) hσ h4 basin_favoured hU
      (.single (.hop (h := basinHops[2]) (List.getElem_mem _) (by decide))) hu (by rw [eu]; simp) n

/-- Nineteen lines are read, and nothing is written. If the drain takes nothing, for ever, there is a bound to what is ever read, though the stream would go on for ever. -/
example : ∃ σ : Nat → Option (Who × Ev), flumeWaiter.FairBut (· = 6) [] flumeCaps σ ∧ upTo σ flumeTrace.length = flumeTrace ∧ (∀ n i h, Act.ended (.handle h) ∉ acts (proj i (upTo σ n))) ∧
    ∃ B, ∀ k, (receivedFrom (.handle 0) (proj flumeIn.writer (upTo σ k))).length ≤ B := by
  have A := assembled (c := flumeConfig) (R := flume) (order := []) rfl flume_built rfl
  obtain ⟨m, hm, _, _⟩ := A.readerStream (i := 1) (h := flumeOut) rfl (Or.inr rfl)
  have ht : (flumeWaiter.node flumeOut.reader).map Node.targets = some [.handle 6] := by decide +kernel
  have hm : flumeWaiter.node flumeOut.reader = some m := hm
  rw [hm] at ht
  have ht : m.targets = [.handle 6] := by simpa using ht
  obtain ⟨σ, hσ, h0, h1, h2, h3⟩ := goes_on_stalled (· = 6) A flume_complete (unmanaged (R := flume) rfl flume_built) (cap := flumeCaps) (τ := flumeTrace)
    (fun x => by
      rintro ⟨h, hh, e⟩
      have : ∀ h ∈ flume.map (·.2), h.from.1 ≠ .buffer ∧ h.to.1 ≠ .buffer := by decide +kernel
      rcases e with e | e
      · exact (this h hh).1 (by rw [e])
      · exact (this h hh).2 (by rw [e])) flume_runs (lasting_sound (by decide +kernel))
  have H := endless_of (c := flumeConfig) (R := flume) (order := []) rfl flume_built rfl flume_complete (cap := flumeCaps) (by
    intro k ch
    exact realCaps_room _ k ch) hσ h1
  refine ⟨σ, hσ, h0, h2, C106_holds (c := flumeConfig) (R := flume) (order := []) (s := _) (g := flumeIn) (h := flumeOut) (b := 1) rfl flume_built rfl flume_complete hσ.runs flume_along rfl rfl rfl (by decide +kernel)
    (fun k ch _ x hx d he => ?_) hm (t := .handle 6) (by rw [ht]; simp) (N := flumeTrace.length) (fun k hk e he d r hact => ?_)⟩
  · have hk := (hσ.runs k).known x hx
    have hall : ∀ i ∈ flumeWaiter.everyone [], (flumeWaiter.sys [] i).isSome = true → (flumeWaiter.node i).isSome = true := by decide +kernel
    obtain ⟨n, hn⟩ := Option.isSome_iff_exists.mp (hall x.1 (sys_everyone hk) (Option.isSome_iff_ne_none.mpr hk))
    have := H.nofail hn k (act x.2) (List.mem_map.mpr ⟨x.2, mem_proj.mpr hx, rfl⟩)
    rw [he] at this
    simp [act, Act.fails] at this
  · obtain ⟨r', e', _⟩ := act_offer hact
    refine h3 k hk _ e he ?_
    rw [e']
    rfl

end Example
end Verif
