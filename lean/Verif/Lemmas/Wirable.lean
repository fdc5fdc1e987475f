import Verif.Props.Wiring
import Verif.Props.Spies
import Verif.Props.Hops
/-!
Which maps of hops can be wired up, before and after junctions and exit drains are put in.
-/
namespace Verif

/-- By itself a hop can be made. -/
structure Alone (c : Config) (h : Hop) : Prop where
  fromRun : c.Runnable h.from
  toRun : c.Runnable h.to
  notDrain : h.src.ty ≠ .drain
  notFaucet : h.dst.ty ≠ .faucet
  outOnly : h.src.ty = .faucet ∨ h.src.ty = .regulator → h.src.port = .out
  priority : h.dst.ty ≠ .junction → h.input.priority = 0

/-- Two hops exclude each other. -/
def Clash (g h : Hop) : Prop :=
  ((h.src.ty = .faucet ∨ h.src.ty = .regulator ∨ h.src.ty = .buffer) ∧ g.from = h.from) ∨ (h.src.ty = .launch ∧ g.src = h.src) ∨ (h.dst.ty ≠ .junction ∧ g.dst = h.dst)

theorem Clash.symm {g h : Hop} (x : Clash g h) : Clash h g := by
  rcases x with ⟨a, b⟩ | ⟨a, b⟩ | ⟨a, b⟩
  · have : g.src.ty = h.src.ty := congrArg Prod.fst b
    exact Or.inl ⟨by rw [this]; exact a, b.symm⟩
  · exact Or.inr (Or.inl ⟨by rw [b]; exact a, b.symm⟩)
  · exact Or.inr (Or.inr ⟨by rw [b]; exact a, b.symm⟩)

theorem makeable_iff {c : Config} {pre : List Hop} {h : Hop} : Makeable c pre h ↔ Alone c h ∧ ∀ g ∈ pre, ¬ Clash g h := by
  have hsend : CanSend pre h ↔ h.src.ty ≠ .drain ∧ (h.src.ty = .faucet ∨ h.src.ty = .regulator → h.src.port = .out) ∧
      ∀ g ∈ pre, ¬ ((h.src.ty = .faucet ∨ h.src.ty = .regulator ∨ h.src.ty = .buffer) ∧ g.from = h.from) ∧ ¬ (h.src.ty = .launch ∧ g.src = h.src) := by
    unfold CanSend
    cases h.src.ty <;> simp
  have hrec : CanReceive pre h ↔ h.dst.ty ≠ .faucet ∧ (h.dst.ty ≠ .junction → h.input.priority = 0) ∧
      ∀ g ∈ pre, ¬ (h.dst.ty ≠ .junction ∧ g.dst = h.dst) := by
    unfold CanReceive
    cases h.dst.ty <;> simp
  unfold Makeable
  rw [hsend, hrec]
  constructor
  · rintro ⟨a, b, ⟨d, e, f⟩, g, i, j⟩
    refine ⟨⟨a, b, d, g, e, i⟩, ?_⟩
    rintro x hx (q | q | q)
    · exact (f x hx).1 q
    · exact (f x hx).2 q
    · exact j x hx q
  · rintro ⟨⟨a, b, d, g, e, i⟩, f⟩
    exact ⟨a, b, ⟨d, e, fun x hx => ⟨fun q => f x hx (Or.inl q), fun q => f x hx (Or.inr (Or.inl q))⟩⟩, g, i, fun x hx q => f x hx (Or.inr (Or.inr q))⟩

theorem allMakeable_iff {c : Config} {R : Map Hop} (hs : R.Sorted) : AllMakeable c (R.map (·.2)) ↔
    (∀ k h, R.get k = some h → Alone c h) ∧ ∀ k k' h h', R.get k = some h → R.get k' = some h' → Clash h h' → k = k' := by
  have hn : R.keys.Nodup := hs.nodup
  have hget : ∀ i (hi : i < R.length), R.get R[i].1 = some R[i].2 := fun i hi => get_of_mem hn (List.getElem_mem hi)
  have hkey : ∀ i j (hi : i < R.length) (hj : j < R.length), R[i].1 = R[j].1 → i = j := by
    intro i j hi hj e
    have h1 : i < R.keys.length := by simp [Map.keys, hi]
    have h2 : j < R.keys.length := by simp [Map.keys, hj]
    have : R.keys[i] = R.keys[j] := by simp [Map.keys, e]
    have hn' := hn
    rw [List.nodup_iff_pairwise_ne, List.pairwise_iff_getElem] at hn'
    rcases Nat.lt_trichotomy i j with h' | h' | h'
    · exact absurd this (hn' i j h1 h2 h')
    · exact h'
    · exact absurd this.symm (hn' j i h2 h1 h')
  have hidx : ∀ k h, R.get k = some h → ∃ i, ∃ hi : i < R.length, R[i] = (k, h) := by
    intro k h hk
    obtain ⟨i, hi, e⟩ := List.mem_iff_getElem.mp (mem_of_get hk)
    exact ⟨i, hi, e⟩
  constructor
  · intro hall
    have hat : ∀ j (hj : j < R.length), Makeable c ((R.map (·.2)).take j) R[j].2 := by
      intro j hj
      refine hall _ _ ((R.map (·.2)).drop (j + 1)) ?_
      have hj' : j < (R.map (·.2)).length := by simpa using hj
      have : R[j].2 = (R.map (·.2))[j] := by simp
      rw [this, List.getElem_cons_drop, List.take_append_drop]
    have hbefore : ∀ i j (hi : i < R.length) (hj : j < R.length), i < j → ¬ Clash R[i].2 R[j].2 := by
      intro i j hi hj hij
      refine (makeable_iff.mp (hat j hj)).2 _ ?_
      exact List.mem_iff_getElem.mpr ⟨i, by simp; omega, by simp⟩
    constructor
    · intro k h hk
      obtain ⟨i, hi, e⟩ := hidx k h hk
      have := (makeable_iff.mp (hat i hi)).1
      rw [e] at this; exact this
    · intro k k' h h' hk hk' hc
      obtain ⟨i, hi, e⟩ := hidx k h hk
      obtain ⟨j, hj, e'⟩ := hidx k' h' hk'
      rcases Nat.lt_trichotomy i j with q | q | q
      · have := hbefore i j hi hj q
        rw [e, e'] at this; exact absurd hc this
      · subst q; rw [e] at e'; cases e'; rfl
      · have := hbefore j i hj hi q
        rw [e, e'] at this; exact absurd hc.symm this
  · rintro ⟨h1, h2⟩ pre h post heq
    rw [makeable_iff]
    have hlen : pre.length < R.length := by
      have := congrArg List.length heq; simp at this; omega
    have hh : R[pre.length].2 = h := by
      have : (R.map (·.2))[pre.length]'(by simpa using hlen) = h := by
        simp only [heq, List.getElem_append_right (Nat.le_refl _), Nat.sub_self, List.getElem_cons_zero]
      simpa using this
    refine ⟨hh ▸ h1 _ _ (hget _ hlen), ?_⟩
    intro g hg hc
    obtain ⟨i, hi, e⟩ := List.mem_iff_getElem.mp hg
    have hi' : i < R.length := by omega
    have hgi : R[i].2 = g := by
      have : (R.map (·.2))[i]'(by simpa using hi') = g := by
        simp only [heq, List.getElem_append_left hi, e]
      simpa using this
    have := h2 R[i].1 R[pre.length].1 g h (hgi ▸ hget i hi') (hh ▸ hget _ hlen) hc
    have := hkey i pre.length hi' hlen this
    omega

/-- There is a first hop if there is one. -/
theorem exists_first {M : Map Hop} (hs : M.Sorted) {k : Str} {h : Hop} (hk : M.get k = some h) (e : InRef) (hd : h.dst = e) :
    ∃ h₀, FirstHop M (fun g => g.dst = e) h₀ := by
  cases hf : M.find? (fun x => decide (x.2.dst = e)) with
  | none =>
    rw [List.find?_eq_none] at hf
    have := hf _ (mem_of_get hk)
    simp [hd] at this
  | some kh =>
    obtain ⟨q1, q2, q3⟩ := find_sorted hs (q := fun h => decide (h.dst = e)) hf
    exact ⟨kh.2, kh.1, q1, by simpa using q2, fun k' h' hk' hd' => q3 k' h' hk' (by simpa using hd')⟩

theorem firstHop_unique {M : Map Hop} {q : Hop → Prop} {h h' : Hop} (a : FirstHop M q h) (b : FirstHop M q h') : h = h' := by
  obtain ⟨k, hk, hq, hmin⟩ := a
  obtain ⟨k', hk', hq', hmin'⟩ := b
  rcases hmin k' h' hk' hq' with e | e
  · subst e; rw [hk] at hk'; cases hk'; rfl
  · rcases hmin' k h hk hq with e' | e'
    · subst e'; rw [hk] at hk'; cases hk'; rfl
    · have := strLt_trans e e'
      rw [strLt_irrefl] at this; cases this

section
variable {M R : Map Hop} {S : List SIns} {E : List EIns} (hI : Inserted M S E R)
include hI

/-- Outputs of anything but junctions are used after as before. -/
theorem Inserted.srcs {p : OutRef} (hp : p.ty ≠ .junction) : (∃ k h, R.get k = some h ∧ h.src = p) ↔ ∃ k h, M.get k = some h ∧ h.src = p := by
  constructor
  · rintro ⟨k, h, hk, rfl⟩
    rcases hI.kinds hk with ⟨h₀, h0, q, _⟩ | ⟨x, hx, _, _, q, _⟩ | ⟨x, hx, _, _, q, _⟩
    · rcases newSrc_cases S h₀.src with ⟨x, _, _, e⟩ | ⟨_, e⟩
      · rw [q, e] at hp; exact absurd rfl hp
      · exact ⟨k, h₀, h0, by rw [q, e]⟩
    · obtain ⟨h', ⟨k', hk', e, _⟩, _⟩ := hI.starts x hx
      exact ⟨k', h', hk', by rw [q]; exact e⟩
    · rw [q] at hp; exact absurd rfl hp
  · rintro ⟨k, h, hk, rfl⟩
    obtain ⟨h', q1, q2, _⟩ := hI.old k h hk
    rcases newSrc_cases S h.src with ⟨x, hx, e, _⟩ | ⟨_, e⟩
    · obtain ⟨h', _, q⟩ := hI.starts x hx
      exact ⟨_, _, q, e⟩
    · exact ⟨k, h', q1, by rw [q2, e]⟩

/-- Components other than junctions are reached after as before, with the priority of the first hop. -/
theorem Inserted.dsts (hs : M.Sorted) (hE : ∀ e, (∃ x ∈ E, x.ref = e) ↔ UsedTwice M fun h => h.dst = e) {d : InRef} (hd : d.ty ≠ .junction) (n : Int) :
    (∃ k h, R.get k = some h ∧ h.dst = d ∧ h.input.priority = n) ↔ ∃ h, FirstHop M (fun g => g.dst = d) h ∧ h.input.priority = n := by
  have single : ∀ {k h}, M.get k = some h → h.dst = d → (∀ x ∈ E, x.ref ≠ d) → FirstHop M (fun g => g.dst = d) h := by
    intro k h hk e hno
    refine ⟨k, hk, e, fun k' h' hk' e' => ?_⟩
    left
    apply Decidable.byContradiction
    intro hne
    obtain ⟨x, hx, hxr⟩ := (hE d).mpr ⟨k, k', h, h', hne, hk, hk', e, e'⟩
    exact hno x hx hxr
  constructor
  · rintro ⟨k, h, hk, rfl, rfl⟩
    rcases hI.only k (mem_keys_of_get hk) with hm | ⟨x, hx, rfl⟩ | ⟨x, hx, rfl⟩
    · obtain ⟨h₀, h0⟩ := get_isSome hm
      obtain ⟨h', q1, q2, q3, q4⟩ := hI.old k h₀ h0
      rw [hk] at q1; cases q1
      rcases newDst_cases E h₀.dst with ⟨x, _, _, e⟩ | ⟨hno, e⟩
      · rw [q3, e] at hd; exact absurd rfl hd
      · rw [e] at q3
        exact ⟨h₀, single h0 q3.symm (by rw [q3]; exact hno), by rw [q4]⟩
    · obtain ⟨h', _, q⟩ := hI.starts x hx
      rw [hk] at q; cases q
      exact absurd rfl hd
    · obtain ⟨h', hf, q⟩ := hI.ends x hx
      rw [hk] at q; cases q
      exact ⟨h', hf, rfl⟩
  · rintro ⟨h, hf, rfl⟩
    obtain ⟨k, hk, e, hmin⟩ := hf
    have e : h.dst = d := e
    by_cases hx : ∃ x ∈ E, x.ref = d
    · obtain ⟨x, hx, rfl⟩ := hx
      obtain ⟨h', hf', q⟩ := hI.ends x hx
      have : h' = h := firstHop_unique hf' ⟨k, hk, e, hmin⟩
      subst this
      exact ⟨_, _, q, rfl, rfl⟩
    · obtain ⟨h', q1, _, q3, q4⟩ := hI.old k h hk
      rw [newDst_not_mem (fun x hx' e' => hx ⟨x, hx', by rw [e', e]⟩)] at q3
      exact ⟨k, h', q1, by rw [q3, e], by rw [q4]⟩
end

/-- What hops must be like for the whole to work, before junctions and exit drains are put in. -/
structure LegalHops (c : Config) (M : Map Hop) : Prop where
  run : ∀ k h, M.get k = some h → c.Runnable h.from ∧ c.Runnable h.to
  notDrain : ∀ k h, M.get k = some h → h.src.ty ≠ .drain
  notFaucet : ∀ k h, M.get k = some h → h.dst.ty ≠ .faucet
  outOnly : ∀ k h, M.get k = some h → h.src.ty = .faucet ∨ h.src.ty = .regulator → h.src.port = .out
  bufferPort : ∀ k k' h h', M.get k = some h → M.get k' = some h' → h.src.ty = .buffer → h'.src.ty = .buffer → h.src.name = h'.src.name → h.src.port = h'.src.port
  priority : ∀ h, FirstHop M (fun g => g.dst = h.dst) h → h.dst.ty ≠ .junction → h.input.priority = 0

theorem runnable_junction {c : Config} {r : CompRef} (h : r.1 = .junction) : c.Runnable r := fun e => by rw [h] at e; cases e

theorem Inserted.wirable {c : Config} {M R : Map Hop} {S : List SIns} {E : List EIns} (hI : Inserted M S E R) (hs : M.Sorted)
    (hE : ∀ e, (∃ x ∈ E, x.ref = e) ↔ UsedTwice M fun h => h.dst = e)
    (hone : ∀ k k' h h', R.get k = some h → R.get k' = some h' → (h.src = h'.src → h.src.Old M → k = k') ∧ (h.dst = h'.dst → h.dst.Old M → k = k')) :
    ((∀ k h, R.get k = some h → Alone c h) ∧ ∀ k k' h h', R.get k = some h → R.get k' = some h' → Clash h h' → k = k') ↔ LegalHops c M := by
  constructor
  · rintro ⟨h1, h2⟩
    have hsrc : ∀ k h, M.get k = some h → h.src.ty ≠ .junction → ∃ k' h', R.get k' = some h' ∧ h'.src = h.src :=
      fun k h hk hj => (hI.srcs hj).mpr ⟨k, h, hk, rfl⟩
    have hdst : ∀ k h, M.get k = some h → h.dst.ty ≠ .junction → ∃ k' h', R.get k' = some h' ∧ h'.dst = h.dst := by
      intro k h hk hj
      obtain ⟨h₀, hf⟩ := exists_first hs hk h.dst rfl
      obtain ⟨k', h', q1, q2, _⟩ := (hI.dsts hs hE hj h₀.input.priority).mpr ⟨h₀, hf, rfl⟩
      exact ⟨k', h', q1, q2⟩
    refine ⟨?_, ?_, ?_, ?_, ?_, ?_⟩
    · intro k h hk
      constructor
      · by_cases hj : h.src.ty = .junction
        · exact runnable_junction hj
        · obtain ⟨k', h', q1, q2⟩ := hsrc k h hk hj
          have := (h1 k' h' q1).fromRun
          rwa [Hop.from, q2] at this
      · by_cases hj : h.dst.ty = .junction
        · exact runnable_junction hj
        · obtain ⟨k', h', q1, q2⟩ := hdst k h hk hj
          have := (h1 k' h' q1).toRun
          rwa [Hop.to, q2] at this
    · intro k h hk e
      obtain ⟨k', h', q1, q2⟩ := hsrc k h hk (by simp [e])
      exact (h1 k' h' q1).notDrain (by rw [q2]; exact e)
    · intro k h hk e
      obtain ⟨k', h', q1, q2⟩ := hdst k h hk (by simp [e])
      exact (h1 k' h' q1).notFaucet (by rw [q2]; exact e)
    · intro k h hk e
      obtain ⟨k', h', q1, q2⟩ := hsrc k h hk (by rcases e with e | e <;> simp [e])
      have := (h1 k' h' q1).outOnly (by rw [q2]; exact e)
      rwa [q2] at this
    · intro k k' h h' hk hk' e e' en
      obtain ⟨a, g, q1, q2⟩ := hsrc k h hk (by simp [e])
      obtain ⟨a', g', q1', q2'⟩ := hsrc k' h' hk' (by simp [e'])
      have : a = a' := h2 a a' g g' q1 q1' (Or.inl ⟨Or.inr (Or.inr (by rw [q2']; exact e')), by simp [Hop.from, q2, q2', e, e', en]⟩)
      subst this
      rw [q1] at q1'; cases q1'
      rw [← q2, ← q2']
    · intro h hf hj
      obtain ⟨k', h', q1, q2, q3⟩ := (hI.dsts hs hE hj h.input.priority).mpr ⟨h, hf, rfl⟩
      rw [← q3]
      exact (h1 k' h' q1).priority (by rw [q2]; exact hj)
  · intro hL
    have hsrc : ∀ k h, R.get k = some h → h.src.ty ≠ .junction → ∃ k' h', M.get k' = some h' ∧ h'.src = h.src :=
      fun k h hk hj => (hI.srcs hj).mp ⟨k, h, hk, rfl⟩
    have hdst : ∀ k h, R.get k = some h → h.dst.ty ≠ .junction → ∃ h', FirstHop M (fun g => g.dst = h.dst) h' ∧ h'.input.priority = h.input.priority :=
      fun k h hk hj => (hI.dsts hs hE hj h.input.priority).mp ⟨k, h, hk, rfl, rfl⟩
    constructor
    · intro k h hk
      refine ⟨?_, ?_, ?_, ?_, ?_, ?_⟩
      · by_cases hj : h.src.ty = .junction
        · exact runnable_junction hj
        · obtain ⟨k', h', q1, q2⟩ := hsrc k h hk hj
          have := (hL.run k' h' q1).1
          rwa [Hop.from, q2] at this
      · by_cases hj : h.dst.ty = .junction
        · exact runnable_junction hj
        · obtain ⟨h', ⟨k', q1, q2, _⟩, _⟩ := hdst k h hk hj
          have := (hL.run k' h' q1).2
          rwa [Hop.to, q2] at this
      · intro e
        obtain ⟨k', h', q1, q2⟩ := hsrc k h hk (by simp [e])
        exact hL.notDrain k' h' q1 (by rw [q2]; exact e)
      · intro e
        obtain ⟨h', ⟨k', q1, q2, _⟩, _⟩ := hdst k h hk (by simp [e])
        exact hL.notFaucet k' h' q1 (by rw [q2]; exact e)
      · intro e
        obtain ⟨k', h', q1, q2⟩ := hsrc k h hk (by rcases e with e | e <;> simp [e])
        have := hL.outOnly k' h' q1 (by rw [q2]; exact e)
        rwa [q2] at this
      · intro hj
        obtain ⟨h', hf, q⟩ := hdst k h hk hj
        have hd : h'.dst = h.dst := by obtain ⟨_, _, e, _⟩ := hf; exact e
        rw [← q]
        exact hL.priority h' (by rw [hd]; exact hf) (by rw [hd]; exact hj)
    · intro k k' h h' hk hk' hc
      rcases hc with ⟨a, b⟩ | ⟨a, b⟩ | ⟨a, b⟩
      · have ht : h.src.ty = h'.src.ty := congrArg Prod.fst b
        have hn : h.src.name = h'.src.name := congrArg Prod.snd b
        have hj' : h'.src.ty ≠ .junction := by rcases a with a | a | a <;> simp [a]
        have hj : h.src.ty ≠ .junction := by rw [ht]; exact hj'
        obtain ⟨a1, g, q1, q2⟩ := hsrc k h hk hj
        obtain ⟨a1', g', q1', q2'⟩ := hsrc k' h' hk' hj'
        have hp : h.src.port = h'.src.port := by
          rw [← q2, ← q2']
          rcases a with a | a | a
          · rw [hL.outOnly _ g q1 (by rw [q2, ht]; exact Or.inl a), hL.outOnly _ g' q1' (by rw [q2']; exact Or.inl a)]
          · rw [hL.outOnly _ g q1 (by rw [q2, ht]; exact Or.inr a), hL.outOnly _ g' q1' (by rw [q2']; exact Or.inr a)]
          · exact hL.bufferPort _ _ g g' q1 q1' (by rw [q2, ht]; exact a) (by rw [q2']; exact a) (by rw [q2, q2', hn])
        refine (hone k k' h h' hk hk').1 ?_ (fun e => absurd e hj)
        cases hx : h.src; cases hy : h'.src
        rw [hx, hy] at ht hn hp
        simp only at ht hn hp
        rw [ht, hn, hp]
      · exact (hone k k' h h' hk hk').1 b (fun e => by rw [b, a] at e; cases e)
      · exact (hone k k' h h' hk hk').2 b (fun e => absurd e (by rw [b]; exact a))

/-- The whole of processing, with everything about it: what `connection_manipulation` makes of a configuration that it does not abort on. -/
theorem processed (c : Config) (hn : c.connection.keys.Nodup) (hg : ∀ b d, (b, d) ∈ c.connection → d.Good) {perm perm' spyOrder}
    (hp : ∀ l, (perm l : List OutRef).Perm l) (hp' : ∀ l, (perm' l : List InRef).Perm l) (ho : ∀ l, (spyOrder l : List Str).Perm l)
    (hdrain : ∀ b i h, c.HopOf b i h → h.dst.ty = .drain → h.dst.name ∈ c.drain.keys) :
    ∃ (M R R' : Map Hop) (S : List SIns) (E : List EIns) (T : List Spy) (drain' : Map Str) (printed : List Str),
      manipulate perm perm' spyOrder c = some ({ c with drain := drain', connection := conns R' }, printed) ∧
      M.Sorted ∧ (∀ k h, M.get k = some h ↔ ∃ b i, c.HopOf b i h ∧ Counted b (i + 1) k) ∧ R'.Sorted ∧
      (AllMakeable { c with drain := drain', connection := conns R' } (R'.map (·.2)) ↔ LegalHops c M) ∧
      Inserted M S E R ∧ (∀ k h, R.get k = some h → R'.get k = some h) ∧ (∀ t ∈ T, t.drain ∉ c.drain.keys ∧ R'.get t.key = some t.hop) ∧
      (∀ k h, R'.get k = some h → (∃ t ∈ T, t.key = k ∧ h = t.hop) ∨ R.get k = some h) ∧
      (∀ k k' h h', R.get k = some h → R.get k' = some h' → (h.src = h'.src → h.src.Old M → k = k') ∧ (h.dst = h'.dst → h.dst.Old M → k = k')) ∧
      (∀ t ∈ T, ∃ k h, R.get k = some h ∧ h.src.ty = .launch ∧ h.src.name = t.launch) := by
  obtain ⟨ws, M, h1, h2, hs, h4⟩ := paired c.connection hn hg
  obtain ⟨S, E, R, h5, hI, hS, hE⟩ := addJunctions_inserted hs hp hp'
  have hone : ∀ k k' h h', R.get k = some h → R.get k' = some h' → (h.src = h'.src → h.src.Old M → k = k') ∧ (h.dst = h'.dst → h.dst.Old M → k = k') := by
    obtain ⟨R2, e2, h6⟩ := C38_single hs hp hp'
    rw [show hopSets M = conns M from rfl, h5] at e2
    have hR : R = R2 := by
      have e3 : conns R = conns R2 := Option.some.inj e2
      have hk : R.keys = R2.keys := by rw [← keys_conns R, ← keys_conns R2, e3]
      refine sorted_ext hI.sorted ?_ ?_
      · unfold Map.Sorted
        have := hI.sorted
        have q : (conns R).Sorted := sorted_conns.mpr this
        rw [e3] at q
        exact sorted_conns.mp q
      · intro k
        have := get_conns R k
        rw [e3, get_conns R2 k] at this
        cases h7 : R.get k <;> cases h8 : R2.get k <;> rw [h7, h8] at this <;> simp at this
        · rw [conn_inj this]
    subst hR; exact h6
  obtain ⟨T, R', drain', q1, q2, q3, q4, q5, q6, q7, q8, q9, q10, q11, q12⟩ :=
    spies_added { c with connection := conns R } R rfl hI.sorted ho
  have hM : ∀ k h, M.get k = some h ↔ ∃ b i, c.HopOf b i h ∧ Counted b (i + 1) k := by
    intro k h
    rw [h4]
    constructor
    · rintro ⟨b, d, cs, i, a1, a2, a3, a4⟩; exact ⟨b, i, ⟨d, cs, a1, a2, a3⟩, a4⟩
    · rintro ⟨b, i, ⟨d, cs, a1, a2, a3⟩, a4⟩; exact ⟨b, d, cs, i, a1, a2, a3, a4⟩
  have hnone : ∀ t ∈ T, R.get t.key = none := fun t ht => get_none.mpr (q6 t ht)
  have hkeep : ∀ k h, R.get k = some h → R'.get k = some h := by
    intro k h hk
    rw [q10 k (fun t ht e => by rw [← e, hnone t ht] at hk; simp at hk)]; exact hk
  have hsplit : ∀ k h, R'.get k = some h → (∃ t ∈ T, t.key = k ∧ h = t.hop) ∨ R.get k = some h := by
    intro k h hk
    by_cases hT : ∃ t ∈ T, t.key = k
    · obtain ⟨t, ht, rfl⟩ := hT
      rw [q9 t ht] at hk
      exact Or.inl ⟨t, ht, rfl, (Option.some.inj hk).symm⟩
    · right
      rw [← q10 k (fun t ht e => hT ⟨t, ht, e⟩)]; exact hk
  refine ⟨M, R, R', S, E, T, drain', (addSpies { c with connection := conns R } (spyOrder (requiredSpies (conns R)))).2, ?_, hs, hM, q2, ?_, hI, hkeep, fun t ht => ⟨q8 t ht, q9 t ht⟩, hsplit, hone, fun t ht => ((q3 t.launch).mp ⟨t, ht, rfl⟩).1⟩
  · simp only [manipulate, h1, h2, h5, Option.some.injEq]
    simp only at q1
    rw [← q1]
  · rw [allMakeable_iff q2, ← hI.wirable (c := c) hs hE hone]
    have hrun : ∀ r, Config.Runnable { c with drain := drain', connection := conns R' } r ↔ c.Runnable r := fun r => Iff.rfl
    have halone : ∀ h, Alone { c with drain := drain', connection := conns R' } h ↔ Alone c h :=
      fun h => ⟨fun ⟨a, b, d, e, f, g⟩ => ⟨a, b, d, e, f, g⟩, fun ⟨a, b, d, e, f, g⟩ => ⟨a, b, d, e, f, g⟩⟩
    simp only [halone]
    have hdr : ∀ k h, R.get k = some h → h.dst.ty = .drain → h.dst.name ∈ c.drain.keys := by
      intro k h hk hd
      obtain ⟨h', ⟨k', a1, a2, _⟩, _⟩ := (hI.dsts hs hE (d := h.dst) (by simp [hd]) h.input.priority).mp ⟨k, h, hk, rfl, rfl⟩
      obtain ⟨b, i, hh, _⟩ := (hM k' h').mp a1
      have a2 : h'.dst = h.dst := a2
      rw [← a2]
      exact hdrain b i h' hh (by rw [a2]; exact hd)
    have hspy : ∀ t ∈ T, ∀ k h, R.get k = some h → ¬ Clash h t.hop := by
      intro t ht k h hk hc
      rcases hc with ⟨a, b⟩ | ⟨a, b⟩ | ⟨a, b⟩
      · simp [Spy.hop] at a
      · exact ((q3 _).mp ⟨t, ht, rfl⟩).2 ⟨k, h, hk, b⟩
      · have hd : h.dst = ⟨.drain, t.drain⟩ := b
        have := hdr k h hk (by rw [hd])
        rw [hd] at this
        exact q8 t ht this
    constructor
    · rintro ⟨a, b⟩
      exact ⟨fun k h hk => a k h (hkeep k h hk), fun k k' h h' hk hk' hc => b k k' h h' (hkeep k h hk) (hkeep k' h' hk') hc⟩
    · rintro ⟨a, b⟩
      constructor
      · intro k h hk
        rcases hsplit k h hk with ⟨t, ht, rfl, rfl⟩ | hR
        · obtain ⟨⟨k, h, hk, e1, e2⟩, _⟩ := (q3 _).mp ⟨t, ht, rfl⟩
          refine ⟨?_, ?_, by simp [Spy.hop], by simp [Spy.hop], by simp [Spy.hop], by simp [Spy.hop]⟩
          · have := (a k h hk).fromRun
            simp only [Hop.from, e1, e2] at this
            exact this
          · exact fun e => by simp [Spy.hop, Hop.to] at e
        · exact a k h hR
      · intro k k' h h' hk hk' hc
        rcases hsplit k h hk with ⟨t, ht, rfl, rfl⟩ | hR <;> rcases hsplit k' h' hk' with ⟨t', ht', rfl, rfl⟩ | hR'
        · rcases hc with ⟨a, _⟩ | ⟨_, e⟩ | ⟨_, e⟩
          · simp [Spy.hop] at a
          · have : t.launch = t'.launch := by simpa [Spy.hop] using e
            rw [inj_of_nodup q4 ht ht' this]
          · have : t.drain = t'.drain := by simpa [Spy.hop] using e
            rw [inj_of_nodup q7 ht ht' this]
        · exact absurd hc.symm (hspy t ht k' h' hR')
        · exact absurd hc (hspy t' ht' k h hR)
        · exact b k k' h h' hR hR' hc

/-- The whole of processing: what `connection_manipulation` makes of a configuration that it does not abort on. -/
theorem manipulated (c : Config) (hn : c.connection.keys.Nodup) (hg : ∀ b d, (b, d) ∈ c.connection → d.Good) {perm perm' spyOrder}
    (hp : ∀ l, (perm l : List OutRef).Perm l) (hp' : ∀ l, (perm' l : List InRef).Perm l) (ho : ∀ l, (spyOrder l : List Str).Perm l)
    (hdrain : ∀ b i h, c.HopOf b i h → h.dst.ty = .drain → h.dst.name ∈ c.drain.keys) :
    ∃ (M R' : Map Hop) (drain' : Map Str) (printed : List Str),
      manipulate perm perm' spyOrder c = some ({ c with drain := drain', connection := conns R' }, printed) ∧
      M.Sorted ∧ (∀ k h, M.get k = some h ↔ ∃ b i, c.HopOf b i h ∧ Counted b (i + 1) k) ∧ R'.Sorted ∧
      (AllMakeable { c with drain := drain', connection := conns R' } (R'.map (·.2)) ↔ LegalHops c M) := by
  obtain ⟨M, R, R', S, E, T, drain', printed, h1, h2, h3, h4, h5, _⟩ := processed c hn hg hp hp' ho hdrain
  exact ⟨M, R', drain', printed, h1, h2, h3, h4, h5⟩

end Verif
