import Verif.Model.Maps
namespace Verif

theorem toNat_inj {a b : Char} (h : a.toNat = b.toNat) : a = b := by
  apply Char.ext
  apply UInt32.toNat_inj.mp
  exact h

theorem strLt_irrefl (s : Str) : strLt s s = false := by
  induction s with
  | nil => rfl
  | cons a s ih => simp [strLt, ih]

theorem strLt_trans {s t u : Str} (h : strLt s t = true) (h' : strLt t u = true) : strLt s u = true := by
  induction s generalizing t u with
  | nil =>
    cases t with
    | nil => simp [strLt] at h
    | cons b t => cases u with
      | nil => simp [strLt] at h'
      | cons c u => rfl
  | cons a s ih =>
    cases t with
    | nil => simp [strLt] at h
    | cons b t => cases u with
      | nil => simp [strLt] at h'
      | cons c u =>
        simp only [strLt, Bool.or_eq_true, decide_eq_true_eq, Bool.and_eq_true] at h h' ⊢
        rcases h with h | ⟨rfl, h⟩ <;> rcases h' with h' | ⟨rfl, h'⟩
        · left; omega
        · left; exact h
        · left; exact h'
        · right; exact ⟨rfl, ih h h'⟩

theorem strLt_total (s t : Str) : strLt s t = true ∨ s = t ∨ strLt t s = true := by
  induction s generalizing t with
  | nil => cases t <;> simp [strLt]
  | cons a s ih =>
    cases t with
    | nil => simp [strLt]
    | cons b t =>
      simp only [strLt, Bool.or_eq_true, decide_eq_true_eq, Bool.and_eq_true]
      rcases Nat.lt_trichotomy a.toNat b.toNat with h | h | h
      · left; left; exact h
      · have := toNat_inj h; subst this
        rcases ih t with h | h | h
        · left; right; exact ⟨rfl, h⟩
        · right; left; rw [h]
        · right; right; right; exact ⟨rfl, h⟩
      · right; right; left; exact h

theorem strLt_ne {s t : Str} (h : strLt s t = true) : s ≠ t := by
  rintro rfl; rw [strLt_irrefl] at h; simp at h

theorem strLt_asymm {s t : Str} (h : strLt s t = true) : strLt t s = false := by
  cases h' : strLt t s
  · rfl
  · have := strLt_trans h h'; rw [strLt_irrefl] at this; simp at this

variable {α β : Type}

/-- A `BTreeMap`. -/
def Map.Sorted (m : Map α) : Prop := m.Pairwise fun a b => strLt a.1 b.1 = true

theorem Map.Sorted.nodup {m : Map α} (h : m.Sorted) : m.keys.Nodup := by
  unfold Map.keys
  rw [List.nodup_iff_pairwise_ne, List.pairwise_map]
  exact h.imp fun h => strLt_ne h

theorem get_none {m : Map α} {k : Str} : m.get k = none ↔ k ∉ m.keys := by
  induction m with
  | nil => simp [Map.get, Map.keys]
  | cons x m ih =>
    obtain ⟨k', v⟩ := x
    simp only [Map.get, Map.keys, List.map_cons, List.mem_cons, not_or] at ih ⊢
    split
    · rename_i h; subst h; simp
    · rename_i h
      rw [ih]
      constructor
      · intro h'; exact ⟨fun e => h e.symm, h'⟩
      · exact fun h => h.2

theorem mem_of_get {m : Map α} {k : Str} {v : α} (h : m.get k = some v) : (k, v) ∈ m := by
  induction m with
  | nil => simp [Map.get] at h
  | cons x m ih =>
    obtain ⟨k', w⟩ := x
    simp only [Map.get] at h
    split at h
    · rename_i hk; subst hk; simp at h; subst h; simp
    · exact List.mem_cons_of_mem _ (ih h)

theorem get_of_mem {m : Map α} {k : Str} {v : α} (hn : m.keys.Nodup) (h : (k, v) ∈ m) : m.get k = some v := by
  induction m with
  | nil => simp at h
  | cons x m ih =>
    obtain ⟨k', w⟩ := x
    simp only [Map.keys, List.map_cons, List.nodup_cons] at hn
    rcases List.mem_cons.mp h with h | h
    · cases h; simp [Map.get]
    · have : k' ≠ k := by
        rintro rfl
        exact hn.1 (List.mem_map.mpr ⟨_, h, rfl⟩)
      simp only [Map.get, if_neg this]
      exact ih hn.2 h

theorem mem_iff_get {m : Map α} {k : Str} {v : α} (hn : m.keys.Nodup) : (k, v) ∈ m ↔ m.get k = some v :=
  ⟨get_of_mem hn, mem_of_get⟩

theorem get_entry (m : Map α) (f : α → α) (new : α) (k x : Str) :
    (m.entry f new k).get x = if x = k then some (((m.get k).map f).getD new) else m.get x := by
  induction m with
  | nil =>
    simp only [Map.entry, Map.get]
    by_cases h : x = k
    · subst h; simp
    · rw [if_neg h, if_neg (fun e => h e.symm)]
  | cons y m ih =>
    obtain ⟨k', v⟩ := y
    simp only [Map.entry, Map.get]
    by_cases h : k' = k
    · subst h
      simp only [if_true, Map.get]
      by_cases hx : k' = x
      · subst hx; simp
      · rw [if_neg hx, if_neg (fun e => hx e.symm), if_neg hx]
    · simp only [if_neg h, Map.get, ih]
      by_cases hx : k' = x
      · subst hx; simp [h]
      · simp [hx]

theorem mem_keys_entry (m : Map α) (f : α → α) (new : α) (k x : Str) :
    x ∈ (m.entry f new k).keys ↔ x = k ∨ x ∈ m.keys := by
  have h1 := get_none (m := m.entry f new k) (k := x)
  have h2 := get_none (m := m) (k := x)
  rw [get_entry] at h1
  by_cases h : x = k
  · subst h; simp only [if_true] at h1
    simp at h1; simp [h1]
  · rw [if_neg h, h2] at h1
    have := Decidable.not_iff_not.mp h1
    simp [h, this]

theorem nodup_entry {m : Map α} (f : α → α) (new : α) (k : Str) (hn : m.keys.Nodup) : (m.entry f new k).keys.Nodup := by
  induction m with
  | nil => simp [Map.entry, Map.keys]
  | cons y m ih =>
    obtain ⟨k', v⟩ := y
    simp only [Map.keys, List.map_cons, List.nodup_cons] at hn
    simp only [Map.entry]
    split
    · rename_i h; subst h; simp only [Map.keys, List.map_cons, List.nodup_cons]; exact hn
    · rename_i h
      have := ih hn.2
      have hk := mem_keys_entry m f new k k'
      simp only [Map.keys, List.map_cons, List.nodup_cons] at this hk ⊢
      refine ⟨?_, this⟩
      rw [hk]
      rintro (h' | h')
      · exact h h'
      · exact hn.1 h'

/-- Twice at the same key. -/
theorem entry_entry (m : Map α) (f g : α → α) (new new' : α) (k : Str) :
    (m.entry f new k).entry g new' k = m.entry (fun v => g (f v)) (g new) k := by
  induction m with
  | nil => simp [Map.entry]
  | cons y m ih =>
    obtain ⟨k', v⟩ := y
    simp only [Map.entry]
    by_cases h : k' = k
    · simp [h, Map.entry]
    · simp [h, Map.entry, ih]

theorem entry_congr {f g : α → α} {new new' : α} (m : Map α) (k : Str) (h : ∀ v, f v = g v) (h' : new = new') :
    m.entry f new k = m.entry g new' k := by
  rw [funext h, h']

theorem get_sortedEntry {m : Map α} (hm : m.Sorted) (f : α → α) (new : α) (k x : Str) :
    (m.sortedEntry f new k).get x = if x = k then some (((m.get k).map f).getD new) else m.get x := by
  induction m with
  | nil =>
    simp only [Map.sortedEntry, Map.get]
    by_cases h : x = k
    · subst h; simp
    · rw [if_neg h, if_neg (fun e => h e.symm)]
  | cons y m ih =>
    obtain ⟨k', v⟩ := y
    have hm' := (List.pairwise_cons.mp hm)
    have ih := ih hm'.2
    simp only [Map.sortedEntry, Map.get]
    by_cases h : k' = k
    · subst h
      simp only [if_true, Map.get]
      by_cases hx : k' = x
      · subst hx; simp
      · rw [if_neg hx, if_neg (fun e => hx e.symm), if_neg hx]
    · rw [if_neg h, if_neg h]
      by_cases hlt : strLt k k' = true
      · rw [if_pos hlt]
        have hk : Map.get m k = none := by
          rw [get_none]
          intro hk
          simp only [Map.keys, List.mem_map] at hk
          obtain ⟨y, hy, rfl⟩ := hk
          have := strLt_trans hlt (hm'.1 y hy)
          rw [strLt_irrefl] at this; simp at this
        simp only [Map.get, hk]
        by_cases hx : x = k
        · subst hx; simp
        · rw [if_neg hx, if_neg (fun e => hx e.symm)]
      · rw [if_neg hlt]
        simp only [Map.get, ih]
        by_cases hx : k' = x
        · subst hx; simp [h]
        · simp [hx]

theorem mem_sortedEntry_key {m : Map α} {f : α → α} {new : α} {k : Str} {y : Str × α} (h : y ∈ m.sortedEntry f new k) :
    y.1 = k ∨ y ∈ m := by
  induction m with
  | nil => simp [Map.sortedEntry] at h; subst h; simp
  | cons z m ih =>
    obtain ⟨k', v⟩ := z
    simp only [Map.sortedEntry] at h
    split at h
    · rcases List.mem_cons.mp h with rfl | h
      · simp
      · right; simp [h]
    · split at h
      · rcases List.mem_cons.mp h with rfl | h
        · simp
        · right; exact h
      · rcases List.mem_cons.mp h with rfl | h
        · right; simp
        · rcases ih h with h | h
          · left; exact h
          · right; simp [h]

theorem sorted_sortedEntry {m : Map α} (hm : m.Sorted) (f : α → α) (new : α) (k : Str) : (m.sortedEntry f new k).Sorted := by
  induction m with
  | nil => simp [Map.sortedEntry, Map.Sorted]
  | cons y m ih =>
    obtain ⟨k', v⟩ := y
    have hm' := (List.pairwise_cons.mp hm)
    simp only [Map.sortedEntry]
    split
    · rename_i h; subst h
      exact List.pairwise_cons.mpr ⟨hm'.1, hm'.2⟩
    · rename_i h
      split
      · rename_i hlt
        refine List.pairwise_cons.mpr ⟨?_, hm⟩
        intro y hy
        rcases List.mem_cons.mp hy with rfl | hy
        · exact hlt
        · exact strLt_trans hlt (hm'.1 y hy)
      · rename_i hlt
        refine List.pairwise_cons.mpr ⟨?_, ih hm'.2⟩
        intro y hy
        rcases mem_sortedEntry_key hy with h' | h'
        · rw [h']
          rcases strLt_total k' k with h0 | h0 | h0
          · exact h0
          · exact absurd h0 h
          · exact absurd h0 hlt
        · exact hm'.1 y h'

theorem mem_keys_sortedEntry {m : Map α} (hm : m.Sorted) (f : α → α) (new : α) (k x : Str) :
    x ∈ (m.sortedEntry f new k).keys ↔ x = k ∨ x ∈ m.keys := by
  have h1 := get_none (m := m.sortedEntry f new k) (k := x)
  have h2 := get_none (m := m) (k := x)
  rw [get_sortedEntry hm] at h1
  by_cases h : x = k
  · subst h; simp only [if_true] at h1
    simp at h1; simp [h1]
  · rw [if_neg h, h2] at h1
    have := Decidable.not_iff_not.mp h1
    simp [h, this]

/-- Sorted maps with the same content are the same. -/
theorem sorted_ext {m m' : Map α} (h : m.Sorted) (h' : m'.Sorted) (he : ∀ k, m.get k = m'.get k) : m = m' := by
  induction m generalizing m' with
  | nil =>
    cases m' with
    | nil => rfl
    | cons y m' =>
      obtain ⟨k, v⟩ := y
      have := he k
      simp [Map.get] at this
  | cons x m ih =>
    obtain ⟨k, v⟩ := x
    cases m' with
    | nil =>
      have := he k
      simp [Map.get] at this
    | cons y m' =>
      obtain ⟨k', v'⟩ := y
      have hm := List.pairwise_cons.mp h
      have hm' := List.pairwise_cons.mp h'
      have first : ∀ {a : Map α} {k k' : Str} {v : α}, (∀ y ∈ a, strLt k' y.1 = true) → a.get k = some v → strLt k' k = true := by
        intro a k k' v h1 h2
        exact h1 _ (mem_of_get h2)
      have hk : k = k' := by
        have e1 := he k
        have e2 := he k'
        simp only [Map.get, if_true] at e1 e2
        rcases strLt_total k k' with h0 | h0 | h0
        · exfalso
          rw [if_neg (strLt_ne h0).symm] at e1
          have := first hm'.1 e1.symm
          rw [strLt_asymm h0] at this; simp at this
        · exact h0
        · exfalso
          rw [if_neg (strLt_ne h0).symm] at e2
          have := first hm.1 e2
          rw [strLt_asymm h0] at this; simp at this
      subst hk
      have hv : v = v' := by
        have := he k; simpa [Map.get] using this
      subst hv
      have : m = m' := by
        apply ih hm.2 hm'.2
        intro x
        have ex := he x
        simp only [Map.get] at ex
        by_cases hx : k = x
        · subst hx
          have z : ∀ {a : Map α}, (∀ y ∈ a, strLt k y.1 = true) → a.get k = none := by
            intro a ha
            cases hg : a.get k with
            | none => rfl
            | some w =>
              have := ha _ (mem_of_get hg)
              simp [strLt_irrefl] at this
          rw [z hm.1, z hm'.1]
        · simpa [hx] using ex
      rw [this]

end Verif
