import Verif.Model.Junction
import Verif.Lemmas.Relay
/-!
# Lemmas about junctions
-/
namespace Verif

/-! ## `utils.rs` -/

theorem snoc_induction {α : Type} {P : List α → Prop} (nil : P [])
    (append_singleton : ∀ l a, P l → P (l ++ [a])) (l : List α) : P l := by
  have : ∀ l : List α, P l.reverse := by
    intro l
    induction l with
    | nil => exact nil
    | cons a l ih => rw [List.reverse_cons]; exact append_singleton _ _ ih
  have h := this l.reverse
  rwa [List.reverse_reverse] at h

theorem removeVecVec_aux {α : Type} (pre suf : List (List α)) :
    (List.range pre.length).reverse.foldl (fun vals i =>
      if ((vals[i]?.map List.length).getD 99) = 0 then vals.eraseIdx i else vals) (pre ++ suf) = pre.filter (fun g => !g.isEmpty) ++ suf := by
  induction pre using snoc_induction generalizing suf with
  | nil => simp
  | append_singleton pre g ih =>
    simp only [List.length_append, List.length_singleton, List.range_succ, List.reverse_append,
      List.reverse_singleton, List.singleton_append, List.foldl_cons]
    have : (pre ++ [g] ++ suf)[pre.length]? = some g := by simp
    simp only [this, Option.map_some, Option.getD_some]
    by_cases hg : g = []
    · subst hg
      have : (pre ++ [[]] ++ suf).eraseIdx pre.length = pre ++ suf := by
        rw [List.append_assoc, List.eraseIdx_append_of_length_le (by simp)]; simp
      simp only [List.length_nil, if_true, this]
      rw [ih]; simp
    · have h2 : g.length ≠ 0 := by simpa using hg
      rw [if_neg h2, List.append_assoc, List.singleton_append]
      rw [ih]
      have : (!g.isEmpty) = true := by cases g <;> simp_all
      simp [this]

theorem removeVecVec_eq {α : Type} (vals : List (List α)) :
    removeVecVec vals = vals.filter (fun g => !g.isEmpty) := by
  have := removeVecVec_aux vals []
  simpa [removeVecVec] using this

theorem flatten_filter_nonempty {α : Type} (vals : List (List α)) :
    (vals.filter (fun g => !g.isEmpty)).flatten = vals.flatten := by
  induction vals with
  | nil => rfl
  | cons g gs ih => cases g <;> simp_all

/-! ## Sorting and grouping -/

theorem insertByPriority_perm (x : Pull × Int) (l) : (insertByPriority x l).Perm (x :: l) := by
  induction l with
  | nil => simp [insertByPriority]
  | cons y ys ih =>
    simp only [insertByPriority]
    split
    · exact List.Perm.refl _
    · exact (ih.cons y).trans (List.Perm.swap x y ys)

theorem sort_foldl_perm (l acc : List (Pull × Int)) :
    (l.foldl (fun acc x => insertByPriority x acc) acc).Perm (l ++ acc) := by
  induction l generalizing acc with
  | nil => simp
  | cons x xs ih =>
    simp only [List.foldl_cons]
    refine (ih _).trans ?_
    refine ((List.Perm.append_left xs (insertByPriority_perm x acc))).trans ?_
    simpa using List.perm_middle

theorem sortByPriority_perm (l) : (sortByPriority l).Perm l := by
  simpa [sortByPriority] using sort_foldl_perm l []

theorem insertByPriority_sorted (x : Pull × Int) (l : List (Pull × Int)) (h : l.Pairwise (fun a b => a.2 ≤ b.2)) :
    (insertByPriority x l).Pairwise (fun a b => a.2 ≤ b.2) := by
  induction l with
  | nil => simp [insertByPriority]
  | cons y ys ih =>
    simp only [insertByPriority]
    rw [List.pairwise_cons] at h
    split
    · rename_i hlt
      refine List.pairwise_cons.mpr ⟨?_, List.pairwise_cons.mpr h⟩
      intro z hz
      simp at hz
      rcases hz with rfl | hz
      · omega
      · have := h.1 z hz; omega
    · rename_i hlt
      refine List.pairwise_cons.mpr ⟨?_, ih h.2⟩
      intro z hz
      have := (insertByPriority_perm x ys).mem_iff.mp hz
      simp at this
      rcases this with rfl | hz
      · omega
      · exact h.1 z hz

theorem sortByPriority_sorted (l) : (sortByPriority l).Pairwise (fun a b => a.2 ≤ b.2) := by
  unfold sortByPriority
  suffices ∀ acc : List (Pull × Int), acc.Pairwise (fun a b => a.2 ≤ b.2) →
      (l.foldl (fun acc x => insertByPriority x acc) acc).Pairwise (fun a b => a.2 ≤ b.2) from this [] List.Pairwise.nil
  induction l with
  | nil => intro acc h; exact h
  | cons x xs ih => intro acc h; exact ih _ (insertByPriority_sorted x acc h)

theorem insertByPriority_filter_eq (x : Pull × Int) (l : List (Pull × Int)) (n : Int)
    (h : l.Pairwise (fun a b => a.2 ≤ b.2)) :
    (insertByPriority x l).filter (fun y => decide (y.2 = n)) =
      l.filter (fun y => decide (y.2 = n)) ++ [x].filter (fun y => decide (y.2 = n)) := by
  induction l with
  | nil => simp [insertByPriority]
  | cons y ys ih =>
    rw [List.pairwise_cons] at h
    simp only [insertByPriority]
    split
    · rename_i hlt
      by_cases hx : x.2 = n
      · have : (y :: ys).filter (fun y => decide (y.2 = n)) = [] := by
          rw [List.filter_eq_nil_iff]
          intro z hz
          simp at hz ⊢
          rcases hz with rfl | hz
          · omega
          · have := h.1 z hz; omega
        rw [List.filter_cons, this]; simp [hx]
      · simp [List.filter_cons, hx]
    · simp only [List.filter_cons]
      rw [ih h.2]
      split <;> simp [List.filter_cons]

/-- The sort is stable: inputs of one priority stay in the order in which they were connected. -/
theorem sortByPriority_stable (l : List (Pull × Int)) (n : Int) :
    (sortByPriority l).filter (fun y => decide (y.2 = n)) = l.filter (fun y => decide (y.2 = n)) := by
  unfold sortByPriority
  suffices ∀ acc : List (Pull × Int), acc.Pairwise (fun a b => a.2 ≤ b.2) →
      (l.foldl (fun acc x => insertByPriority x acc) acc).filter (fun y => decide (y.2 = n)) =
      acc.filter (fun y => decide (y.2 = n)) ++ l.filter (fun y => decide (y.2 = n)) by
    simpa using this [] List.Pairwise.nil
  induction l with
  | nil => simp
  | cons x xs ih =>
    intro acc h
    rw [List.foldl_cons, ih _ (insertByPriority_sorted x acc h), insertByPriority_filter_eq x acc n h]
    simp [List.filter_cons]
    split <;> simp

theorem groupStep_gt (p : Int) (st : List (List Pull)) (hst : st ≠ []) (x : Pull × Int) (hx : x.2 > p) :
    groupStep (p, st) x = (p, st ++ [[x.1]]) := by
  simp [groupStep, hst, hx]

theorem groupStep_le (p : Int) (st : List (List Pull)) (g : List Pull) (x : Pull × Int) (hx : x.2 ≤ p) :
    groupStep (p, st ++ [g]) x = (p, st ++ [g ++ [x.1]]) := by
  have : ¬ x.2 > p := by omega
  simp [groupStep, this]

theorem foldl_group_gt (p : Int) (st : List (List Pull)) (hst : st ≠ []) (l : List (Pull × Int)) (h : ∀ x ∈ l, x.2 > p) :
    l.foldl groupStep (p, st) = (p, st ++ l.map (fun x => [x.1])) := by
  induction l generalizing st with
  | nil => simp
  | cons x xs ih =>
    rw [List.foldl_cons, groupStep_gt p st hst x (h x (by simp)), ih _ (by simp) (fun y hy => h y (by simp [hy]))]
    simp

theorem foldl_group_eq (p : Int) (g : List Pull) (l : List (Pull × Int)) (h : ∀ x ∈ l, x.2 ≤ p) :
    l.foldl groupStep (p, [g]) = (p, [g ++ l.map Prod.fst]) := by
  induction l generalizing g with
  | nil => simp
  | cons x xs ih =>
    have := groupStep_le p [] g x (h x (by simp))
    simp only [List.nil_append] at this
    rw [List.foldl_cons, this, ih _ (fun y hy => h y (by simp [hy]))]
    simp

/-- The groups: all inputs of the smallest priority together, every other input by itself. -/
theorem initializeStdin_eq (inputs : List (Pull × Int)) (x : Pull × Int) (xs : List (Pull × Int))
    (hs : sortByPriority inputs = x :: xs) :
    initializeStdin inputs =
      ((x :: xs).takeWhile (fun y => decide (y.2 = x.2))).map Prod.fst ::
        ((x :: xs).dropWhile (fun y => decide (y.2 = x.2))).map (fun y => [y.1]) := by
  have hsort := sortByPriority_sorted inputs
  rw [hs, List.pairwise_cons] at hsort
  unfold initializeStdin
  rw [hs, List.foldl_cons]
  have h0 : groupStep (0, []) x = (x.2, [[x.1]]) := by simp [groupStep]
  rw [h0]
  have hsplit : xs = xs.takeWhile (fun y => decide (y.2 = x.2)) ++ xs.dropWhile (fun y => decide (y.2 = x.2)) :=
    (List.takeWhile_append_dropWhile).symm
  have hd : ∀ y ∈ xs.dropWhile (fun y => decide (y.2 = x.2)), y.2 > x.2 := by
    have hsub : (xs.dropWhile (fun y => decide (y.2 = x.2))).Sublist xs := List.dropWhile_sublist _
    intro y hy
    cases hdw : xs.dropWhile (fun y => decide (y.2 = x.2)) with
    | nil => rw [hdw] at hy; simp at hy
    | cons z zs =>
      have hz : ¬ (z.2 = x.2) := by
        have := List.head?_dropWhile_not (fun y : Pull × Int => decide (y.2 = x.2)) xs
        rw [hdw] at this
        simpa using this
      have hzmem : z ∈ xs := hsub.subset (by rw [hdw]; simp)
      have hzx := hsort.1 z hzmem
      rw [hdw] at hy
      simp at hy
      rcases hy with rfl | hy
      · omega
      · have hp : (z :: zs).Pairwise (fun a b => a.2 ≤ b.2) := by rw [← hdw]; exact hsort.2.sublist hsub
        have := (List.pairwise_cons.mp hp).1 y hy
        omega
  have ht : ∀ y ∈ xs.takeWhile (fun y => decide (y.2 = x.2)), y.2 ≤ x.2 := by
    intro y hy
    have := List.all_eq_true.mp List.all_takeWhile y hy
    simp at this; omega
  rw [hsplit, List.foldl_append, foldl_group_eq _ _ _ ht, foldl_group_gt _ _ (by simp) _ hd]
  rw [← hsplit]
  simp

theorem initializeStdin_nil (inputs : List (Pull × Int)) (hs : sortByPriority inputs = []) : initializeStdin inputs = [] := by
  simp [initializeStdin, hs]

theorem initializeStdin_flatten (inputs : List (Pull × Int)) :
    (initializeStdin inputs).flatten = (sortByPriority inputs).map Prod.fst := by
  cases hs : sortByPriority inputs with
  | nil => simp [initializeStdin_nil inputs hs]
  | cons x xs =>
    rw [initializeStdin_eq inputs x xs hs, List.flatten_cons]
    have : ∀ l : List (Pull × Int), (l.map (fun y => [y.1])).flatten = l.map Prod.fst := by
      intro l; induction l with
      | nil => rfl
      | cons y ys ih => simp [ih]
    rw [this, ← List.map_append, List.takeWhile_append_dropWhile]

end Verif
