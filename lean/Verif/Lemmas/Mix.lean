import Verif.Spec.Mix
import Verif.Lemmas.Motion
/-!
# Mixtures
-/
namespace Verif
section
variable {α : Type}

theorem Mix.perm {ls : List (List α)} {l : List α} (h : Mix ls l) : l.Perm ls.flatten := by
  induction h with
  | done h => rw [List.flatten_eq_nil_iff.mpr h]
  | take _ ih =>
    simp only [List.flatten_append, List.flatten_cons, List.cons_append] at ih ⊢
    exact (List.Perm.cons _ ih).trans List.perm_middle.symm

theorem Mix.sublist {ls : List (List α)} {l : List α} (h : Mix ls l) : ∀ x ∈ ls, x.Sublist l := by
  induction h with
  | done h => intro x hx; rw [h x hx]; exact List.Sublist.refl _
  | @take xs ys a r l _ ih =>
    intro x hx
    simp only [List.mem_append, List.mem_cons] at hx ih
    rcases hx with hx | rfl | hx
    · exact (ih x (Or.inl hx)).cons a
    · exact (ih r (Or.inr (Or.inl rfl))).cons_cons a
    · exact (ih x (Or.inr (Or.inr hx))).cons a

theorem Mix.single_iff {a l : List α} : Mix [a] l ↔ l = a := by
  constructor
  · intro h
    have h1 := h.sublist a (by simp)
    have h2 := h.perm.length_eq
    simp only [List.flatten_cons, List.flatten_nil, List.append_nil] at h2
    exact (h1.eq_of_length h2.symm).symm
  · rintro rfl
    induction l with
    | nil => exact .done (by simp)
    | cons x r ih => exact .take (xs := []) (ys := []) ih

theorem Mix.none_iff {l : List α} : Mix [] l ↔ l = [] := by
  constructor
  · intro h
    simpa using h.perm
  · rintro rfl
    exact .done (by simp)

/-- Mixing mixtures. -/
theorem Mix.join {ls : List (List α)} {l : List α} (h : Mix ls l) : ∀ {Ss : List (List (List α))}, Ss.length = ls.length → (∀ (i : Nat) (S : List (List α)) (x : List α), Ss[i]? = some S → ls[i]? = some x → Mix S x) → Mix Ss.flatten l := by
  induction h with
  | @done ls h =>
    intro Ss hl hm
    refine .done fun x hx => ?_
    obtain ⟨S, hS, hx⟩ := List.mem_flatten.mp hx
    obtain ⟨i, hi⟩ := List.mem_iff_getElem?.mp hS
    have hlt : i < ls.length := by
      have := (List.getElem?_eq_some_iff.mp hi).1
      omega
    have h1 := hm i S ls[i] hi (List.getElem?_eq_getElem hlt)
    rw [h _ (List.getElem_mem hlt)] at h1
    have := h1.sublist x hx
    simpa using this
  | @take xs ys a r l _ ih =>
    intro Ss hl hm
    simp only [List.length_append, List.length_cons] at hl
    have hlt : xs.length < Ss.length := by omega
    have e := List.take_append_drop xs.length Ss
    rw [List.drop_eq_getElem_cons hlt] at e
    generalize hX : Ss.take xs.length = Xs at e
    generalize hY : Ss.drop (xs.length + 1) = Ys at e
    generalize Ss[xs.length] = S at e
    have lX : Xs.length = xs.length := by rw [← hX, List.length_take]; omega
    subst e
    have h1 : Mix S (a :: r) := hm xs.length S (a :: r) (by rw [List.getElem?_append_right (by omega)]; simp [lX]) (by rw [List.getElem?_append_right (by omega)]; simp)
    generalize hq : a :: r = q at h1
    cases h1 with
    | done => cases hq
    | @take us vs b s q' h2 =>
      obtain ⟨rfl, rfl⟩ := List.cons.inj hq
      have := ih (Ss := Xs ++ (us ++ s :: vs) :: Ys) (by simp only [List.length_append, List.length_cons] at hl ⊢; omega) (by
        intro i S x hS hx
        by_cases hi : i < xs.length
        · rw [List.getElem?_append_left (by omega)] at hS hx
          exact hm i S x (by rw [List.getElem?_append_left (by omega)]; exact hS) (by rw [List.getElem?_append_left hi]; exact hx)
        · by_cases he : i = xs.length
          · subst he
            rw [List.getElem?_append_right (by omega)] at hS hx
            simp only [lX, Nat.sub_self, List.getElem?_cons_zero, Option.some.injEq] at hS hx
            subst hS hx
            exact h2
          · obtain ⟨j, rfl⟩ : ∃ j, i = xs.length + (j + 1) := ⟨i - xs.length - 1, by omega⟩
            rw [List.getElem?_append_right (by omega)] at hS hx
            refine hm (xs.length + (j + 1)) S x ?_ ?_
            · rw [List.getElem?_append_right (by omega)]
              simpa [lX] using hS
            · rw [List.getElem?_append_right (by omega)]
              simpa using hx)
      simp only [List.flatten_append, List.flatten_cons, List.append_assoc, List.cons_append] at this ⊢
      rw [← List.append_assoc] at this ⊢
      exact .take this

theorem EachBegins.refl (ls : List (List α)) : EachBegins ls ls := by
  induction ls with
  | nil => exact .nil
  | cons a l ih => exact .cons (List.prefix_refl a) ih

theorem EachBegins.trans {as bs cs : List (List α)} (h : EachBegins as bs) : EachBegins bs cs → EachBegins as cs := by
  induction h generalizing cs with
  | nil => exact id
  | cons h _ ih =>
    intro h'
    cases h' with
    | cons h1 h2 => exact .cons (h.trans h1) (ih h2)

theorem EachBegins.append {as bs as' bs' : List (List α)} (h : EachBegins as bs) (h' : EachBegins as' bs') : EachBegins (as ++ as') (bs ++ bs') := by
  induction h with
  | nil => exact h'
  | cons h _ ih => exact .cons h ih

theorem EachBegins.split {xs ys as : List (List α)} {r : List α} (h : EachBegins as (xs ++ r :: ys)) : ∃ xs' r' ys', as = xs' ++ r' :: ys' ∧ EachBegins xs' xs ∧ r' <+: r ∧ EachBegins ys' ys := by
  induction xs generalizing as with
  | nil => cases h with | cons h1 h2 => exact ⟨[], _, _, rfl, .nil, h1, h2⟩
  | cons x xs ih =>
    cases h with
    | cons h1 h2 =>
      obtain ⟨xs', r', ys', rfl, q1, q2, q3⟩ := ih h2
      exact ⟨_ :: xs', r', ys', rfl, .cons h1 q1, q2, q3⟩

theorem eachBegins_nil (ls : List (List α)) : EachBegins (ls.map fun _ => []) ls := by
  induction ls with
  | nil => exact .nil
  | cons a l ih => exact .cons List.nil_prefix ih

/-- The beginning of a mixture is a mixture of beginnings. -/
theorem Mix.begin {ls : List (List α)} {l : List α} (h : Mix ls l) : ∀ {m : List α}, m <+: l → ∃ ms, EachBegins ms ls ∧ Mix ms m := by
  induction h with
  | @done ls h =>
    intro m hm
    rw [List.prefix_nil.mp hm]
    exact ⟨_, EachBegins.refl ls, .done h⟩
  | @take xs ys a r l _ ih =>
    intro m hm
    cases m with
    | nil => exact ⟨_, eachBegins_nil _, .done (by intro x hx; simp only [List.mem_map] at hx; obtain ⟨_, _, rfl⟩ := hx; rfl)⟩
    | cons b m =>
      obtain ⟨rfl, hm'⟩ := List.cons_prefix_cons.mp hm
      obtain ⟨ms, h1, h2⟩ := ih hm'
      obtain ⟨xs', r', ys', rfl, q1, q2, q3⟩ := h1.split
      exact ⟨xs' ++ (b :: r') :: ys', q1.append (.cons ((List.prefix_cons_inj b).mpr q2) q3), .take h2⟩

end

theorem receivedFrom_cons_got {e : Ev} {tr : List Ev} {s s' : End} {d : Bytes} (h : act e = .got s' d) :
    receivedFrom s (e :: tr) = if s' = s then d :: receivedFrom s tr else receivedFrom s tr := by
  simp only [receivedFrom, acts, List.map_cons, List.filterMap_cons, h]
  split <;> simp_all

theorem received_cons_got {e : Ev} {tr : List Ev} {s' : End} {d : Bytes} (h : act e = .got s' d) : received (e :: tr) = d :: received tr := by
  simp only [received, acts, List.map_cons, List.filterMap_cons, h]

theorem receivedFrom_cons_other {e : Ev} {tr : List Ev} {s : End} (h : ∀ s' d, act e ≠ .got s' d) : receivedFrom s (e :: tr) = receivedFrom s tr := by
  simp only [receivedFrom, acts, List.map_cons, List.filterMap_cons]

theorem received_cons_other {e : Ev} {tr : List Ev} (h : ∀ s' d, act e ≠ .got s' d) : received (e :: tr) = received tr := by
  simp only [received, acts, List.map_cons, List.filterMap_cons]

/-- What is received is a mixture of what comes from the inputs. -/
theorem received_mix {L : List Nat} (hL : L.Nodup) {tr : List Ev} (h : ∀ s d, Act.got s d ∈ acts tr → ∃ ch ∈ L, s = .chan ch) :
    Mix (L.map fun ch => receivedFrom (.chan ch) tr) (received tr) := by
  induction tr with
  | nil => exact .done (by intro l hl; simp only [List.mem_map] at hl; obtain ⟨_, _, rfl⟩ := hl; rfl)
  | cons e tr ih =>
    have ih := ih fun s d hd => h s d (List.mem_cons_of_mem _ hd)
    by_cases hg : ∃ s d, act e = .got s d
    · obtain ⟨s, d, hg⟩ := hg
      obtain ⟨ch, hch, rfl⟩ := h s d (by rw [← hg]; exact List.mem_cons_self)
      obtain ⟨xs, ys, rfl⟩ := List.append_of_mem hch
      have hx : ∀ y ∈ xs, ch ≠ y := by
        rintro y hy rfl
        exact (List.nodup_append.mp hL).2.2 _ hy _ (by simp) rfl
      have hy : ∀ y ∈ ys, ch ≠ y := by
        rintro y hy rfl
        have := (List.nodup_append.mp hL).2.1
        simp only [List.nodup_cons] at this
        exact this.1 hy
      have same : ∀ zs : List Nat, (∀ y ∈ zs, ch ≠ y) → (zs.map fun y => receivedFrom (.chan y) (e :: tr)) = zs.map fun y => receivedFrom (.chan y) tr := by
        intro zs hz
        refine List.map_congr_left fun y hy => ?_
        rw [receivedFrom_cons_got hg, if_neg fun e => hz y hy (End.chan.inj e)]
      rw [List.map_append, List.map_cons] at ih ⊢
      rw [same xs hx, same ys hy, receivedFrom_cons_got hg, if_pos rfl, received_cons_got hg]
      exact .take ih
    · have hg : ∀ s d, act e ≠ .got s d := fun s d h => hg ⟨s, d, h⟩
      rw [received_cons_other hg]
      simpa only [receivedFrom_cons_other hg] using ih

end Verif
