import Verif.Props.Serde
import Verif.Props.Settings
import Verif.Model.Command
/-!
# Configurations that are read are proper, and stay so when edited
-/
namespace Verif

theorem mem_put {α} {m : Map α} {k : Str} {v : α} {y : Str × α} (h : y ∈ m.put k v) : y = (k, v) ∨ y ∈ m := by
  induction m with
  | nil => simp [Map.put, Map.entry] at h; exact Or.inl h
  | cons x m ih =>
    obtain ⟨k', v'⟩ := x
    simp only [Map.put, Map.entry] at h
    split at h
    · rcases List.mem_cons.mp h with h | h
      · exact Or.inl h
      · exact Or.inr (List.mem_cons_of_mem _ h)
    · rcases List.mem_cons.mp h with h | h
      · exact Or.inr (h ▸ List.mem_cons_self ..)
      · rcases ih h with h | h
        · exact Or.inl h
        · exact Or.inr (List.mem_cons_of_mem _ h)

theorem mem_entry {α} {m : Map α} {f : α → α} {new : α} {k : Str} {y : Str × α} (h : y ∈ m.entry f new k) :
    y ∈ m ∨ y = (k, new) ∨ ∃ v, (k, v) ∈ m ∧ y = (k, f v) := by
  induction m with
  | nil => simp [Map.entry] at h; exact Or.inr (Or.inl h)
  | cons x m ih =>
    obtain ⟨k', v'⟩ := x
    simp only [Map.entry] at h
    split at h
    · rename_i e
      subst e
      rcases List.mem_cons.mp h with h | h
      · exact Or.inr (Or.inr ⟨v', List.mem_cons_self .., h⟩)
      · exact Or.inl (List.mem_cons_of_mem _ h)
    · rcases List.mem_cons.mp h with h | h
      · exact Or.inl (h ▸ List.mem_cons_self ..)
      · rcases ih h with h | h | ⟨v, h, e⟩
        · exact Or.inl (List.mem_cons_of_mem _ h)
        · exact Or.inr (Or.inl h)
        · exact Or.inr (Or.inr ⟨v, List.mem_cons_of_mem _ h, e⟩)

/-- What holds of what is put together holds of the result. -/
theorem decodeEntries_inv {α} {put : Str → α → Map α → Map α} {f : Data → Option α} (P : Map α → Prop)
    (hp : ∀ k v m d, f d = some v → P m → P (put k v m)) : ∀ (m : Map Data) (acc r : Map α), P acc → decodeEntries put f m acc = some r → P r := by
  intro m
  induction m with
  | nil => intro acc r ha h; simp [decodeEntries] at h; exact h ▸ ha
  | cons x m ih =>
    obtain ⟨k, d⟩ := x
    intro acc r ha h
    simp only [decodeEntries] at h
    cases hd : f d with
    | none => rw [hd] at h; simp at h
    | some v => rw [hd] at h; exact ih _ _ (hp k v acc d hd ha) h

theorem decodeHash_inv {α} {f : Data → Option α} (Q : α → Prop) (hq : ∀ d v, f d = some v → Q v) {d : Data} {m : Map α} (h : decodeHash f d = some m) :
    m.keys.Nodup ∧ ∀ k v, (k, v) ∈ m → Q v := by
  cases d with
  | record r =>
    refine decodeEntries_inv (fun m => m.keys.Nodup ∧ ∀ k v, (k, v) ∈ m → Q v) ?_ r [] m ⟨by simp [Map.keys], by simp⟩ h
    rintro k v m d hd ⟨h1, h2⟩
    refine ⟨nodup_entry _ _ _ h1, fun k' v' hm => ?_⟩
    rcases mem_put hm with h | h
    · simp at h; rw [h.2]; exact hq d v hd
    · exact h2 _ _ h
  | _ => simp [decodeHash] at h

theorem decodeTree_inv {α} {f : Data → Option α} (Q : α → Prop) (hq : ∀ d v, f d = some v → Q v) {d : Data} {m : Map α} (h : decodeTree f d = some m) :
    m.Sorted ∧ ∀ k v, (k, v) ∈ m → Q v := by
  cases d with
  | record r =>
    refine decodeEntries_inv (fun m => m.Sorted ∧ ∀ k v, m.get k = some v → Q v) ?_ r [] m ⟨by simp [Map.Sorted], by simp [Map.get]⟩ h |>.imp id ?_
    · rintro k v m d hd ⟨h1, h2⟩
      refine ⟨sorted_sortedEntry h1 _ _ _, fun k' v' hm => ?_⟩
      rw [Map.sortedPut, get_sortedEntry h1] at hm
      split at hm
      · have : v = v' := by cases hg : Map.get m k <;> simp [hg] at hm <;> exact hm
        exact this ▸ hq d v hd
      · exact h2 _ _ hm
    · intro hg k v hm
      have hs : m.Sorted := (decodeEntries_inv (fun m => m.Sorted) (fun k v m d _ h1 => sorted_sortedEntry h1 _ _ _) r [] m (by simp [Map.Sorted]) h)
      exact hg k v ((mem_iff_get hs.nodup).mp hm)
  | _ => simp [decodeTree] at h

theorem defaulted_inv {α} {f : Data → Option α} {dflt : α} {r : Map Data} {k : Str} {x : α} (h : defaulted f dflt r k = some x) :
    x = dflt ∨ ∃ d, f d = some x := by
  unfold defaulted at h
  split at h
  · simp at h
  · simp at h; exact Or.inl h.symm
  · exact Or.inr ⟨_, h⟩

theorem optional_inv {α} {f : Data → Option α} {r : Map Data} {k : Str} {x : α} (h : optional f r k = some (some x)) : ∃ d, f d = some x := by
  unfold optional at h
  split at h
  · simp at h
  · simp at h
  · simp at h
  · rename_i d _ _
    cases hd : f d with
    | none => rw [hd] at h; simp at h
    | some y => rw [hd] at h; simp at h; exact ⟨_, h ▸ hd⟩

theorem decodeInput_fits {r : Map Data} {i : InputPort} (h : decodeInput r = some i) : FitsI i.priority := by
  unfold decodeInput at h
  split at h
  · rename_i b p _ hp
    simp at h
    subst h
    cases hr : required r "priority".toList with
    | none => rw [hr] at hp; simp at hp
    | some d =>
      rw [hr] at hp
      cases d with
      | num n =>
        simp only [Option.bind_some, decodeInt] at hp
        split at hp
        · rename_i hn; simp at hp; subst hp; exact hn
        · simp at hp
      | _ => simp [decodeInt] at hp
  · simp at h

theorem decodeConnection_fits {d : Data} {x : Connection} (h : decodeConnection d = some x) : x.Fits := by
  cases d with
  | record r =>
    simp only [decodeConnection] at h
    split at h
    · rename_i c hc
      simp at h; subst h
      unfold decodeMiddle at hc
      split at hc
      · rename_i hi _ _; simp at hc; subst hc; exact decodeInput_fits hi
      · simp at hc
    · split at h
      · rename_i c hc
        simp at h; subst h
        unfold decodeStart at hc
        split at hc
        · simp at hc; subst hc; trivial
        · simp at hc
      · unfold decodeEnd at h
        split at h
        · rename_i hi _; simp at h; subst h; exact decodeInput_fits hi
        · simp at h
  | _ => simp [decodeConnection] at h

theorem decodeEach_inv {α} {f : Data → Option α} (Q : α → Prop) (hq : ∀ d v, f d = some v → Q v) : ∀ {l : List Data} {xs : List α}, decodeEach f l = some xs → ∀ x ∈ xs, Q x := by
  intro l
  induction l with
  | nil => intro xs h; simp [decodeEach] at h; subst h; simp
  | cons d l ih =>
    intro xs h
    simp only [decodeEach] at h
    split at h
    · rename_i x ys h1 h2
      simp at h; subst h
      intro y hy
      rcases List.mem_cons.mp hy with rfl | hy
      · exact hq d _ h1
      · exact ih h2 y hy
    · simp at h

theorem decodeDConn_fits {d : Data} {x : DConn} (h : decodeDConn d = some x) : ∀ l, x = .conns l → ∀ y ∈ l, y.Fits := by
  unfold decodeDConn at h
  split at h
  · simp at h; subst h; simp
  · rintro l rfl
    cases d with
    | list ds =>
      simp only [decodeList] at h
      cases he : decodeEach decodeConnection ds with
      | none => rw [he] at h; simp at h
      | some xs =>
        rw [he] at h; simp at h; subst h
        exact decodeEach_inv Connection.Fits (fun _ _ => decodeConnection_fits) he
    | _ => simp [decodeList] at h

theorem decodeNat_lt {d : Data} {n : Nat} (h : decodeNat d = some n) : n < 2 ^ 64 := by
  cases d with
  | num x =>
    simp only [decodeNat] at h
    split at h
    · rename_i hx; simp at h; omega
    · simp at h
  | _ => simp [decodeNat] at h

theorem decodeRegulator_marks {d : Data} {r : RegulatorConfig} (h : decodeRegulator d = some r) : ∀ a b, r.buffered = some (a, b) → a < 2 ^ 64 ∧ b < 2 ^ 64 := by
  cases d with
  | record m =>
    simp only [decodeRegulator] at h
    split at h
    · rename_i x y hx _
      simp at h; subst h
      rintro a b rfl
      obtain ⟨d, hd⟩ := optional_inv hx
      unfold decodeMarks at hd
      split at hd
      · unfold bothMarks at hd
        split at hd
        · rename_i h1 h2
          simp at hd
          obtain ⟨rfl, rfl⟩ := hd
          exact ⟨decodeNat_lt h1, decodeNat_lt h2⟩
        · simp at hd
      · simp at hd
    · simp at h
  | _ => simp [decodeRegulator] at h

theorem decodeLaunch_env {d : Data} {l : LaunchConfig} (h : decodeLaunch d = some l) : l.env.keys.Nodup := by
  cases d with
  | record m =>
    simp only [decodeLaunch] at h
    split at h
    · rename_i x y e a _ _ he _
      simp at h; subst h
      rcases defaulted_inv he with rfl | ⟨d, hd⟩
      · simp [Map.keys]
      · exact (decodeHash_inv (fun _ => True) (fun _ _ _ => trivial) hd).1
    · simp at h
  | _ => simp [decodeLaunch] at h

/-- Every configuration that can be read is proper. -/
theorem decode_proper {d : Data} {c : Config} (h : decodeConfig d = some c) : c.Proper := by
  cases d with
  | record r =>
    simp only [decodeConfig] at h
    split at h
    · rename_i f g dr l cn hf hg hd hl hc
      simp at h; subst h
      have nil {α} : Map.keys ([] : Map α) = [] := rfl
      have hf' : f.keys.Nodup := by
        rcases defaulted_inv hf with rfl | ⟨d, hd⟩
        · simp [Map.keys]
        · exact (decodeHash_inv (fun _ => True) (fun _ _ _ => trivial) hd).1
      have hd' : dr.keys.Nodup := by
        rcases defaulted_inv hd with rfl | ⟨d, hd⟩
        · simp [Map.keys]
        · exact (decodeHash_inv (fun _ => True) (fun _ _ _ => trivial) hd).1
      have hg' : g.keys.Nodup ∧ ∀ k v, (k, v) ∈ g → ∀ a b, v.buffered = some (a, b) → a < 2 ^ 64 ∧ b < 2 ^ 64 := by
        rcases defaulted_inv hg with rfl | ⟨d, hd⟩
        · simp [Map.keys]
        · exact decodeHash_inv _ (fun _ _ => decodeRegulator_marks) hd
      have hl' : l.keys.Nodup ∧ ∀ k v, (k, v) ∈ l → v.env.keys.Nodup := by
        rcases defaulted_inv hl with rfl | ⟨d, hd⟩
        · simp [Map.keys]
        · exact decodeHash_inv (fun v : LaunchConfig => v.env.keys.Nodup) (fun _ _ => decodeLaunch_env) hd
      have hc' : cn.Sorted ∧ ∀ k v, (k, v) ∈ cn → ∀ l, v = DConn.conns l → ∀ y ∈ l, y.Fits := by
        rcases defaulted_inv hc with rfl | ⟨d, hd⟩
        · simp [Map.Sorted]
        · exact decodeTree_inv _ (fun _ _ => decodeDConn_fits) hd
      exact ⟨hf', hd', hg'.1, hl'.1, hl'.2, hc'.1, fun n r a b hm => hg'.2 n r hm a b, fun k l x hm => hc'.2 k _ hm l rfl x⟩
    · simp at h
  | _ => simp [decodeConfig] at h

/-- What an edit says fits: numbers, names of variables and priorities. -/
def Edit.Fits : Edit → Prop
  | .watermarks _ a b => a < 2 ^ 64 ∧ b < 2 ^ 64
  | .environment _ m => m.keys.Nodup
  | .connections _ d => ∀ l, d = .conns l → ∀ x ∈ l, x.Fits
  | _ => True

theorem Edit.proper {c : Config} (hc : c.Proper) {e : Edit} (he : e.Fits) : (e.run c).Proper := by
  have launch : ∀ (f : LaunchConfig → LaunchConfig) (new : LaunchConfig) (n : Str), (∀ l, (l.env.keys.Nodup → (f l).env.keys.Nodup)) → new.env.keys.Nodup →
      Config.Proper { c with launch := c.launch.entry f new n } := by
    intro f new n h1 h2
    refine ⟨hc.faucet, hc.drain, hc.regulator, nodup_entry _ _ _ hc.launch, ?_, hc.connection, hc.marks, hc.priorities⟩
    intro k l hm
    rcases mem_entry hm with h | h | ⟨v, h, e⟩
    · exact hc.env k l h
    · simp at h; rw [h.2]; exact h2
    · simp at e; rw [e.2]; exact h1 v (hc.env _ _ h)
  cases e with
  | source n s => exact ⟨nodup_entry _ _ _ hc.faucet, hc.drain, hc.regulator, hc.launch, hc.env, hc.connection, hc.marks, hc.priorities⟩
  | destination n s => exact ⟨hc.faucet, nodup_entry _ _ _ hc.drain, hc.regulator, hc.launch, hc.env, hc.connection, hc.marks, hc.priorities⟩
  | watermarks n a b =>
    obtain ⟨ha, hb⟩ := he
    refine ⟨hc.faucet, hc.drain, nodup_entry _ _ _ hc.regulator, hc.launch, hc.env, hc.connection, ?_, hc.priorities⟩
    intro k r x y hm hr
    rcases mem_entry hm with h | h | ⟨v, h, e⟩
    · exact hc.marks k r x y h hr
    · simp at h; rw [h.2] at hr; split at hr <;> simp at hr <;> omega
    · simp at e; rw [e.2] at hr; simp only at hr; split at hr <;> simp at hr <;> omega
  | command n s => exact launch _ _ _ (fun l h => h) (by simp [Map.keys])
  | path n s => exact launch _ _ _ (fun l h => h) (by simp [Map.keys])
  | arguments n s => exact launch _ _ _ (fun l h => h) (by simp [Map.keys])
  | environment n m => exact launch _ _ _ (fun l h => he) he
  | connections k d =>
    refine ⟨hc.faucet, hc.drain, hc.regulator, hc.launch, hc.env, sorted_sortedEntry hc.connection _ _ _, hc.marks, ?_⟩
    intro k' l x hm hx
    have hs := sorted_sortedEntry hc.connection (fun _ => d) d k
    replace hm : (k', DConn.conns l) ∈ c.connection.sortedEntry (fun _ => d) d k := hm
    rw [mem_iff_get hs.nodup, get_sortedEntry hc.connection] at hm
    split at hm
    · have : d = .conns l := by cases hg : Map.get c.connection k <;> simp [hg] at hm <;> exact hm
      exact he l this x hx
    · exact hc.priorities k' l x (mem_of_get hm) hx

end Verif
