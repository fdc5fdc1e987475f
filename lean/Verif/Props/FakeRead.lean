import Verif.Model.FakeRead
import Verif.Props.Split
/-!
# C102: the source of the tests gives what it has, in portions, and messages are written unambiguously
-/
namespace Verif

/-- How many bytes may be read at once into `n`. -/
def atOnce (most : Option Nat) (n : Nat) : Nat := match most with | some m => min n m | none => n

/-- **C102** A read gives the next bytes, as many as there are, as fit, and as are allowed at once; the next one goes on behind them. It never panics. -/
theorem C102_read (r : FakeReader) (h : r.pos ≤ r.src.length) (n : Nat) :
    ∃ b r', r.pollRead n = some (b, r') ∧ r'.src = r.src ∧ r'.maxRead = r.maxRead ∧ r'.pos = r.pos + b.length ∧ r'.pos ≤ r.src.length ∧
      b = (r.src.drop r.pos).take (atOnce r.maxRead n) := by
  obtain ⟨s, p, mx⟩ := r
  simp only at h
  have key : ∀ l : Nat, ((s.drop p).take l).length = min l (s.length - p) := fun l => by simp
  have full : ∀ l, (s.drop p).take l = (s.drop p).take (min l (s.length - p)) := fun l => by
    rw [← List.take_take, ← List.length_drop, List.take_length]
  simp only [FakeReader.pollRead, if_neg (Nat.not_lt.mpr h)]
  have goal : ∀ l a : Nat, a = min l (s.length - p) →
      ∃ b r', (if a = 0 then some ([], (⟨s, p, mx⟩ : FakeReader)) else some ((s.drop p).take a, ⟨s, p + a, mx⟩)) = some (b, r') ∧ r'.src = s ∧ r'.maxRead = mx ∧ r'.pos = p + b.length ∧ r'.pos ≤ s.length ∧
        b = (s.drop p).take l := by
    intro l a ha
    by_cases h0 : a = 0
    · refine ⟨[], _, by rw [if_pos h0], rfl, rfl, rfl, h, ?_⟩
      rw [full l, ← ha, h0]; rfl
    · refine ⟨_, _, by rw [if_neg h0], rfl, rfl, ?_, ?_, ?_⟩
      · simp only [key]; omega
      · simp only; omega
      · rw [full l, ← ha]
  cases mx with
  | none => exact goal n _ (by simp only [Option.getD_none]; split <;> split <;> omega)
  | some m => exact goal (min n m) _ (by simp only [Option.getD_some]; split <;> split <;> omega)

theorem script_portions (mx : Option Nat) (hm : mx ≠ some 0) (s : Bytes) (fuel p : Nat) (hp : p ≤ s.length) (hf : s.length - p < fuel) :
    ∃ chunks, FakeReader.script fuel ⟨s, p, mx⟩ = some chunks ∧ (∀ c ∈ chunks, c ≠ [] ∧ c.length ≤ 255 ∧ ∀ m, mx = some m → c.length ≤ m) ∧ chunks.flatten = s.drop p := by
  induction fuel generalizing p with
  | zero => omega
  | succ fuel ih =>
    obtain ⟨b, r', h1, h2, h3, h4, h5, h6⟩ := C102_read ⟨s, p, mx⟩ hp 255
    simp only at h2 h3 h4 h5 h6
    have pos : 0 < atOnce mx 255 := by
      cases mx with
      | none => simp [atOnce]
      | some m =>
        have : m ≠ 0 := fun h => hm (by rw [h])
        simp only [atOnce]; omega
    have le : b.length ≤ 255 ∧ ∀ m, mx = some m → b.length ≤ m := by
      rw [h6, List.length_take]
      cases mx with
      | none => exact ⟨Nat.min_le_left _ _, fun m h => by cases h⟩
      | some m => exact ⟨by simp only [atOnce]; omega, fun m' h => by cases h; simp only [atOnce]; omega⟩
    cases b with
    | nil =>
      refine ⟨[], by simp only [FakeReader.script, h1], by simp, ?_⟩
      have : (s.drop p).length = 0 := by
        have := congrArg List.length h6
        rw [List.length_take, List.length_nil] at this
        omega
      rw [List.length_eq_zero_iff.mp this]; rfl
    | cons x b =>
      obtain ⟨s', p', mx'⟩ := r'
      simp only at h2 h3 h4 h5
      subst h2 h3
      rw [List.length_cons] at h4
      obtain ⟨cs, k1, k2, k3⟩ := ih p' h5 (by omega)
      refine ⟨(x :: b) :: cs, by simp only [FakeReader.script, h1, k1, Option.map_some], ?_, ?_⟩
      · intro c hc
        rcases List.mem_cons.mp hc with rfl | hc
        · exact ⟨by simp, le⟩
        · exact k2 c hc
      · have e : p' = atOnce mx' 255 + p ∨ s'.length ≤ atOnce mx' 255 + p ∧ p' = s'.length := by
          have := congrArg List.length h6
          rw [List.length_take, List.length_drop, List.length_cons] at this
          omega
        rw [List.flatten_cons, k3, h6]
        rcases e with rfl | ⟨e1, rfl⟩
        · rw [Nat.add_comm, ← List.drop_drop, List.take_append_drop]
        · rw [List.drop_length, List.append_nil, List.take_of_length_le]
          rw [List.length_drop]; omega

/-- **C102** Whatever the text of a test and the size of the portions, what is read through it is the lines of the text, and then the end. So what the tests see of the splitting does not depend on the size
they choose. -/
theorem C102_lines (s : Bytes) (m : Nat) (hm : 0 < m) : ∃ chunks, (FakeReader.newBySize s m).script (s.length + 1) = some chunks ∧ (∀ c ∈ chunks, c.length ≤ m) ∧
    ∀ n, (readTimes n (Stream.new (chunkScript chunks))).1 = ((specLines s).map msg ++ List.replicate n eof).take n := by
  obtain ⟨cs, h1, h2, h3⟩ := script_portions (some m) (by simp; omega) s (s.length + 1) 0 (Nat.zero_le _) (by omega)
  refine ⟨cs, h1, fun c hc => (h2 c hc).2.2 m rfl, fun n => ?_⟩
  rw [C01_messages_are_the_lines cs (fun c hc => (h2 c hc).1) n, h3]
  rfl

/-- **C102** The same without a limit. -/
theorem C102_unlimited (s : Bytes) : ∃ chunks, (FakeReader.new s).script (s.length + 1) = some chunks ∧
    ∀ n, (readTimes n (Stream.new (chunkScript chunks))).1 = ((specLines s).map msg ++ List.replicate n eof).take n := by
  obtain ⟨cs, h1, h2, h3⟩ := script_portions none (by simp) s (s.length + 1) 0 (Nat.zero_le _) (by omega)
  refine ⟨cs, h1, fun n => ?_⟩
  rw [C01_messages_are_the_lines cs (fun c hc => (h2 c hc).1) n, h3]
  rfl

/-- **C102** Messages that are written alike are the same, and the first entry tells which kind it is. -/
theorem C102_written (a b : IOW) (h : a.serialize = b.serialize) : a = b := by
  cases a <;> cases b <;> first | rfl | (simp [IOW.serialize] at h; done) | (simp [IOW.serialize] at h; rw [h])

/-! The text of the test in motion.rs:851, in portions of 16 bytes. -/
example : ((FakeReader.newBySize [72, 111, 119, 115, 32, 121, 111, 117, 63, 13, 10, 71, 114, 101, 97, 116, 44, 32, 73, 32, 104, 97, 100, 32, 98, 105, 103, 32, 108, 117, 110, 99, 104, 33, 10, 87, 111, 119, 33, 10, 89, 101, 115, 33] 16).script 46).map (·.map List.length) = some [16, 16, 12] := by decide +kernel
example : IOW.serialize (.data [1]) ≠ IOW.serialize .finished := by decide

end Verif
