import Verif.Props.Endings
import Verif.Lemmas.Drive
/-!
# C79: what is printed about a failure tells which failure it was
-/
namespace Verif

/-! ## Specification -/

/-- The things that can go wrong, as a user would tell them apart. -/
inductive Trouble where
  | reading | closing | opening | writing | receiving | sending | brokenPipe | nobodyListens | counting | announcing | spying | starting | lacking | panicking
  | noRegulator | noBuffer | noControl
  deriving Repr, DecidableEq

def MErr.trouble : MErr → Trouble
  | .readIO .. => .reading
  | .closeIO .. => .closing
  | .openIO .. => .opening
  | .writeIO .. => .writing
  | .recv .. => .receiving
  | .send .. => .sending
  | .outputClosed _ .brokenPipe _ => .brokenPipe
  | .outputClosed _ .channelClosed _ => .nobodyListens
  | .monitorRead .. => .counting
  | .monitorWrite .. => .announcing
  | .spyWrite .. => .spying
  | .launchSpawn => .starting
  | .noneError => .lacking
  | .panic => .panicking

def WaiterErr.trouble : WaiterErr → Trouble
  | .causedBy _ e _ => e.trouble
  | .settingsForMissingRegulator _ => .noRegulator
  | .settingsRefersMissingBuffer _ _ => .noBuffer
  | .couldNotPause => .noControl
  | .couldNotResume => .noControl

/-- How the description of each trouble begins. -/
def Trouble.lead : Trouble → Str
  | .reading => "MotionError::ReadIOError: ".toList
  | .closing => "MotionError::CloseIOError: ".toList
  | .opening => "MotionError::OpenIOError: ".toList
  | .writing => "MotionError::WriteIOError: ".toList
  | .receiving => "MotionError::RecvError: ".toList
  | .sending => "MotionError::SendError: ".toList
  | .brokenPipe => "MotionError::OutputClosed: BrokenPipe".toList
  | .nobodyListens => "MotionError::OutputClosed: ChannelClosed".toList
  | .counting => "MotionError::MonitorReadError: ".toList
  | .announcing => "MotionError::MonitorWriteError: ".toList
  | .spying => "MotionError::SpyWriteError: ".toList
  | .starting => "MotionError::LaunchSpawnError: Could not run program ".toList
  | .lacking => "MotionError::NoneError: None Error".toList
  | .panicking => []
  | .noRegulator => "There are no settings for Faucet:".toList
  | .noBuffer => "Faucet ".toList
  | .noControl => "CouldNotPause".toList

/-- A name without the signs that separate the parts of a line. -/
def Unseparated (name : Str) : Prop := '|' ∉ name ∧ '-' ∉ name

/-- What is complained of can be told from the text: names without blanks, and names of sets without colons. -/
def LintWarning.Clear : LintWarning → Prop
  | .regulatorWatchingMissingBuffer _ _ name => ' ' ∉ name
  | .inConfigButMissingFlowConnection _ _ name => ' ' ∉ name
  | .inFlowConnectionButMissingConfig _ name => ' ' ∉ name
  | .invalidConnection id _ => ':' ∉ id

/-- The kinds of complaints. -/
inductive Complaint where
  | unused | unconfigured | unreadable | unwatched
  deriving Repr, DecidableEq

def LintWarning.complaint : LintWarning → Complaint
  | .inConfigButMissingFlowConnection .. => .unused
  | .inFlowConnectionButMissingConfig .. => .unconfigured
  | .invalidConnection .. => .unreadable
  | .regulatorWatchingMissingBuffer .. => .unwatched

/-- What a complaint is about, as a user has written it. -/
def LintWarning.about : LintWarning → Str
  | .inConfigButMissingFlowConnection _ ty name => ty.text ++ ':' :: name
  | .inFlowConnectionButMissingConfig ty name => ty.text ++ ':' :: name
  | .invalidConnection id join => id ++ ':' :: join
  | .regulatorWatchingMissingBuffer _ ty name => ty.text ++ ':' :: name

/-- How complaints of each kind begin. -/
def Complaint.lead : Complaint → Str
  | .unused => "PA: Error: 0001: ".toList
  | .unconfigured => "PA: Error: 0002: ".toList
  | .unreadable => "PA: Error: 0003: ".toList
  | .unwatched => "PA: Error: 0004: ".toList

/-! ## Cutting texts -/

theorem cut_first {c : Char} : ∀ {a a' x x' : Str}, c ∉ a → c ∉ a' → a ++ c :: x = a' ++ c :: x' → a = a' ∧ x = x'
  | [], [], _, _, _, _, h => by simpa using h
  | [], d :: a', _, _, _, h2, h => by
    simp only [List.nil_append, List.cons_append, List.cons.injEq] at h
    exact absurd (h.1 ▸ List.mem_cons_self) h2
  | d :: a, [], _, _, h1, _, h => by
    simp only [List.nil_append, List.cons_append, List.cons.injEq] at h
    exact absurd (h.1 ▸ List.mem_cons_self) h1
  | d :: a, d' :: a', x, x', h1, h2, h => by
    simp only [List.cons_append, List.cons.injEq] at h
    obtain ⟨e1, e2⟩ := cut_first (a := a) (a' := a') (fun hm => h1 (List.mem_cons_of_mem _ hm)) (fun hm => h2 (List.mem_cons_of_mem _ hm)) h.2
    exact ⟨by rw [h.1, e1], e2⟩

/-- The two differ at a place they both have. -/
def Apart' (a b : Str) : Bool := (a.zip b).any fun p => p.1 != p.2

theorem apart_ne : ∀ {a b x y : Str}, Apart' a b = true → a ++ x ≠ b ++ y
  | [], _, _, _, h => by simp [Apart'] at h
  | _ :: _, [], _, _, h => by simp [Apart'] at h
  | c :: a, d :: b, x, y, h => by
    intro e
    simp only [List.cons_append, List.cons.injEq] at e
    unfold Apart' at h
    simp only [List.zip_cons_cons, List.any_cons, Bool.or_eq_true, bne_iff_ne] at h
    rcases h with h | h
    · exact h e.1
    · exact apart_ne (a := a) (b := b) h e.2

/-! ## Descriptions -/

def Trouble.all : List Trouble := [.reading, .closing, .opening, .writing, .receiving, .sending, .brokenPipe, .nobodyListens, .counting, .announcing, .spying, .starting,
  .lacking, .panicking, .noRegulator, .noBuffer, .noControl]

theorem Trouble.mem_all (t : Trouble) : t ∈ Trouble.all := by cases t <;> simp [Trouble.all]

theorem leads_apart (t t' : Trouble) (ht : t ≠ .panicking) (ht' : t' ≠ .panicking) (h : t ≠ t') : Apart' t.lead t'.lead = true := by
  have key : ∀ t ∈ Trouble.all, ∀ t' ∈ Trouble.all, t ≠ .panicking → t' ≠ .panicking → t ≠ t' → Apart' t.lead t'.lead = true := by decide +kernel
  exact key t t.mem_all t' t'.mem_all ht ht' h

theorem lead_display (reason : MErr → Str) (e : MErr) : ∃ x, e.display reason = e.trouble.lead ++ x := by
  cases e with
  | outputClosed j why d => cases why <;> exact ⟨[], by unfold MErr.display MErr.trouble Trouble.lead; rw [List.append_nil]⟩
  | noneError => exact ⟨[], by unfold MErr.display MErr.trouble Trouble.lead; rw [List.append_nil]⟩
  | panic => exact ⟨[], rfl⟩
  | _ => unfold MErr.display MErr.trouble Trouble.lead; exact ⟨_, rfl⟩

/-- **C79** The description of an error begins with the words for what went wrong. -/
theorem C79_begins (reason : MErr → Str) (e : WaiterErr) : ∃ x, e.description (MErr.display reason) = e.trouble.lead ++ x := by
  cases e with
  | causedBy r e t => exact lead_display reason e
  | settingsForMissingRegulator s => exact ⟨s, by unfold WaiterErr.description WaiterErr.trouble Trouble.lead; rfl⟩
  | settingsRefersMissingBuffer f b =>
    exact ⟨f ++ (" refers to buffer ".toList ++ (b ++ " which does not exist".toList)), by unfold WaiterErr.description WaiterErr.trouble Trouble.lead; simp only [List.append_assoc]⟩
  | couldNotPause => exact ⟨[], by unfold WaiterErr.description WaiterErr.trouble Trouble.lead; rw [List.append_nil]⟩
  | couldNotResume => exact ⟨[], by unfold WaiterErr.description WaiterErr.trouble Trouble.lead; rw [List.append_nil]⟩

/-- **C79** The description of an error tells what went wrong, whatever the operating system says about it. -/
theorem C79_kind {reason reason' : MErr → Str} {e e' : WaiterErr} (he : e.trouble ≠ .panicking) (he' : e'.trouble ≠ .panicking)
    (h : e.description (MErr.display reason) = e'.description (MErr.display reason')) : e.trouble = e'.trouble := by
  obtain ⟨x, hx⟩ := C79_begins reason e
  obtain ⟨y, hy⟩ := C79_begins reason' e'
  rw [hx, hy] at h
  by_cases ht : e.trouble = e'.trouble
  · exact ht
  · exact absurd h (apart_ne (leads_apart _ _ he he' ht))

/-! ## Strings in quotes -/

theorem hexDigit_inj : ∀ {a b : Nat}, a < 16 → b < 16 → hexDigit a = hexDigit b → a = b := by
  have : ∀ a : Fin 16, ∀ b : Fin 16, hexDigit a.1 = hexDigit b.1 → a = b := by decide +kernel
  intro a b ha hb h
  exact congrArg Fin.val (this ⟨a, ha⟩ ⟨b, hb⟩ h)

theorem hexText_ne (n : Nat) : hexText n ≠ [] := by
  unfold hexText
  split <;> simp

theorem hexText_inj (a b : Nat) (h : hexText a = hexText b) : a = b := by
  induction a using Nat.strongRecOn generalizing b with
  | _ a ih =>
    rw [hexText.eq_def a, hexText.eq_def b] at h
    split at h <;> split at h
    · rename_i h1 h2
      exact hexDigit_inj h1 h2 (by simpa using h)
    · have := congrArg List.length h
      have hp : 0 < (hexText (b / 16)).length := List.length_pos_iff.mpr (hexText_ne _)
      rw [List.length_append, List.length_singleton, List.length_singleton] at this
      omega
    · have := congrArg List.length h
      have hp : 0 < (hexText (a / 16)).length := List.length_pos_iff.mpr (hexText_ne _)
      rw [List.length_append, List.length_singleton, List.length_singleton] at this
      omega
    · rename_i h1 h2
      obtain ⟨e1, e2⟩ := List.append_inj' h rfl
      have := ih (a / 16) (by omega) _ e1
      have := hexDigit_inj (by omega) (by omega) (List.cons.inj e2).1
      omega

theorem hexText_digits (n : Nat) : '}' ∉ hexText n := by
  have hd : ∀ a : Fin 16, hexDigit a.1 ≠ '}' := by decide +kernel
  induction n using Nat.strongRecOn with
  | _ n ih =>
    rw [hexText]
    split
    · rename_i h
      intro hm
      exact hd ⟨n, h⟩ (by simpa using (List.mem_singleton.mp hm).symm)
    · intro hm
      rcases List.mem_append.mp hm with hm | hm
      · exact ih _ (by omega) hm
      · exact hd ⟨n % 16, Nat.mod_lt _ (by omega)⟩ (List.mem_singleton.mp hm).symm

/-- A character is written as itself, or as a backslash and something that tells which it is. -/
theorem debugChar_cases (shown : Char → Bool) (c : Char) :
    (debugChar shown c = [c] ∧ c ≠ '\\' ∧ c ≠ '"') ∨
    (c ∈ ['\x00', '\t', '\r', '\n', '"', '\\'] ∧ ∃ d, d ≠ 'u' ∧ debugChar shown c = ['\\', d] ∧
      (c, d) ∈ [('\x00', '0'), ('\t', 't'), ('\r', 'r'), ('\n', 'n'), ('"', '"'), ('\\', '\\')]) ∨
    debugChar shown c = '\\' :: 'u' :: '{' :: (hexText c.toNat ++ ['}']) := by
  unfold debugChar
  split
  · rename_i h; subst h; exact Or.inr (Or.inl ⟨by simp, '0', by decide, rfl, by simp⟩)
  split
  · rename_i h; subst h; exact Or.inr (Or.inl ⟨by simp, 't', by decide, rfl, by simp⟩)
  split
  · rename_i h; subst h; exact Or.inr (Or.inl ⟨by simp, 'r', by decide, rfl, by simp⟩)
  split
  · rename_i h; subst h; exact Or.inr (Or.inl ⟨by simp, 'n', by decide, rfl, by simp⟩)
  split
  · rename_i h; subst h; exact Or.inr (Or.inl ⟨by simp, '"', by decide, rfl, by simp⟩)
  split
  · rename_i h; subst h; exact Or.inr (Or.inl ⟨by simp, '\\', by decide, rfl, by simp⟩)
  split
  · rename_i h1 h2 _; exact Or.inl ⟨rfl, h2, h1⟩
  · exact Or.inr (Or.inr rfl)

theorem debugChar_cut {shown : Char → Bool} {c c' : Char} {x x' : Str} (h : debugChar shown c ++ x = debugChar shown c' ++ x') : c = c' ∧ x = x' := by
  rcases debugChar_cases shown c with ⟨e, n1, _⟩ | ⟨_, d, nd, e, hd⟩ | e <;> rcases debugChar_cases shown c' with ⟨e', n1', _⟩ | ⟨_, d', nd', e', hd'⟩ | e' <;>
    rw [e, e'] at h
  · simpa using h
  · simp at h; exact absurd h.1 n1
  · simp at h; exact absurd h.1 n1
  · simp at h; exact absurd h.1.symm n1'
  · simp at h
    obtain ⟨h1, h2⟩ := h
    subst h1
    refine ⟨?_, h2⟩
    simp only [List.mem_cons, Prod.mk.injEq, List.not_mem_nil, or_false] at hd hd'
    rcases hd with ⟨rfl, h⟩ | ⟨rfl, h⟩ | ⟨rfl, h⟩ | ⟨rfl, h⟩ | ⟨rfl, h⟩ | ⟨rfl, h⟩ <;> rcases hd' with ⟨rfl, h'⟩ | ⟨rfl, h'⟩ | ⟨rfl, h'⟩ | ⟨rfl, h'⟩ | ⟨rfl, h'⟩ | ⟨rfl, h'⟩ <;>
      first | rfl | (rw [h] at h'; exact absurd h' (by decide))
  · simp at h; exact absurd h.1 nd
  · simp at h; exact absurd h.1.symm n1'
  · simp at h; exact absurd h.1.symm nd'
  · simp only [List.cons_append, List.cons.injEq, true_and, List.append_assoc, List.nil_append] at h
    obtain ⟨h1, h2⟩ := cut_first (hexText_digits _) (hexText_digits _) h
    exact ⟨Char.toNat_inj.mp (hexText_inj _ _ h1), h2⟩

theorem debugChar_quote {shown : Char → Bool} {c : Char} {x y : Str} : debugChar shown c ++ x ≠ '"' :: y := by
  rcases debugChar_cases shown c with ⟨e, _, n⟩ | ⟨_, d, _, e, _⟩ | e <;> rw [e] <;> simp
  intro h
  exact absurd h n

/-- **C79** A text written in quotes can be told from it. -/
theorem C79_quoted (shown : Char → Bool) : ∀ {s t : Str}, debugText shown s = debugText shown t → s = t := by
  have key : ∀ {s t : Str}, s.flatMap (debugChar shown) ++ ['"'] = t.flatMap (debugChar shown) ++ ['"'] → s = t := by
    intro s
    induction s with
    | nil =>
      intro t h
      cases t with
      | nil => rfl
      | cons c t =>
        simp only [List.flatMap_nil, List.nil_append, List.flatMap_cons, List.append_assoc] at h
        exact absurd h.symm debugChar_quote
    | cons c s ih =>
      intro t h
      cases t with
      | nil =>
        simp only [List.flatMap_nil, List.nil_append, List.flatMap_cons, List.append_assoc] at h
        exact absurd h debugChar_quote
      | cons c' t =>
        simp only [List.flatMap_cons, List.append_assoc] at h
        obtain ⟨rfl, h2⟩ := debugChar_cut h
        rw [ih h2]
  intro s t h
  exact key (List.cons.inj h).2

/-! ## Lines -/

theorem typeText_plain (t : ComponentType) : '|' ∉ t.text ∧ '-' ∉ t.text ∧ ':' ∉ t.text ∧ ' ' ∉ t.text := by
  cases t <;> decide +kernel

theorem typeText_inj {t t' : ComponentType} (h : t.text = t'.text) : t = t' := by
  cases t <;> cases t' <;> first | rfl | exact absurd h (by decide +kernel)

/-- **C79** A component can be told from its text. -/
theorem C79_component {r r' : CompRef} (h : componentText r = componentText r') : r = r' := by
  obtain ⟨t, n⟩ := r
  obtain ⟨t', n'⟩ := r'
  obtain ⟨h1, h2⟩ := cut_first (typeText_plain t).2.2.1 (typeText_plain t').2.2.1 h
  dsimp only at h1 h2
  rw [typeText_inj h1, h2]

theorem componentText_unseparated {r : CompRef} (h : Unseparated r.2) : Unseparated (componentText r) := by
  obtain ⟨h1, h2, _⟩ := typeText_plain r.1
  constructor <;> simp [componentText, h1, h2, h.1, h.2]

theorem reportEnds_unseparated {names : Table Nat CompRef} (hn : ∀ i r, names.get i = some r → Unseparated r.2) {e : WaiterErr}
    (he : ∀ r, e.component = some r → Unseparated r.2) : Unseparated (reportEnds names e).1 ∧ Unseparated (reportEnds names e).2 := by
  have hs : ∀ r, motionSrc names e = some r → Unseparated r.2 := by
    intro r h
    unfold motionSrc at h
    split at h
    · exact hn _ _ h
    · cases h
  have hd : ∀ r, motionDst names e = some r → Unseparated r.2 := by
    intro r h
    unfold motionDst at h
    split at h
    · exact hn _ _ h
    · cases h
  have u1 : Unseparated "Unknown Destination".toList := by unfold Unseparated; decide +kernel
  have u2 : Unseparated "Unknown Source".toList := by unfold Unseparated; decide +kernel
  unfold reportEnds
  split
  · rename_i h1 h2
    exact ⟨componentText_unseparated (hs _ h1), componentText_unseparated (hd _ h2)⟩
  · rename_i h1 h2
    exact ⟨componentText_unseparated (hs _ h1), u1⟩
  · rename_i h1 h2
    exact ⟨componentText_unseparated (he _ h1), u1⟩
  · exact ⟨u2, u1⟩

/-- **C79** The line printed about an error tells both ends it is about and what went wrong. -/
theorem C79_line {reason : MErr → Str} {quote : Str → Str} {names : Table Nat CompRef} (hq : ∀ s t, quote s = quote t → s = t)
    (hn : ∀ i r, names.get i = some r → Unseparated r.2) {e e' : WaiterErr} (he : ∀ r, e.component = some r → Unseparated r.2)
    (he' : ∀ r, e'.component = some r → Unseparated r.2) (hp : e.trouble ≠ .panicking) (hp' : e'.trouble ≠ .panicking)
    (h : errorText (MErr.display reason) quote names e = errorText (MErr.display reason) quote names e') :
    reportEnds names e = reportEnds names e' ∧ e.trouble = e'.trouble := by
  obtain ⟨a1, a2⟩ := reportEnds_unseparated hn he
  obtain ⟨b1, b2⟩ := reportEnds_unseparated hn he'
  unfold errorText at h
  have t1 : " | ".toList = [' ', '|', ' '] := by decide +kernel
  have t2 : " - ".toList = [' ', '-', ' '] := by decide +kernel
  rw [t1, t2] at h
  simp only [List.append_assoc, List.cons_append, List.nil_append] at h
  have h' : ((reportEnds names e).1 ++ [' ']) ++ '|' :: (' ' :: ((reportEnds names e).2 ++ ' ' :: '-' :: ' ' :: quote (e.description (MErr.display reason)))) =
      ((reportEnds names e').1 ++ [' ']) ++ '|' :: (' ' :: ((reportEnds names e').2 ++ ' ' :: '-' :: ' ' :: quote (e'.description (MErr.display reason)))) := by
    simpa using h
  obtain ⟨k1, k2⟩ := cut_first (by simp [a1.1]) (by simp [b1.1]) h'
  have k1' := (List.append_inj' k1 rfl).1
  have k2' : ((reportEnds names e).2 ++ [' ']) ++ '-' :: (' ' :: quote (e.description (MErr.display reason))) =
      ((reportEnds names e').2 ++ [' ']) ++ '-' :: (' ' :: quote (e'.description (MErr.display reason))) := by
    simpa using (List.cons.inj k2).2
  obtain ⟨k3, k4⟩ := cut_first (by simp [a2.2]) (by simp [b2.2]) k2'
  have k3' := (List.append_inj' k3 rfl).1
  exact ⟨Prod.ext k1' k3', C79_kind hp hp' (hq _ _ (List.cons.inj k4).2)⟩

/-- **C79 does not go further**: pausing and resuming that failed are described alike, and the line about a failed write to a drain is the same whatever was written. -/
theorem C79_refuted : ¬ ∀ (disp : MErr → Str) (e e' : WaiterErr), e.description disp = e'.description disp → e = e' := by
  intro h
  exact absurd (h (fun _ => []) .couldNotPause .couldNotResume rfl) (by simp)

/-! ## Complaints -/

theorem named_cut {t t' : ComponentType} {n n' x x' : Str} (hn : ' ' ∉ n) (hn' : ' ' ∉ n') (h : t.text ++ ':' :: n ++ ' ' :: x = t'.text ++ ':' :: n' ++ ' ' :: x') :
    t = t' ∧ n = n' ∧ x = x' := by
  have h1 := (typeText_plain t).2.2
  have h2 := (typeText_plain t').2.2
  obtain ⟨e1, e2⟩ := cut_first (c := ' ') (by simp [h1.2, hn]) (by simp [h2.2, hn']) h
  obtain ⟨e3, e4⟩ := cut_first h1.1 h2.1 e1
  exact ⟨typeText_inj e3, e4, e2⟩

theorem sectioned_cut {q q2 q3 : Str} {t t' : ComponentType} {n n' x x' : Str} (hn : ' ' ∉ n) (hn' : ' ' ∉ n')
    (h : q ++ t.text ++ ':' :: n ++ ' ' :: q2 ++ x ++ q3 = q ++ t'.text ++ ':' :: n' ++ ' ' :: q2 ++ x' ++ q3) : t = t' ∧ n = n' ∧ x = x' := by
  have h' : t.text ++ ':' :: n ++ ' ' :: (q2 ++ (x ++ q3)) = t'.text ++ ':' :: n' ++ ' ' :: (q2 ++ (x' ++ q3)) := by
    simp only [List.append_assoc, List.cons_append, List.append_cancel_left_eq] at h ⊢
    exact h
  obtain ⟨rfl, rfl, e⟩ := named_cut hn hn' h'
  exact ⟨rfl, rfl, List.append_cancel_right (List.append_cancel_left e)⟩

theorem missing_cut {q q2 : Str} {t t' : ComponentType} {n n' : Str} (hn : ' ' ∉ n) (hn' : ' ' ∉ n')
    (h : q ++ t.text ++ ':' :: n ++ ' ' :: q2 = q ++ t'.text ++ ':' :: n' ++ ' ' :: q2) : t = t' ∧ n = n' := by
  have h' : t.text ++ ':' :: n ++ ' ' :: q2 = t'.text ++ ':' :: n' ++ ' ' :: q2 := by
    simp only [List.append_assoc, List.cons_append, List.append_cancel_left_eq] at h ⊢
    exact h
  obtain ⟨rfl, rfl, _⟩ := named_cut hn hn' h'
  exact ⟨rfl, rfl⟩

theorem set_cut {q q2 i i' j j' : Str} (hi : ':' ∉ i) (hi' : ':' ∉ i') (h : q ++ i ++ ':' :: j ++ q2 = q ++ i' ++ ':' :: j' ++ q2) : i = i' ∧ j = j' := by
  have h' : i ++ ':' :: (j ++ q2) = i' ++ ':' :: (j' ++ q2) := by
    simp only [List.append_assoc, List.cons_append, List.append_cancel_left_eq] at h ⊢
    exact h
  obtain ⟨rfl, e⟩ := cut_first hi hi' h'
  exact ⟨rfl, List.append_cancel_right e⟩

/-- **C79** A complaint begins with its number and then says what it is about. -/
theorem C79_complaint (w : LintWarning) : w.complaint.lead ++ w.about <+: w.text := by
  cases w <;> unfold LintWarning.complaint LintWarning.about Complaint.lead LintWarning.text <;> refine ⟨?_, ?_⟩ <;>
    first
    | (rename_i sec ty name
       exact " - Configuration exists in ".toList ++ (sec ++ ", but this is not referenced in the connections".toList))
    | skip
  · simp only [List.append_assoc]
  · simp only [List.append_assoc]
  · exact " - Is referenced in the flow connections, but is missing required configuration".toList
  · simp only [List.append_assoc]
  · exact " - Could not be converted from the configuration".toList
  · simp only [List.append_assoc]

/-- **C79** A complaint about a configuration tells what is complained of: the kind always, and everything if the names are as they should be. -/
theorem C79_lint {w w' : LintWarning} (h : w.text = w'.text) : w.complaint = w'.complaint ∧ (w.Clear → w'.Clear → w = w') := by
  have b1 : " - Configuration exists in ".toList = ' ' :: "- Configuration exists in ".toList := by decide +kernel
  have b2 : " - Is referenced in the flow connections, but is missing required configuration".toList =
    ' ' :: "- Is referenced in the flow connections, but is missing required configuration".toList := by decide +kernel
  cases w <;> cases w' <;>
    first
    | (refine absurd h ?_
       unfold LintWarning.text
       simp only [List.append_assoc]
       exact apart_ne (by decide +kernel))
    | refine ⟨rfl, fun hc hc' => ?_⟩
  · unfold LintWarning.text at h
    rw [b1] at h
    obtain ⟨rfl, rfl, rfl⟩ := sectioned_cut hc hc' h
    rfl
  · unfold LintWarning.text at h
    rw [b1] at h
    obtain ⟨rfl, rfl, rfl⟩ := sectioned_cut hc hc' h
    rfl
  · unfold LintWarning.text at h
    rw [b2] at h
    obtain ⟨rfl, rfl⟩ := missing_cut hc hc' h
    rfl
  · unfold LintWarning.text at h
    obtain ⟨rfl, rfl⟩ := set_cut hc hc' h
    rfl

/-- **C79 needs the names to be so**: of a set whose name has a colon one cannot tell what it is called and what is in it. -/
theorem C79_lint_refuted : ¬ ∀ w w' : LintWarning, w.text = w'.text → w = w' := by
  intro h
  have := h (.invalidConnection "a:b".toList "c".toList) (.invalidConnection "a".toList "b:c".toList) (by decide +kernel)
  revert this
  decide +kernel

/-! ## Examples -/

/-- Two errors of writing at the same pipe, by different causes, and one of reading: the first two lines agree in all but the reason, the third can be told from them. -/
example : let names : Table Nat CompRef := [(0, (.faucet, "tap".toList)), (1, (.drain, "tub".toList))]
    let line := errorText (MErr.display fun e => match e with | .writeIO _ 28 _ => "full".toList | _ => "gone".toList) (debugText fun _ => true) names
    line (.causedBy (.drain, "tub".toList) (.writeIO ⟨0, none, 1, .terminate⟩ 28 [104]) 5) = "Faucet:tap | Drain:tub - \"MotionError::WriteIOError: full\"".toList ∧
    line (.causedBy (.drain, "tub".toList) (.writeIO ⟨0, none, 1, .terminate⟩ 5 [104]) 6) = "Faucet:tap | Drain:tub - \"MotionError::WriteIOError: gone\"".toList ∧
    line (.causedBy (.faucet, "tap".toList) (.readIO ⟨0, 1⟩ 5) 6) = "Faucet:tap | Unknown Destination - \"MotionError::ReadIOError: gone\"".toList := by
  decide +kernel

/-- These names are as C79_line wants them. -/
example : ∀ i r, Table.get ([(0, (.faucet, "tap".toList)), (1, (.drain, "tub".toList))] : Table Nat CompRef) i = some r → Unseparated r.2 := by
  intro i r h
  have := Table.get_mem h
  simp only [List.mem_cons, Prod.mk.injEq, List.not_mem_nil, or_false] at this
  rcases this with ⟨_, rfl⟩ | ⟨_, rfl⟩ <;> unfold Unseparated <;> decide +kernel

/-- The standard library writes other signs in quotes so that they can be told apart. -/
example : debugText (fun c => c.toNat < 127) ['a', '"', '\\', '\n', 'é'] = "\"a\\\"\\\\\\n\\u{e9}\"".toList := by decide +kernel

example : (LintWarning.inFlowConnectionButMissingConfig .launch "grep".toList).Clear := by unfold LintWarning.Clear; decide +kernel

end Verif
