import Verif.Platform.Guess
/-!
# guess_platform

C131.
-/
namespace Verif.Platform.Guess

/-! ## Specification -/

/-- `special` is a kind of `general` -/
def Kind (special general : String) : Prop :=
  (special, general) ∈ [("linux", "posix"), ("solaris", "posix"), ("sunos", "solaris"), ("irix", "posix"), ("irix64", "irix"),
    ("bsd", "posix"), ("freebsd", "bsd"), ("netbsd", "bsd"), ("openbsd", "bsd"), ("darwin", "bsd"), ("macosx", "darwin"),
    ("iphone", "darwin"), ("simulator", "iphone"), ("cygwin", "windows"), ("nocygwin", "cygwin"), ("mingw", "windows"),
    ("win32", "windows"), ("win64", "windows"), ("nt", "win32")]

instance (a b : String) : Decidable (Kind a b) := inferInstanceAs (Decidable (_ ∈ _))

/-- names that are names of systems and of what platform options are given for -/
def Canonical (name : String) : Prop :=
  name ∈ ["irix", "irix64", "posix", "linux", "solaris", "sunos", "cygwin", "nocygwin", "mingw", "windows", "nt", "win32", "win64",
    "freebsd", "netbsd", "openbsd", "darwin", "iphone"]

instance (a : String) : Decidable (Canonical a) := inferInstanceAs (Decidable (_ ∈ _))

/-- blanks and ends of lines -/
def White (s : Text) : Prop := ∀ c ∈ s, c = ' ' ∨ c = '\n' ∨ c = '\r' ∨ c = '\t'

/-- a name without blanks at its ends -/
def Trimmed (s : Text) : Prop := ∀ c, s.head? = some c ∨ s.getLast? = some c → blank c = false

/-! ## Proofs -/

theorem lookup_mem {α β : Type} [BEq α] [LawfulBEq α] {l : List (α × β)} {a : α} {b : β} (h : l.lookup a = some b) : (a, b) ∈ l := by
  induction l with
  | nil => cases h
  | cons x l ih =>
    obtain ⟨y, z⟩ := x
    rw [List.lookup_cons] at h
    split at h
    · rename_i he
      cases h
      rw [eq_of_beq he]
      exact .head _
    · exact .tail _ (ih h)

/-- every platform that is returned is one of the table -/
theorem guess_table {s : System} {arch : Option Text} {p : List Text} (h : guess s arch = .platform p) : ∃ a, (a, p) ∈ archmap := by
  have key : ∀ a, ofArch a = .platform p → ∃ a, (a, p) ∈ archmap := by
    intro a ha
    unfold ofArch at ha
    simp only at ha
    split at ha
    · cases ha
    · rename_i hl
      cases ha
      exact ⟨_, lookup_mem hl⟩
  unfold guess at h
  split at h
  · exact key _ h
  · split at h
    · split at h
      · cases h
      · rename_i hl
        cases h
        exact ⟨_, lookup_mem hl⟩
    · exact key _ h

/-! ## C131 -/

/-- **C131**: a platform has the names of everything that it is a kind of, so options for `posix` also hold for `linux`. -/
theorem C131_kinds {s : System} {arch : Option Text} {p : List Text} (h : guess s arch = .platform p) (special general : String)
    (hk : Kind special general) (hs : special.toList ∈ p) : general.toList ∈ p := by
  obtain ⟨a, ha⟩ := guess_table h
  have key : ∀ x ∈ archmap, ∀ k ∈ [("linux", "posix"), ("solaris", "posix"), ("sunos", "solaris"), ("irix", "posix"), ("irix64", "irix"),
    ("bsd", "posix"), ("freebsd", "bsd"), ("netbsd", "bsd"), ("openbsd", "bsd"), ("darwin", "bsd"), ("macosx", "darwin"),
    ("iphone", "darwin"), ("simulator", "iphone"), ("cygwin", "windows"), ("nocygwin", "cygwin"), ("mingw", "windows"),
    ("win32", "windows"), ("win64", "windows"), ("nt", "win32")], k.1.toList ∈ x.2 → k.2.toList ∈ x.2 := by decide +kernel
  exact key _ ha _ hk hs

/-- **C131**: a platform is POSIX or Windows. -/
theorem C131_posix {s : System} {arch : Option Text} {p : List Text} (h : guess s arch = .platform p) :
    "posix".toList ∈ p ∨ "windows".toList ∈ p := by
  obtain ⟨a, ha⟩ := guess_table h
  have key : ∀ x ∈ archmap, "posix".toList ∈ x.2 ∨ "windows".toList ∈ x.2 := by decide +kernel
  exact key _ ha

/-- **C131**: the platform of a system has its name. -/
theorem C131_name (s : System) (name : String) (hn : Canonical name) :
    ∃ p, guess s (some name.toList) = .platform p ∧ name.toList ∈ p := by
  have key : ∀ name ∈ ["irix", "irix64", "posix", "linux", "solaris", "sunos", "cygwin", "nocygwin", "mingw", "windows", "nt", "win32",
      "win64", "freebsd", "netbsd", "openbsd", "darwin", "iphone"],
      ((archmap.lookup (if "mingw32".toList.isPrefixOf name.toList then "mingw".toList
        else if "cygwin".toList.isPrefixOf name.toList then "cygwin".toList else name.toList)).map
          (fun p => decide (name.toList ∈ p))) = some true := by decide +kernel
  have := key name hn
  unfold guess ofArch
  simp only
  split
  · rename_i hl
    rw [hl] at this
    cases this
  · rename_i p hl
    rw [hl] at this
    exact ⟨p, rfl, by simpa using this⟩

theorem white_blank {s : Text} (h : White s) : ∀ c ∈ s, blank c = true := by
  intro c hc
  rcases h c hc with rfl | rfl | rfl | rfl <;> decide

theorem dropWhile_white {b s : Text} (hb : ∀ c ∈ b, blank c = true) (hs : ∀ c, s.head? = some c → blank c = false) :
    (b ++ s).dropWhile blank = s := by
  induction b with
  | nil =>
    cases s with
    | nil => rfl
    | cons c s => simp [hs c rfl]
  | cons c b ih =>
    simp only [List.cons_append, List.dropWhile_cons, hb c (.head _), if_true]
    exact ih fun x hx => hb x (.tail _ hx)

theorem strip_white {a b s : Text} (ha : White a) (hb : White b) (hs : Trimmed s) : strip (a ++ s ++ b) = s := by
  unfold strip
  by_cases hne : s = []
  · subst hne
    have : (a ++ [] ++ b).dropWhile blank = [] := by
      rw [List.append_nil, ← List.append_nil (a ++ b)]
      refine dropWhile_white ?_ (by simp)
      intro c hc
      rcases List.mem_append.mp hc with h | h
      · exact white_blank ha c h
      · exact white_blank hb c h
    rw [this]
    rfl
  · rw [List.append_assoc, dropWhile_white (white_blank ha), List.reverse_append, dropWhile_white, List.reverse_reverse]
    · intro c hc
      exact white_blank hb c (List.mem_reverse.mp hc)
    · intro c hc
      rw [List.head?_reverse] at hc
      exact hs c (.inr hc)
    · intro c hc
      cases s with
      | nil => exact absurd rfl hne
      | cons x s => exact hs c (.inl hc)

/-- **C131**: what `uname -s` prints counts, in upper or lower case; blanks around it do not matter. -/
theorem C131_uname (s : System) (hnt : s.nt = false) (before name after : Text) (h1 : White before) (h2 : White after)
    (h3 : Trimmed name) (hu : s.uname = .prints (before ++ name ++ after)) :
    guess s none = guess s (some (name.map Char.toLower)) := by
  unfold guess System.arch
  simp only [hnt, hu, strip_white h1 h2 h3, lower]
  rfl

/-- **C131**: without `uname`, and if it fails, the name that Python knows counts. -/
theorem C131_python (s : System) (hnt : s.nt = false) (hu : s.uname = .missing ∨ s.uname = .fails) :
    guess s none = guess s (some (s.system.map Char.toLower)) := by
  unfold guess System.arch
  rcases hu with hu | hu <;> simp only [hnt, hu, lower] <;> rfl

/-- **C131**: Cygwin and MinGW put their version behind the name. -/
theorem C131_version (s : System) (version : Text) :
    guess s (some ("cygwin".toList ++ version)) = .platform ["posix".toList, "cygwin".toList, "windows".toList] ∧
    guess s (some ("mingw32".toList ++ version)) = .platform ["posix".toList, "mingw".toList, "windows".toList] := by
  have h1 : "cygwin".toList.isPrefixOf ("cygwin".toList ++ version) = true := by simp
  have h2 : "mingw32".toList.isPrefixOf ("mingw32".toList ++ version) = true := by simp
  have h3 : "mingw32".toList.isPrefixOf ("cygwin".toList ++ version) = false := by
    show List.isPrefixOf ('m' :: _) ('c' :: _) = false
    rw [List.isPrefixOf_cons₂]
    rfl
  have h4 : archmap.lookup "cygwin".toList = some ["posix".toList, "cygwin".toList, "windows".toList] := by decide +kernel
  have h5 : archmap.lookup "mingw".toList = some ["posix".toList, "mingw".toList, "windows".toList] := by decide +kernel
  constructor
  · simp only [guess, ofArch, h1, h3, Bool.false_eq_true, if_false, if_true, h4]
  · simp only [guess, ofArch, h2, if_true, h5]

/-- **C131**: any other name raises `UnknownPlatform` with that name.  Missing for the full claim: Python on Windows without a name
given. -/
theorem C131_unknown_partial (s : System) (arch : Option Text) (h : s.nt = false ∨ arch ≠ none) :
    (∃ p, guess s arch = .platform p) ∨
    ∃ a, guess s arch = .unknownPlatform a ∧ (∀ p, (a, p) ∉ archmap) ∧ (∀ x, arch = some x → a = x) := by
  have key : ∀ a, (∃ p, ofArch a = .platform p) ∨ (ofArch a = .unknownPlatform a ∧ ∀ p, (a, p) ∉ archmap) := by
    intro a
    unfold ofArch
    simp only
    split
    · rename_i hl
      right
      by_cases hm : "mingw32".toList.isPrefixOf a = true
      · rw [if_pos hm] at hl
        exact absurd hl (by decide +kernel)
      · by_cases hc : "cygwin".toList.isPrefixOf a = true
        · rw [if_neg hm, if_pos hc] at hl
          exact absurd hl (by decide +kernel)
        · rw [if_neg hm, if_neg hc] at hl ⊢
          refine ⟨rfl, fun p hp => ?_⟩
          rw [List.lookup_eq_none_iff] at hl
          have := hl _ hp
          simp at this
    · exact .inl ⟨_, rfl⟩
  cases arch with
  | some x =>
    rcases key x with h | ⟨h1, h2⟩
    · exact .inl h
    · exact .inr ⟨x, h1, h2, fun y hy => by cases hy; rfl⟩
  | none =>
    rcases h with h | h
    · rcases key s.arch with h' | ⟨h1, h2⟩
      · left
        simpa [guess, h] using h'
      · right
        exact ⟨s.arch, by simpa [guess, h] using h1, h2, by simp⟩
    · exact absurd rfl h

/-! ## Examples and violations -/

private abbrev t (s : String) : Text := s.toList

/-- a system that prints its name -/
example : guess ⟨false, t "Linux", .prints (t "Linux\n")⟩ none = .platform [t "posix", t "linux"] ∧ White (t "\n") ∧ Trimmed (t "Linux") ∧
    Canonical "linux" ∧ Kind "linux" "posix" := by
  refine ⟨by decide +kernel, ?_, ?_, by decide, by decide⟩
  · intro c hc
    have : c = '\n' := List.mem_singleton.mp hc
    simp [this]
  · intro c hc
    rcases hc with hc | hc
    · have : c = 'L' := (Option.some.inj hc).symm
      subst this; decide
    · have : c = 'x' := (Option.some.inj hc).symm
      subst this; decide

/-- **C131** is false for Python on Windows: a system that is not known raises `KeyError`. -/
theorem C131_windows_violated (s : System) (hnt : s.nt = true) (hs : ∀ p, (s.system.map Char.toLower, p) ∉ archmap) :
    guess s none = .keyError := by
  unfold guess
  simp only [hnt, if_true, lower]
  split
  · rfl
  · rename_i hl
    exact absurd (lookup_mem hl) (hs _)

/-- for example if Python does not know the name of the system -/
example : ∀ p, ((t "").map Char.toLower, p) ∉ archmap := by
  intro p hp
  have : ∀ x ∈ archmap, x.1 ≠ [] := by decide +kernel
  exact this _ hp rfl

/-- **C131** is false for a name in upper case that is given as an argument. -/
theorem C131_case_violated (s : System) : guess s (some (t "Linux")) = .unknownPlatform (t "Linux") ∧
    guess s (some (t "linux")) = .platform [t "posix", t "linux"] := by
  constructor <;> (simp only [guess]; decide +kernel)

/-- **C131** is false for 64-bit MinGW, which prints for example `MINGW64_NT-10.0`. -/
theorem C131_mingw_violated (system : Text) :
    guess ⟨false, system, .prints (t "MINGW64_NT-10.0\n")⟩ none = .unknownPlatform (t "mingw64_nt-10.0") := by
  have : ofArch (lower (strip (t "MINGW64_NT-10.0\n"))) = .unknownPlatform (t "mingw64_nt-10.0") := by decide +kernel
  exact this

end Verif.Platform.Guess
