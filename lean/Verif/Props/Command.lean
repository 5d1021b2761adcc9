import Verif.Execute.Command
/-!
# The text of a command and the directories of its libraries: properties

C98 and C99.
-/
namespace Verif.Execute.Command

/-! ## Specification: how a shell reads a command -/

/-- a character that stands for itself outside of quotes -/
def plain (c : Char) : Bool := c.isAlphanum || c ∈ ['-', '_', '.', '/', '+', ':', ',', '@', '%', '=', '^']

/-- words that begin something else than a simple command -/
def reserved : List String :=
  ["case", "do", "done", "elif", "else", "esac", "fi", "for", "if", "in", "then", "until", "while"]

/-- where the shell is: between two words, in a word, or inside of quotes in a word; with the word up to there -/
inductive Mode where
  | between
  | word (acc : Text)
  | single (acc : Text)
  | double (acc : Text)

/-- The words of a command, as a POSIX shell splits it.  `none` if a quote is not closed, or if the text contains a character
that makes the shell do something else (expansions, redirections, comments, several commands). -/
def words : Mode → Text → Option (List Text)
  | .between, [] => some []
  | .word a, [] => some [a]
  | .single _, [] => none
  | .double _, [] => none
  | .between, c :: r =>
    if c = ' ' ∨ c = '\t' then words .between r
    else if c = '\'' then words (.single []) r
    else if c = '"' then words (.double []) r
    else if c = '\\' then (match r with
      | [] => none
      | d :: r => if d = '\n' then none else words (.word [d]) r)
    else if plain c then words (.word [c]) r
    else none
  | .word a, c :: r =>
    if c = ' ' ∨ c = '\t' then (words .between r).map (a :: ·)
    else if c = '\'' then words (.single a) r
    else if c = '"' then words (.double a) r
    else if c = '\\' then (match r with
      | [] => none
      | d :: r => if d = '\n' then none else words (.word (a ++ [d])) r)
    else if plain c then words (.word (a ++ [c])) r
    else none
  | .single a, c :: r => if c = '\'' then words (.word a) r else words (.single (a ++ [c])) r
  | .double a, c :: r =>
    if c = '"' then words (.word a) r
    else if c = '$' ∨ c = '`' then none
    else if c = '\\' then (match r with
      | [] => none
      | d :: r => if d = '"' ∨ d = '\\' ∨ d = '$' ∨ d = '`' then words (.double (a ++ [d])) r else words (.double (a ++ ['\\', d])) r)
    else words (.double (a ++ [c])) r

/-- The command that a shell runs: a first word with `=` can be an assignment. -/
def shell (t : Text) : Option (List Text) :=
  match words .between t with
  | some (w :: ws) => if '=' ∈ w ∨ String.ofList w ∈ reserved then none else some (w :: ws)
  | _ => none

/-- A word that survives: plain characters; or anything with a blank and without a single quote. -/
def Tame (w : Text) : Prop := (w ≠ [] ∧ ∀ c ∈ w, plain c = true) ∨ (' ' ∈ w ∧ '\'' ∉ w)

/-! ## Proofs -/

theorem plain_facts {c : Char} (h : plain c = true) : c ≠ ' ' ∧ c ≠ '\t' ∧ c ≠ '\'' ∧ c ≠ '"' ∧ c ≠ '\\' := by
  refine ⟨?_, ?_, ?_, ?_, ?_⟩ <;> rintro rfl <;> revert h <;> decide

theorem words_plain (w : Text) (h : ∀ c ∈ w, plain c = true) (a r : Text) :
    words (.word a) (w ++ r) = words (.word (a ++ w)) r := by
  induction w generalizing a with
  | nil => simp
  | cons c w ih =>
    obtain ⟨h1, h2, h3, h4, h5⟩ := plain_facts (h c (by simp))
    rw [List.cons_append, words.eq_def]
    simp only [h1, h2, h3, h4, h5, or_self, if_false, h c (by simp), if_true]
    rw [ih (fun c hc => h c (by simp [hc]))]
    simp

theorem words_single (w : Text) (h : '\'' ∉ w) (a r : Text) :
    words (.single a) (w ++ '\'' :: r) = words (.word (a ++ w)) r := by
  induction w generalizing a with
  | nil => simp [words]
  | cons c w ih =>
    have hc : c ≠ '\'' := fun e => h (by simp [e])
    rw [List.cons_append, words.eq_def]
    simp only [hc, if_false]
    rw [ih (fun hw => h (by simp [hw]))]
    simp

theorem escape_id {w : Text} (h : '\'' ∉ w) : escape w = w := by
  induction w with
  | nil => rfl
  | cons c w ih =>
    have hc : c ≠ '\'' := fun e => h (by simp [e])
    have := ih (fun hw => h (by simp [hw]))
    simp only [escape] at this
    simp [escape, hc, this]

theorem words_quote (w : Text) (h : Tame w) (r : Text) :
    words .between (quote w ++ r) = words (.word w) r := by
  rcases h with ⟨hne, hp⟩ | ⟨hb, hq⟩
  · have hs : ' ' ∉ w := fun hs => absurd (hp _ hs) (by decide)
    rw [quote, if_neg hs]
    cases w with
    | nil => exact absurd rfl hne
    | cons c w =>
      obtain ⟨h1, h2, h3, h4, h5⟩ := plain_facts (hp c (by simp))
      rw [List.cons_append, words.eq_def]
      simp only [h1, h2, h3, h4, h5, or_self, if_false, hp c (by simp), if_true]
      rw [words_plain w (fun c hc => hp c (by simp [hc]))]
      rfl
  · rw [quote, if_pos hb, escape_id hq]
    rw [List.cons_append, List.cons_append, List.append_assoc, words.eq_def]
    simp only [Char.reduceEq, or_self, if_false, if_true]
    exact words_single w hq [] r

theorem words_cmd (cmd : List Text) (h : ∀ w ∈ cmd, Tame w) : words .between (cmdString cmd) = some cmd := by
  unfold cmdString
  induction cmd with
  | nil => rfl
  | cons w cmd ih =>
    have hw := h w (by simp)
    have ih := ih (fun w hw => h w (by simp [hw]))
    cases cmd with
    | nil =>
      have := words_quote w hw []
      rw [List.append_nil] at this
      simp only [List.map_cons, List.map_nil, join, this]
      rfl
    | cons v cmd =>
      simp only [List.map_cons, join]
      rw [words_quote w hw, words.eq_def]
      simp only [true_or, if_true]
      simp only [List.map_cons] at ih
      rw [ih]
      rfl

/-- **C98**: the text in the log, given to a shell, runs the command that was run, if no word is empty, words without blanks have
plain characters only, and words with blanks have no single quote. -/
theorem C98_partial (w : Text) (ws : List Text) (h : ∀ x ∈ w :: ws, Tame x) (h1 : '=' ∉ w) (h2 : String.ofList w ∉ reserved) :
    shell (cmdString (w :: ws)) = some (w :: ws) := by
  rw [shell, words_cmd _ h]
  simp [h1, h2]

example : shell (cmdString ["gcc".toList, "-DA=1".toList, "-o".toList, "a b $x\"y".toList]) =
    some ["gcc".toList, "-DA=1".toList, "-o".toList, "a b $x\"y".toList] := by decide +kernel

/-- **C98** is false for a word with a blank and a single quote: the text ends inside of a quote. -/
theorem C98_quote_violated :
    cmdString ["echo".toList, "it's me".toList] = "echo 'it\\'s me'".toList ∧
    shell (cmdString ["echo".toList, "it's me".toList]) = none := by
  refine ⟨?_, ?_⟩ <;> decide +kernel

/-- **C98** is false for an empty word, and for a word with double quotes or a tab and no blank: another command is run. -/
theorem C98_word_violated :
    shell (cmdString ["test".toList, [], "a".toList]) = some ["test".toList, "a".toList] ∧
    shell (cmdString ["gcc".toList, "-DV=\"1\"".toList]) = some ["gcc".toList, "-DV=1".toList] ∧
    shell (cmdString ["cat".toList, "a\tb".toList]) = some ["cat".toList, "a".toList, "b".toList] := by
  refine ⟨?_, ?_, ?_⟩ <;> decide +kernel

/-- **C98** is false for every word without blanks in which there is a character that is not plain and no quote or backslash before
it, if that character is not a quote, a backslash or a tab: the shell gives it a meaning. -/
theorem C98_special_violated (u v : Text) (c : Char) (hu : ∀ x ∈ u, plain x = true) (hc : plain c = false)
    (h : c ∉ [' ', '\t', '\'', '"', '\\']) (hv : ' ' ∉ v) (ws : List Text) : shell (cmdString ((u ++ c :: v) :: ws)) = none := by
  simp only [List.mem_cons, List.not_mem_nil, or_false, not_or] at h
  obtain ⟨h1, h2, h3, h4, h5⟩ := h
  have hb : ' ' ∉ u ++ c :: v := by
    simp only [List.mem_append, List.mem_cons, not_or]
    exact ⟨fun hs => absurd (hu _ hs) (by decide), fun e => h1 e.symm, hv⟩
  have key : ∀ r, words .between (u ++ c :: r) = none := by
    intro r
    cases u with
    | nil =>
      rw [List.nil_append, words.eq_def]
      simp [h1, h2, h3, h4, h5, hc]
    | cons x u =>
      obtain ⟨k1, k2, k3, k4, k5⟩ := plain_facts (hu x (by simp))
      rw [List.cons_append, words.eq_def]
      simp only [k1, k2, k3, k4, k5, or_self, if_false, hu x (by simp), if_true]
      rw [words_plain u (fun c hc => hu c (by simp [hc])), words.eq_def]
      simp [h1, h2, h3, h4, h5, hc]
  have : ∃ r, cmdString ((u ++ c :: v) :: ws) = u ++ c :: r := by
    unfold cmdString
    cases ws with
    | nil => exact ⟨v, by simp [join, quote, hb]⟩
    | cons w ws => exact ⟨v ++ ' ' :: join ' ' (List.map quote (w :: ws)), by simp [join, quote, hb]⟩
  obtain ⟨r, hr⟩ := this
  rw [shell, hr, key]

example : shell (cmdString ["$CC".toList]) = none := by decide +kernel

/-! ## Specification: where a library is found -/

/-- the directories in such a variable; an empty one is the current directory -/
def dirs (sep : Char) : Text → List Text
  | [] => [[]]
  | c :: r => if c = sep then [] :: dirs sep r else match dirs sep r with
    | [] => [[c]]
    | d :: ds => (c :: d) :: ds

/-- the directory in which the loader finds a library, given the variable and which directories have the library -/
def loads (sep : Char) (has : Text → Bool) (var : Option Text) : Option Text :=
  (var.elim [] (dirs sep)).find? has

/-! ## Proofs -/

theorem dirs_ne (sep : Char) (t : Text) : dirs sep t ≠ [] := by
  cases t with
  | nil => simp [dirs]
  | cons c r =>
    rw [dirs]
    split
    · simp
    · split <;> simp

theorem dirs_append (sep : Char) (a r : Text) : dirs sep (a ++ sep :: r) = dirs sep a ++ dirs sep r := by
  induction a with
  | nil => simp [dirs]
  | cons c a ih =>
    rw [List.cons_append, dirs, dirs, ih]
    split
    · simp
    · cases h : dirs sep a with
      | nil => exact absurd h (dirs_ne sep a)
      | cons d ds => simp

theorem dirs_plain (sep : Char) (a : Text) (h : sep ∉ a) : dirs sep a = [a] := by
  induction a with
  | nil => rfl
  | cons c a ih =>
    have hc : c ≠ sep := fun e => h (by simp [e])
    rw [dirs, ih (fun ha => h (by simp [ha]))]
    simp [hc]

theorem dirs_join (sep : Char) (ps : List Text) (hne : ps ≠ []) (h : ∀ p ∈ ps, sep ∉ p) : dirs sep (join sep ps) = ps := by
  induction ps with
  | nil => exact absurd rfl hne
  | cons p ps ih =>
    cases ps with
    | nil => exact dirs_plain sep p (h p (by simp))
    | cons q ps =>
      rw [join, dirs_append, dirs_plain sep p (h p (by simp)), ih (by simp) (fun p hp => h p (by simp [hp]))]
      rfl

/-- the directories that the loader looks in: those of the environment, then those that were given -/
theorem dirs_libraryPath (sep : Char) (old : Option Text) (ps : List Text) (h : ∀ p ∈ ps, sep ∉ p) :
    (libraryPath sep old ps).elim [] (dirs sep) = old.elim [] (dirs sep) ++ ps := by
  unfold libraryPath
  split
  · rename_i hp; simp [hp]
  · rename_i hp
    cases old with
    | none => simp [dirs_join sep ps hp h]
    | some o => simp [dirs_append, dirs_join sep ps hp h]

/-- **C99**: a library in one of the directories that were given to `execute` is found in the first of them that has it, if no
directory in the environment has a library of that name. -/
theorem C99_given_partial (sep : Char) (old : Option Text) (ps : List Text) (h : ∀ p ∈ ps, sep ∉ p) (has : Text → Bool)
    (hold : ∀ d ∈ old.elim [] (dirs sep), has d = false) :
    loads sep has (libraryPath sep old ps) = ps.find? has := by
  rw [loads, dirs_libraryPath sep old ps h, List.find?_append,
    List.find?_eq_none.2 (fun d hd => by simp [hold d hd])]
  rfl

/-- **C99**: `run` finds each library that the executable was linked with in the directory where it was built, if no other
directory that is looked in has a library of that name. -/
theorem C99_run_partial (sep : Char) (old : Option Text) (g : Libs) (given : List Text) (libs : List Nat)
    (hsep : ∀ p ∈ runPaths g given libs, sep ∉ p) (l : Nat) (hl : l ∈ libs) (has : Text → Bool) (hhas : has (g.parent l) = true)
    (hother : ∀ d, (d ∈ old.elim [] (dirs sep) ∨ d ∈ runPaths g given libs) → d ≠ g.parent l → has d = false) :
    loads sep has (libraryPath sep old (runPaths g given libs)) = some (g.parent l) := by
  rw [loads, dirs_libraryPath sep old _ hsep]
  have hmem : g.parent l ∈ old.elim [] (dirs sep) ++ runPaths g given libs := by
    simp only [runPaths, List.mem_append, List.mem_map]
    exact Or.inr (Or.inr ⟨l, hl, rfl⟩)
  cases h : (old.elim [] (dirs sep) ++ runPaths g given libs).find? has with
  | none =>
    have := List.find?_eq_none.1 h _ hmem
    simp [hhas] at this
  | some d =>
    have hd := List.find?_some h
    have hd2 := List.mem_of_find?_eq_some h
    by_cases e : d = g.parent l
    · rw [e]
    · rw [List.mem_append] at hd2
      rw [hother d hd2 e] at hd
      exact absurd hd (by decide)

/-- **C99** is false if a directory in the environment has a library of that name: it is found instead of the one that was just
built, whatever directories were given. -/
theorem C99_environment_violated (sep : Char) (old : Text) (ps : List Text) (h : ∀ p ∈ ps, sep ∉ p) (has : Text → Bool)
    (d : Text) (hd : loads sep has (some old) = some d) : loads sep has (libraryPath sep (some old) ps) = some d := by
  rw [loads, dirs_libraryPath sep _ ps h, List.find?_append]
  rw [loads] at hd
  rw [hd]
  rfl

/-- **C99** is false for a library that another library was linked with: it is not found by `run` if it is in another
directory. -/
theorem C99_indirect_violated (sep : Char) (g : Libs) (given : List Text) (libs : List Nat) (has : Text → Bool)
    (hsep : ∀ p ∈ runPaths g given libs, sep ∉ p) (m : Nat) (_ : ∃ l ∈ libs, m ∈ g.libs l)
    (hhas : ∀ d, has d = true ↔ d = g.parent m) (hm : g.parent m ∉ given) (hdir : ∀ l ∈ libs, g.parent l ≠ g.parent m) :
    loads sep has (libraryPath sep none (runPaths g given libs)) = none := by
  rw [loads, dirs_libraryPath sep none _ hsep]
  refine List.find?_eq_none.2 fun d hd => ?_
  rw [hhas]
  rintro rfl
  simp only [Option.elim_none, List.nil_append, runPaths, List.mem_append, List.mem_map] at hd
  rcases hd with hd | ⟨l, hl, e⟩
  · exact hm hd
  · exact hdir l hl e

/-! ### Cases that meet the hypotheses -/

namespace Ex

/-- an executable linked with library 0, which was linked with library 1 -/
def g : Libs := ⟨fun l => if l = 0 then "build/a".toList else "build/b".toList, fun l => if l = 0 then [1] else []⟩

def in_ (d : String) : Text → Bool := fun x => x == d.toList

example : libraryPath ':' (some "/usr/lib".toList) (runPaths g ["x".toList] [0]) = some "/usr/lib:x:build/a".toList ∧
    loads ':' (in_ "build/a") (libraryPath ':' (some "/usr/lib".toList) (runPaths g [] [0])) = some "build/a".toList ∧
    loads ':' (in_ "build/b") (libraryPath ':' none (runPaths g [] [0])) = none ∧
    loads ':' (fun d => in_ "build/a" d || in_ "/opt" d) (libraryPath ':' (some "/opt".toList) (runPaths g [] [0])) =
      some "/opt".toList := by
  refine ⟨?_, ?_, ?_, ?_⟩ <;> decide +kernel

/-- an empty value puts the current directory in front -/
example : loads ':' (fun _ => true) (libraryPath ':' (some []) ["build".toList]) = some [] := by decide +kernel

end Ex

end Verif.Execute.Command
