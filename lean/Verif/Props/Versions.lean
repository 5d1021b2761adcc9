import Verif.Builders.Versions
import Verif.Props.Builders
/-!
# Tools of the wrong version are refused (C143)
-/
namespace Verif.Versions
open Verif.Builders (Part Requires Earlier dotted C49_partial)

/-! ## What the tools print -/

/-- a part of a line without blanks -/
def Word (s : Text) : Prop := s ≠ [] ∧ ' ' ∉ s ∧ '\n' ∉ s

/-- nothing more, or something after a blank or on the next line -/
def Ends (s : Text) : Prop := s = [] ∨ ∃ c r, s = c :: r ∧ (c = ' ' ∨ c = '\n')

/-- `gcc --version`: the program, who has packaged it, the version -/
def GccPrints (package version out : Text) : Prop :=
  ∃ program rest, Word program ∧ Ends rest ∧ out = program ++ [' ', '('] ++ package ++ [')', ' '] ++ version ++ rest

/-- `clang --version`: who has packaged it, `clang version`, the version -/
def ClangPrints (package version out : Text) : Prop :=
  ∃ rest, Ends rest ∧ out = package ++ "clang version ".toList ++ version ++ rest

/-- the clang of Apple: a version of its own and that of LLVM -/
def ApplePrints (version out : Text) : Prop :=
  ∃ own rest, '\n' ∉ own ∧ (rest = [] ∨ ∃ r, rest = '\n' :: r) ∧ out = "Apple clang ".toList ++ own ++ " (based on LLVM ".toList ++ version ++ ')' :: rest

/-- `icc --version` -/
def IntelPrints (version out : Text) : Prop :=
  ∃ rest, Ends rest ∧ (out = "icc (ICC) ".toList ++ version ++ rest ∨ out = "icpc (ICC) ".toList ++ version ++ rest)

theorem splitAt_word {c : Char} {s : Text} (h : c ∉ s) : splitAt c s = [s] := by
  induction s with
  | nil => rfl
  | cons d s ih =>
    rw [List.mem_cons, not_or] at h
    rw [splitAt, if_neg (Ne.symm h.1), ih h.2]

theorem splitAt_sep {c : Char} {a : Text} (h : c ∉ a) (b : Text) : splitAt c (a ++ c :: b) = a :: splitAt c b := by
  induction a with
  | nil => rw [List.nil_append, splitAt, if_pos rfl]
  | cons d a ih =>
    rw [List.mem_cons, not_or] at h
    rw [List.cons_append, splitAt, if_neg (Ne.symm h.1), ih h.2]

theorem takeLine {a : Text} (h : '\n' ∉ a) (b : Text) :
    (a ++ b).takeWhile (fun c => c != '\n') = a ++ b.takeWhile (fun c => c != '\n') := by
  induction a with
  | nil => rfl
  | cons d a ih =>
    rw [List.mem_cons, not_or] at h
    rw [List.cons_append, List.takeWhile_cons, if_pos (by simpa using Ne.symm h.1), ih h.2, List.cons_append]

/-- the words behind the version -/
theorem splitAt_ends {v : Text} (hv : Word v) {rest : Text} (hr : Ends rest) :
    ∃ ws, splitAt ' ' ((v ++ rest).takeWhile fun c => c != '\n') = v :: ws := by
  rw [takeLine hv.2.2]
  rcases hr with rfl | ⟨c, r, rfl, rfl | rfl⟩
  · exact ⟨[], by rw [List.takeWhile_nil, List.append_nil, splitAt_word hv.2.1]⟩
  · rw [List.takeWhile_cons, if_pos (by decide)]
    exact ⟨_, splitAt_sep hv.2.1 _⟩
  · rw [List.takeWhile_cons, if_neg (by decide), List.append_nil]
    exact ⟨[], splitAt_word hv.2.1⟩

theorem gcc_reads {package version out : Text} (h : GccPrints package version out) (hp : ' ' ∉ package) (hn : '\n' ∉ package)
    (hv : Word version) : gcc out = .text version := by
  obtain ⟨program, rest, h1, h2, rfl⟩ := h
  obtain ⟨ws, hw⟩ := splitAt_ends hv h2
  have e : (program ++ [' ', '('] ++ package ++ [')', ' '] ++ version ++ rest).takeWhile (fun c => c != '\n') =
      program ++ ' ' :: ((('(' :: package) ++ [')']) ++ ' ' :: ((version ++ rest).takeWhile fun c => c != '\n')) := by
    have : program ++ [' ', '('] ++ package ++ [')', ' '] ++ version ++ rest =
        (program ++ [' ', '('] ++ package ++ [')', ' ']) ++ (version ++ rest) := by simp
    rw [this, takeLine]
    · simp
    · simp only [List.mem_append, not_or]
      exact ⟨⟨⟨h1.2.2, by decide⟩, hn⟩, by decide⟩
  have h3 : ' ' ∉ ('(' :: package) ++ [')'] := by
    rw [List.mem_append, List.mem_cons, not_or, not_or]
    exact ⟨⟨by decide, hp⟩, by decide⟩
  unfold gcc
  rw [e, splitAt_sep h1.2.1, splitAt_sep h3, hw]
  rfl

theorem after_append (p s : Text) : after p (p ++ s) = some s := by
  induction p with
  | nil => cases s <;> rfl
  | cons c p ih => rw [List.cons_append, after, if_pos rfl, ih]

section
variable {space digit : Char → Bool}

theorem run_ends (hb : space ' ' = true) (hn : space '\n' = true) {v : Text} (hv : ∀ c ∈ v, space c = false) {rest : Text} (hr : Ends rest) :
    (v ++ rest).takeWhile (fun c => !space c) = v := by
  induction v with
  | nil =>
    rcases hr with rfl | ⟨c, r, rfl, rfl | rfl⟩
    · rfl
    · rw [List.nil_append, List.takeWhile_cons, if_neg (by simp [hb])]
    · rw [List.nil_append, List.takeWhile_cons, if_neg (by simp [hn])]
  | cons c v ih =>
    rw [List.cons_append, List.takeWhile_cons, if_pos (by simp [hv c (.head _)]), ih (fun x hx => hv x (.tail _ hx))]

theorem some1_text {v : Text} (h : v ≠ []) : some1 v = .text v := by
  cases v with
  | nil => exact absurd rfl h
  | cons c v => rfl

theorem clangVersion_eq : "clang version ".toList = clangVersion := by decide +kernel
theorem appleClang_eq : "Apple clang ".toList = appleClang := by decide +kernel
theorem based_eq : " (based on LLVM ".toList = based := by decide +kernel
theorem icc_eq : "icc (ICC) ".toList = icc := by decide +kernel
theorem icpc_eq : "icpc (ICC) ".toList = icpc := by decide +kernel

theorem clang_reads (hb : space ' ' = true) (hn : space '\n' = true) {version out : Text} (h : ClangPrints [] version out)
    (h0 : version ≠ []) (hv : ∀ c ∈ version, space c = false) : clang space out = .text version := by
  obtain ⟨rest, hr, rfl⟩ := h
  rw [clangVersion_eq, List.nil_append, List.append_assoc]
  unfold clang
  have : after appleClang (clangVersion ++ (version ++ rest)) = none := rfl
  rw [this, after_append]
  simp only [Option.bind_none]
  rw [run_ends hb hn hv hr, some1_text h0]

theorem untilParen_reads {v : Text} (h0 : v ≠ []) (hv : ∀ c ∈ v, space c = false) (hp : space ')' = false) (hn : space '\n' = true)
    {rest : Text} (hr : rest = [] ∨ ∃ r, rest = '\n' :: r) : untilParen space (v ++ ')' :: rest) = some v := by
  have end0 : untilParen space (')' :: rest) = none := by
    rw [untilParen, if_neg (by simp [hp])]
    rcases hr with rfl | ⟨r, rfl⟩
    · rfl
    · rw [untilParen, if_pos hn]
      rfl
  induction v with
  | nil => exact absurd rfl h0
  | cons c v ih =>
    rw [List.cons_append, untilParen, if_neg (by simp [hv c (.head _)])]
    cases v with
    | nil =>
      rw [List.nil_append, end0]
      rfl
    | cons d v => rw [ih (by simp) (fun x hx => hv x (.tail _ hx))]

/-- nothing of the pattern is found in a text without an opening parenthesis, up to the end of the line -/
theorem apple_none {s : Text} {rest : Text} (hs : '(' ∉ s) (hr : rest = [] ∨ ∃ r, rest = '\n' :: r) : apple space (s ++ rest) = none := by
  have here : ∀ (c : Char) (t : Text), '(' ∉ c :: t → (after based (c :: t ++ rest)).bind (untilParen space) = none := by
    intro c t hc
    have : after based (c :: t ++ rest) = none := by
      unfold based
      rw [List.cons_append, after]
      split
      · cases t with
        | nil =>
          rcases hr with rfl | ⟨r, rfl⟩
          · rfl
          · rfl
        | cons d t =>
          rw [List.cons_append, after, if_neg]
          intro hd
          exact hc (hd ▸ .tail _ (.head _))
      · rfl
    rw [this]
    rfl
  induction s with
  | nil =>
    rcases hr with rfl | ⟨r, rfl⟩
    · rfl
    · rfl
  | cons c s ih =>
    have h := here c s hs
    rw [List.cons_append] at h
    rw [List.cons_append, apple, h]
    split
    · rename_i v hv
      split at hv
      · cases hv
      · rw [ih (fun hm => hs (.tail _ hm))] at hv
        cases hv
    · rfl

theorem apple_reads (hp : space ')' = false) (hn : space '\n' = true) {v : Text} (h0 : v ≠ [])
    (hv : ∀ c ∈ v, space c = false ∧ c ≠ '(') {rest : Text} (hr : rest = [] ∨ ∃ r, rest = '\n' :: r) (own : Text) (ho : '\n' ∉ own) :
    apple space (own ++ (based ++ (v ++ ')' :: rest))) = some v := by
  induction own with
  | nil =>
    have hnone : apple space ((['(', 'b', 'a', 's', 'e', 'd', ' ', 'o', 'n', ' ', 'L', 'L', 'V', 'M', ' '] ++ (v ++ [')'])) ++ rest) = none := by
      have h1 : apple space ((['b', 'a', 's', 'e', 'd', ' ', 'o', 'n', ' ', 'L', 'L', 'V', 'M', ' '] ++ (v ++ [')'])) ++ rest) = none := by
        apply apple_none _ hr
        rw [List.mem_append, List.mem_append, not_or, not_or]
        exact ⟨by decide, fun hm => (hv _ hm).2 rfl, by decide⟩
      rw [show (['(', 'b', 'a', 's', 'e', 'd', ' ', 'o', 'n', ' ', 'L', 'L', 'V', 'M', ' '] ++ (v ++ [')'])) ++ rest =
        '(' :: ((['b', 'a', 's', 'e', 'd', ' ', 'o', 'n', ' ', 'L', 'L', 'V', 'M', ' '] ++ (v ++ [')'])) ++ rest) from rfl, apple, h1]
      rfl
    have e : based ++ (v ++ ')' :: rest) =
        ' ' :: ((['(', 'b', 'a', 's', 'e', 'd', ' ', 'o', 'n', ' ', 'L', 'L', 'V', 'M', ' '] ++ (v ++ [')'])) ++ rest) := by
      simp [based]
    rw [List.nil_append, e, apple, hnone, ← e, after_append]
    simp only [Option.bind_some]
    rw [untilParen_reads h0 (fun c hc => (hv c hc).1) hp hn hr]
    rfl
  | cons c own ih =>
    rw [List.mem_cons, not_or] at ho
    rw [List.cons_append, apple, if_neg (Ne.symm ho.1), ih ho.2]

theorem clang_reads_apple (hp : space ')' = false) (hn : space '\n' = true) {version out : Text} (h : ApplePrints version out)
    (h0 : version ≠ []) (hv : ∀ c ∈ version, space c = false ∧ c ≠ '(') : clang space out = .text version := by
  obtain ⟨own, rest, ho, hr', rfl⟩ := h
  rw [appleClang_eq, based_eq]
  unfold clang
  rw [show appleClang ++ own ++ based ++ version ++ ')' :: rest = appleClang ++ (own ++ (based ++ (version ++ ')' :: rest))) by simp,
    after_append]
  simp only [Option.bind_some]
  rw [apple_reads hp hn h0 hv hr' own ho]

theorem digits_ends (hb : digit ' ' = false) (hn : digit '\n' = false) {v : Text} (hv : ∀ c ∈ v, digit c = true ∨ c = '.') {rest : Text}
    (hr : Ends rest) : (v ++ rest).takeWhile (fun c => digit c || c == '.') = v := by
  induction v with
  | nil =>
    rcases hr with rfl | ⟨c, r, rfl, rfl | rfl⟩
    · rfl
    · rw [List.nil_append, List.takeWhile_cons, if_neg (by simp [hb])]
    · rw [List.nil_append, List.takeWhile_cons, if_neg (by simp [hn])]
  | cons c v ih =>
    rw [List.cons_append, List.takeWhile_cons, if_pos (by simpa using hv c (.head _)), ih (fun x hx => hv x (.tail _ hx))]

theorem intel_reads (hb : digit ' ' = false) (hn : digit '\n' = false) {version out : Text} (h : IntelPrints version out)
    (h0 : version ≠ []) (hv : ∀ c ∈ version, digit c = true ∨ c = '.') : intel digit out = .text version := by
  obtain ⟨rest, hr, rfl | rfl⟩ := h
  · rw [icc_eq, List.append_assoc]
    unfold intel
    rw [after_append]
    simp only
    rw [digits_ends hb hn hv hr, some1_text h0]
  · rw [icpc_eq, List.append_assoc]
    unfold intel
    have : after icc (icpc ++ (version ++ rest)) = none := rfl
    rw [this, after_append]
    simp only
    rw [digits_ends hb hn hv hr, some1_text h0]

theorem plain_reads (hn : space '\n' = true) {v : Text} (hv : ∀ c ∈ v, space c = false) : plain space (v ++ ['\n']) = .text v := by
  have drop : ∀ l : Text, (∀ c ∈ l, space c = false) → l.dropWhile space = l := by
    intro l hl
    cases l with
    | nil => rfl
    | cons c l => rw [List.dropWhile_cons, if_neg (by simp [hl c (.head _)])]
  unfold plain
  cases v with
  | nil =>
    simp [List.dropWhile_cons, hn]
  | cons c v =>
    rw [List.cons_append, List.dropWhile_cons, if_neg (by simp [hv c (.head _)]), ← List.cons_append, List.reverse_append]
    rw [show ['\n'].reverse ++ (c :: v).reverse = '\n' :: (c :: v).reverse from rfl, List.dropWhile_cons, if_pos hn,
      drop _ (fun x hx => hv x (List.mem_reverse.1 hx)), List.reverse_reverse]

/-! ## C143 -/

/-- a tool, as it prints its version, and what fbuild reads -/
inductive Tool where
  | gcc | clang | intel | other
  deriving DecidableEq

/-- what fbuild reads from the output of a tool -/
def Tool.found (space digit : Char → Bool) (out : Text) : Tool → Found
  | .gcc => Versions.gcc out
  | .clang => Versions.clang space out
  | .intel => Versions.intel digit out
  | .other => Versions.plain space out

/-- what a tool of a version prints -/
def Tool.prints (version out : Text) : Tool → Prop
  | .gcc => ∃ package, '\n' ∉ package ∧ GccPrints package version out
  | .clang => (∃ package, '\n' ∉ package ∧ ClangPrints package version out) ∨ ApplePrints version out
  | .intel => IntelPrints version out
  | .other => out = version ++ ['\n']

/-- the tools whose version is read: gcc and clang that were not packaged by someone with blanks in their name, or anyone -/
def Tool.printsPlainly (version out : Text) : Tool → Prop
  | .gcc => ∃ package, '\n' ∉ package ∧ ' ' ∉ package ∧ GccPrints package version out
  | .clang => ClangPrints [] version out ∨ ApplePrints version out
  | .intel => IntelPrints version out
  | .other => out = version ++ ['\n']

theorem Tool.printsPlainly_prints {t : Tool} {version out : Text} (h : t.printsPlainly version out) : t.prints version out := by
  cases t with
  | gcc =>
    obtain ⟨p, h1, _, h2⟩ := h
    exact ⟨p, h1, h2⟩
  | clang => exact h.elim (fun h => .inl ⟨[], by simp, h⟩) .inr
  | intel => exact h
  | other => exact h

/-- the characters that Python's regular expressions and `strip` know -/
structure Known (space digit : Char → Bool) : Prop where
  blank : space ' ' = true
  newline : space '\n' = true
  dot : space '.' = false
  paren : space ')' = false
  digits : ∀ c, digit c = true → space c = false ∧ c ≠ '('

theorem mem_dotted {c : Char} : ∀ {ps : List Text}, c ∈ dotted ps → c = '.' ∨ ∃ p ∈ ps, c ∈ p
  | [p], h => .inr ⟨p, .head _, h⟩
  | p :: q :: ps, h => by
    rw [dotted, List.mem_append, List.mem_cons] at h
    rcases h with h | h | h
    · exact .inr ⟨p, .head _, h⟩
    · exact .inl h
    · rcases mem_dotted h with h | ⟨x, hx, hc⟩
      · exact .inl h
      · exact .inr ⟨x, .tail _ hx, hc⟩

theorem dotted_ne : ∀ {ps : List Text}, ps ≠ [] → (∀ p ∈ ps, p ≠ []) → dotted ps ≠ []
  | [p], _, h => h p (.head _)
  | p :: q :: ps, _, _ => by rw [dotted]; simp

/-- **C143**: a tool whose version has the numbers `v` is taken exactly if that is the version, at least and at most the version that is
required, and `ConfigFailed` is raised otherwise.  Partial: for the outputs of `printsPlainly` (`C143_gcc_violated`,
`C143_clang_violated`). -/
theorem C143_partial (space digit : Char → Bool) (hk : Known space digit) (int : Text → Option Int) (less : Text → Text → Bool)
    (t : Tool) (ps : List Text) (v : List Int) (out : Text)
    (hne : ps ≠ []) (hp : ∀ p ∈ ps, p ≠ [] ∧ ∀ c ∈ p, digit c = true ∧ c ≠ '.') (hv : ps.map int = v.map some)
    (ht : t.printsPlainly (dotted ps) out) (exactly atLeast atMost : Option (List Int)) (o : Outcome)
    (ho : o = check int less ⟨exactly.map (·.map .num), atLeast.map (·.map .num), atMost.map (·.map .num)⟩ (t.found space digit out)) :
    (o = .ok ↔ (∀ r, exactly = some r → v = r) ∧ (∀ r, atLeast = some r → ¬ Earlier v r) ∧
      (∀ r, atMost = some r → ¬ Earlier r v)) ∧
    (o ≠ .ok → o = .configFailed) := by
  have hchar : ∀ c ∈ dotted ps, digit c = true ∨ c = '.' := by
    intro c hc
    rcases mem_dotted hc with h | ⟨p, h1, h2⟩
    · exact .inr h
    · exact .inl ((hp p h1).2 c h2).1
  have hspace : ∀ c ∈ dotted ps, space c = false ∧ c ≠ '(' := by
    intro c hc
    rcases hchar c hc with h | rfl
    · exact hk.digits c h
    · exact ⟨hk.dot, by decide⟩
  have h0 : dotted ps ≠ [] := dotted_ne hne (fun p h => (hp p h).1)
  have hword : Word (dotted ps) := by
    refine ⟨h0, fun h => ?_, fun h => ?_⟩
    · have := (hspace _ h).1
      rw [hk.blank] at this
      cases this
    · have := (hspace _ h).1
      rw [hk.newline] at this
      cases this
  have hd1 : digit ' ' = false := by
    cases h : digit ' ' with
    | false => rfl
    | true => exact absurd hk.blank (by simp [(hk.digits _ h).1])
  have hd2 : digit '\n' = false := by
    cases h : digit '\n' with
    | false => rfl
    | true => exact absurd hk.newline (by simp [(hk.digits _ h).1])
  have hread : t.found space digit out = .text (dotted ps) := by
    cases t with
    | gcc =>
      obtain ⟨p, h1, h2, h3⟩ := ht
      exact gcc_reads h3 h2 h1 hword
    | clang =>
      rcases ht with h | h
      · exact clang_reads hk.blank hk.newline h h0 (fun c hc => (hspace c hc).1)
      · exact clang_reads_apple hk.paren hk.newline h h0 hspace
    | intel => exact intel_reads hd1 hd2 ht h0 hchar
    | other =>
      cases (show out = dotted ps ++ ['\n'] from ht)
      exact plain_reads hk.newline (fun c hc => (hspace c hc).1)
  rw [hread] at ho
  have hc := C49_partial int less ps v hne (fun p h => fun hm => ((hp p h).2 _ hm).2 rfl) hv exactly atLeast atMost _ rfl
  unfold check at ho
  split at ho
  · rename_i hnone
    subst ho
    have hok : Builders.checkVersion int less ⟨exactly.map (·.map .num), atLeast.map (·.map .num), atMost.map (·.map .num)⟩ (dotted ps) = .ok := by
      unfold Builders.checkVersion
      rw [if_pos hnone]
    exact ⟨⟨fun _ => hc.1.1 hok, fun _ => rfl⟩, fun h => absurd rfl h⟩
  · simp only at ho
    subst ho
    revert hc
    cases Builders.checkVersion int less ⟨exactly.map (·.map .num), atLeast.map (·.map .num), atMost.map (·.map .num)⟩ (dotted ps) <;>
      simp [outcome]

end

/-! ### Where it fails -/

/-- ASCII's blanks and digits, and `int` of digits -/
def exSpace (c : Char) : Bool := c = ' ' || c = '\n' || c = '\t' || c = '\r'
def exInt (s : Text) : Option Int := if s ≠ [] ∧ s.all Char.isDigit then some (s.foldl (fun n c => 10 * n + (c.toNat - 48)) 0) else none
def exLess (a b : Text) : Bool := decide (a < b)

theorem exKnown : Known exSpace Char.isDigit := by
  refine ⟨by decide, by decide, by decide, by decide, fun c h => ⟨?_, ?_⟩⟩
  · unfold exSpace
    simp only [Bool.or_eq_false_iff, decide_eq_false_iff_not]
    refine ⟨⟨⟨?_, ?_⟩, ?_⟩, ?_⟩ <;> (rintro rfl; revert h; decide)
  · rintro rfl
    revert h
    decide

/-- **C143** is false for the gcc of a packager with a blank in the name: what is read is the last of these words, whatever the version. -/
theorem C143_gcc_violated (program first last version rest : Text) (h1 : Word program) (h2 : ' ' ∉ first ∧ '\n' ∉ first)
    (h3 : ' ' ∉ last ∧ '\n' ∉ last) :
    GccPrints (first ++ ' ' :: last) version (program ++ [' ', '('] ++ (first ++ ' ' :: last) ++ [')', ' '] ++ version) ∧
    gcc (program ++ [' ', '('] ++ (first ++ ' ' :: last) ++ [')', ' '] ++ version) = .text (last ++ [')']) := by
  refine ⟨⟨program, [], h1, .inl rfl, by simp⟩, ?_⟩
  have e : (program ++ [' ', '('] ++ (first ++ ' ' :: last) ++ [')', ' '] ++ version).takeWhile (fun c => c != '\n') =
      program ++ ' ' :: (('(' :: first) ++ ' ' :: ((last ++ [')']) ++ ' ' :: (version.takeWhile fun c => c != '\n'))) := by
    rw [takeLine]
    · simp
    · simp only [List.mem_append, List.mem_cons, not_or]
      exact ⟨⟨⟨h1.2.2, by decide, by decide, by simp⟩, h2.2, by decide, h3.2⟩, by decide, by decide, by simp⟩
  unfold gcc
  rw [e, splitAt_sep h1.2.1, splitAt_sep (by
    rw [List.mem_cons, not_or]
    exact ⟨by decide, h2.1⟩), splitAt_sep (by
    rw [List.mem_append, not_or]
    exact ⟨h3.1, by decide⟩)]
  rfl

/-- so the gcc 4.4.5 of Debian is refused where 4.4.5 is required, and there is a `TypeError` where at least 4.4.5 is -/
theorem C143_debian_violated :
    Tool.gcc.prints "4.4.5".toList "gcc (Debian 4.4.5-8) 4.4.5\n".toList ∧
    check exInt exLess ⟨some [.num 4, .num 4, .num 5], none, none⟩ (Tool.gcc.found exSpace Char.isDigit "gcc (Debian 4.4.5-8) 4.4.5\n".toList) = .configFailed ∧
    check exInt exLess ⟨none, some [.num 4, .num 4, .num 5], none⟩ (Tool.gcc.found exSpace Char.isDigit "gcc (Debian 4.4.5-8) 4.4.5\n".toList) = .typeError := by
  refine ⟨⟨"Debian 4.4.5-8".toList, by decide +kernel, "gcc".toList, ['\n'], ⟨by decide +kernel, by decide +kernel, by decide +kernel⟩,
    .inr ⟨_, _, rfl, .inr rfl⟩, by decide +kernel⟩, by decide +kernel, by decide +kernel⟩

/-- **C143** is false for the clang of a packager: whatever version is required, there is an `AttributeError`. -/
theorem C143_clang_violated (int : Text → Option Int) (less : Text → Text → Bool) (space : Char → Bool) (version : Text) (r : Requires)
    (hr : r.exactly ≠ none ∨ r.atLeast ≠ none ∨ r.atMost ≠ none) (c : Char) (package : Text) (hc : c ≠ 'A' ∧ c ≠ 'c') :
    ClangPrints (c :: package) version (c :: package ++ "clang version ".toList ++ version) ∧
    check int less r (clang space (c :: package ++ "clang version ".toList ++ version)) = .attributeError := by
  refine ⟨⟨[], .inl rfl, by simp⟩, ?_⟩
  have h1 : clang space (c :: package ++ "clang version ".toList ++ version) = .nothing := by
    unfold clang appleClang clangVersion
    rw [List.cons_append, List.cons_append, after, if_neg (Ne.symm hc.1), after, if_neg (Ne.symm hc.2)]
    rfl
  rw [h1]
  unfold check
  rw [if_neg]
  rintro h
  simp only [Bool.and_eq_true, Option.isNone_iff_eq_none] at h
  rcases hr with hr | hr | hr
  · exact hr h.1.1
  · exact hr h.1.2
  · exact hr h.2

/-- **C143** is false for output without a version: instead of `ConfigFailed` there is an `IndexError` for gcc, and an
`AttributeError` for clang and icc, whatever version is required. -/
theorem C143_unread_violated (int : Text → Option Int) (less : Text → Text → Bool) (space digit : Char → Bool) (r : Requires)
    (hr : r.exactly ≠ none ∨ r.atLeast ≠ none ∨ r.atMost ≠ none) (out rest : Text) (ho : ' ' ∉ out)
    (hs : ∀ c, rest.head? = some c → space c = true ∧ digit c = false ∧ c ≠ '.') :
    check int less r (gcc out) = .indexError ∧
    check int less r (clang space ("clang version ".toList ++ rest)) = .attributeError ∧
    check int less r (intel digit ("icc (ICC) ".toList ++ rest)) = .attributeError := by
  have hn : ¬ ((r.exactly.isNone && r.atLeast.isNone && r.atMost.isNone) = true) := by
    intro h
    simp only [Bool.and_eq_true, Option.isNone_iff_eq_none] at h
    rcases hr with h' | h' | h'
    · exact h' h.1.1
    · exact h' h.1.2
    · exact h' h.2
  have one : ∀ w : Text, ' ' ∉ w → splitAt ' ' w = [w] := by
    intro w hw
    induction w with
    | nil => rfl
    | cons d w ih =>
      simp only [List.mem_cons, not_or] at hw
      rw [splitAt, if_neg (Ne.symm hw.1), ih hw.2]
  have h1 : gcc out = .noWord := by
    unfold gcc
    rw [one _ (fun h => ho ((List.takeWhile_prefix _).subset h))]
    rfl
  have h2 : clang space ("clang version ".toList ++ rest) = .nothing := by
    have e : rest.takeWhile (fun c => !space c) = [] := by
      cases rest with
      | nil => rfl
      | cons c rest => rw [List.takeWhile_cons_of_neg (by simp [(hs c rfl).1])]
    unfold clang appleClang clangVersion
    simp only [show "clang version ".toList = ['c', 'l', 'a', 'n', 'g', ' ', 'v', 'e', 'r', 's', 'i', 'o', 'n', ' '] by decide +kernel,
      List.cons_append, List.nil_append, after, if_true, e]
    rfl
  have h3 : intel digit ("icc (ICC) ".toList ++ rest) = .nothing := by
    have e : rest.takeWhile (fun c => digit c || c == '.') = [] := by
      cases rest with
      | nil => rfl
      | cons c rest => rw [List.takeWhile_cons_of_neg (by simp [(hs c rfl).2])]
    unfold intel icc
    simp only [show "icc (ICC) ".toList = ['i', 'c', 'c', ' ', '(', 'I', 'C', 'C', ')', ' '] by decide +kernel,
      List.cons_append, List.nil_append, after, if_true, e]
    rfl
  refine ⟨?_, ?_, ?_⟩ <;> simp only [check, if_neg hn, h1, h2, h3]

example : ' ' ∉ "gcc-4.5".toList ∧ ∀ c, " x".toList.head? = some c → exSpace c = true ∧ Char.isDigit c = false ∧ c ≠ '.' := by
  refine ⟨by decide +kernel, ?_⟩
  intro c hc
  have e : " x".toList.head? = some ' ' := by decide +kernel
  rw [e] at hc
  cases hc
  decide +kernel

/-- `C143_partial`: gcc, clang of both kinds, icc and llvm-config -/
example : check exInt exLess ⟨none, some [.num 4, .num 5], some [.num 5]⟩ (Tool.gcc.found exSpace Char.isDigit "gcc (GCC) 4.5.2\nCopyright".toList) = .ok ∧
    check exInt exLess ⟨none, some [.num 3], none⟩ (Tool.clang.found exSpace Char.isDigit "clang version 2.9 (tags/RELEASE_29/final)\n".toList) = .configFailed ∧
    Tool.clang.found exSpace Char.isDigit "Apple clang version 1.5 (tags/Apple/clang-60) (based on LLVM 2.8)\nTarget".toList = .text "2.8".toList ∧
    Tool.intel.found exSpace Char.isDigit "icpc (ICC) 11.1 20090511\n".toList = .text "11.1".toList ∧
    Tool.other.found exSpace Char.isDigit "2.9\n".toList = .text "2.9".toList := by decide +kernel
example : Tool.clang.printsPlainly "2.8".toList "Apple clang version 1.5 (tags/Apple/clang-60) (based on LLVM 2.8)\nTarget: x86".toList :=
  .inr ⟨"version 1.5 (tags/Apple/clang-60)".toList, "\nTarget: x86".toList, by decide +kernel, .inr ⟨_, rfl⟩, by decide +kernel⟩

end Verif.Versions
