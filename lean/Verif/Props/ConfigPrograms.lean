import Verif.Config.Programs
import Verif.Props.ConfigResults
/-!
# Tests for headers and macros find exactly what is there

C162.
-/
namespace Verif.Config
open Results (code split Line)

/-! ## Specification: a C preprocessor -/

/-- What a compiler has: the macros it defines, and its headers.  A header can depend on what is defined where it is included; `none`: there is
no such header, or it cannot be used there; otherwise the macros that are defined behind it. -/
structure Compiler where
  builtin : Text → Bool
  headers : Text → (Text → Bool) → Option (Text → Bool)
  /-- the code without directives can be compiled -/
  accepts : List Text → Bool

/-- the lines of C that the programs consist of -/
inductive Directive
  | include (file : Text)
  | ifndef (name : Text)
  | endif
  | error
  | code (line : Text)

/-- the text behind `x` -/
def behind (x l : Text) : Option Text := if x.isPrefixOf l then some (l.drop x.length) else none

/-- how a line is read -/
def directive (l : Text) : Directive :=
  if l = "#endif".toList then .endif
  else match behind "#include <".toList l with
    | some r => .include r.dropLast
    | none => match behind "#ifndef ".toList l with
      | some n => .ifndef n
      | none => if "#error".toList.isPrefixOf l then .error else .code l

/-- The code that is left, or `none` for an error; each `#ifndef` needs its `#endif`.  `open'` are the conditions around the line, the innermost first. -/
def preprocess (c : Compiler) : (Text → Bool) → List Bool → List Text → Option (List Text)
  | _, open', [] => if open' = [] then some [] else none
  | defined, open', l :: ls =>
    match directive l with
    | .endif =>
      match open' with
      | [] => none
      | _ :: open' => preprocess c defined open' ls
    | .ifndef n => preprocess c defined ((!defined n) :: open') ls
    | .include f =>
      if open'.all id then
        match c.headers f defined with
        | none => none
        | some defined => preprocess c defined open' ls
      else preprocess c defined open' ls
    | .error => if open'.all id then none else preprocess c defined open' ls
    | .code l => if open'.all id then (preprocess c defined open' ls).map (l :: ·) else preprocess c defined open' ls

/-- the compiler compiles the text -/
def Compiler.compiles (c : Compiler) (text : Text) : Bool :=
  match preprocess c c.builtin [] (code text) with
  | none => false
  | some ls => c.accepts ls

/-- `int main() { return 0; }` can be compiled, and run -/
def Compiler.works (c : Compiler) : Prop := c.accepts ["int main() {".toList, "return 0;".toList, "}".toList] = true

/-- a program can be run exactly if it can be compiled -/
def Compiler.runs (c : Compiler) (run : Text → Option Text → Option Text) : Prop :=
  ∀ text stdin, (run text stdin).isSome = c.compiles text

/-- the macros that are defined if the header is included first -/
def Compiler.defined (c : Compiler) : Option Text → Option (Text → Bool)
  | none => some c.builtin
  | some h => c.headers h c.builtin

/-! ## Proofs -/

theorem code_emptyMain (a : Text) : code (a ++ emptyMain) = code a ++ ["int main() {".toList, "return 0;".toList, "}".toList] := by
  have e : a ++ emptyMain = a ++ '\n' :: "int main() {\n    return 0;\n}\n".toList := by
    unfold emptyMain
    rfl
  rw [e, Results.code_newline]
  congr 1

theorem directive_include (f : Text) : directive ("#include <".toList ++ f ++ ['>']) = .include f := by
  have h1 : "#include <".toList ++ f ++ ['>'] ≠ "#endif".toList := by
    intro h
    have := congrArg (List.take 2) h
    simp at this
  have h2 : behind "#include <".toList ("#include <".toList ++ f ++ ['>']) = some (f ++ ['>']) := by
    unfold behind
    rw [List.append_assoc, if_pos (List.isPrefixOf_iff_prefix.2 (List.prefix_append _ _)), List.drop_left]
  unfold directive
  rw [if_neg h1, h2]
  simp

theorem directive_ifndef (n : Text) : directive ("#ifndef ".toList ++ n) = .ifndef n := by
  have h1 : "#ifndef ".toList ++ n ≠ "#endif".toList := by
    intro h
    have := congrArg (List.take 2) h
    simp at this
  have h2 : behind "#include <".toList ("#ifndef ".toList ++ n) = none := by
    unfold behind
    rw [if_neg]
    rw [Bool.not_eq_true]
    rfl
  have h3 : behind "#ifndef ".toList ("#ifndef ".toList ++ n) = some n := by
    unfold behind
    rw [if_pos (List.isPrefixOf_iff_prefix.2 (List.prefix_append _ _)), List.drop_left]
  unfold directive
  rw [if_neg h1, h2, h3]

theorem directive_error (n : Text) : directive ("#error ".toList ++ n) = .error := by
  have h1 : "#error ".toList ++ n ≠ "#endif".toList := by
    intro h
    have := congrArg (List.take 3) h
    simp at this
  have h2 : behind "#include <".toList ("#error ".toList ++ n) = none := by
    unfold behind
    rw [if_neg]
    rw [Bool.not_eq_true]
    rfl
  have h3 : behind "#ifndef ".toList ("#error ".toList ++ n) = none := by
    unfold behind
    rw [if_neg]
    rw [Bool.not_eq_true]
    rfl
  unfold directive
  rw [if_neg h1, h2, h3]
  rfl

theorem preprocess_main (c : Compiler) (defined : Text → Bool) :
    preprocess c defined [] ["int main() {".toList, "return 0;".toList, "}".toList] =
      some ["int main() {".toList, "return 0;".toList, "}".toList] := by
  have h1 : directive "int main() {".toList = .code "int main() {".toList := rfl
  have h2 : directive "return 0;".toList = .code "return 0;".toList := rfl
  have h3 : directive "}".toList = .code "}".toList := rfl
  simp only [preprocess, h1, h2, h3, List.all_nil, if_true, Option.map_some]

theorem code_header (header : Option Text) (f : Text) (hh : ∀ x, header = some x → '\n' ∉ x) (hf : '\n' ∉ f) :
    code (headerProgram header f) = Results.headerLine header ++ ["#include <".toList ++ f ++ ['>']] ++
      ["int main() {".toList, "return 0;".toList, "}".toList] := by
  have e : headerProgram header f = ([] ++ '\n' :: (Results.includeLine header ++ '\n' :: ("#include <".toList ++ f ++ ['>']))) ++
      emptyMain := by
    unfold headerProgram
    simp
  rw [e, code_emptyMain, Results.code_newline, Results.code_newline, Results.code_include header hh, Results.code_nil, List.nil_append]
  have := Results.code_include (some f) (by rintro x ⟨⟩; exact hf)
  rw [show code ("#include <".toList ++ f ++ ['>']) = _ from this]
  rfl

theorem code_macro (header : Option Text) (n : Text) (hh : ∀ x, header = some x → '\n' ∉ x) (hn : '\n' ∉ n) :
    code (macroProgram header n) = Results.headerLine header ++
      ["#ifndef ".toList ++ n, "#error ".toList ++ (n ++ " is not defined".toList), "#endif".toList] ++
      ["int main() {".toList, "return 0;".toList, "}".toList] := by
  have e : macroProgram header n = ([] ++ '\n' :: (Results.includeLine header ++ '\n' :: (("#ifndef ".toList ++ n) ++ '\n' ::
      (("#error ".toList ++ (n ++ " is not defined".toList)) ++ '\n' :: "#endif".toList)))) ++ emptyMain := by
    unfold macroProgram
    simp
  have l1 : code ("#ifndef ".toList ++ n) = ["#ifndef ".toList ++ n] := by
    refine Results.code_line ⟨by simp, ?_, by simp⟩
    rw [List.mem_append, not_or]
    exact ⟨by decide, hn⟩
  have l2 : code ("#error ".toList ++ (n ++ " is not defined".toList)) = ["#error ".toList ++ (n ++ " is not defined".toList)] := by
    refine Results.code_line ⟨by simp, ?_, by simp⟩
    rw [List.mem_append, List.mem_append, not_or, not_or]
    exact ⟨by decide, hn, by decide⟩
  have l3 : code "#endif".toList = ["#endif".toList] := by decide +kernel
  rw [e, code_emptyMain, Results.code_newline, Results.code_newline, Results.code_newline, Results.code_newline,
    Results.code_include header hh, Results.code_nil, List.nil_append, l1, l2, l3]
  simp

theorem preprocess_header (c : Compiler) (header : Option Text) (ls : List Text) :
    preprocess c c.builtin [] (Results.headerLine header ++ ls) =
      match c.defined header with
      | none => none
      | some d => preprocess c d [] ls := by
  cases header with
  | none => rfl
  | some h =>
    show preprocess c c.builtin [] (("#include <".toList ++ h ++ ['>']) :: ls) = _
    rw [preprocess, directive_include]
    rfl

theorem compiles_header (c : Compiler) (hw : c.works) (f : Text) (hf : '\n' ∉ f) :
    c.compiles (headerProgram none f) = (c.defined (some f)).isSome := by
  unfold Compiler.compiles
  rw [code_header none f (by simp) hf]
  have := preprocess_header c (some f) ["int main() {".toList, "return 0;".toList, "}".toList]
  rw [show Results.headerLine none ++ ["#include <".toList ++ f ++ ['>']] = Results.headerLine (some f) from rfl, this]
  cases h : c.defined (some f) with
  | none => rfl
  | some d =>
    dsimp only
    rw [preprocess_main]
    exact hw

theorem compiles_macro (c : Compiler) (hw : c.works) (header : Option Text) (n : Text) (hh : ∀ x, header = some x → '\n' ∉ x) (hn : '\n' ∉ n) :
    c.compiles (macroProgram header n) = true ↔ ∃ d, c.defined header = some d ∧ d n = true := by
  unfold Compiler.compiles
  rw [code_macro header n hh hn, List.append_assoc, preprocess_header]
  cases h : c.defined header with
  | none => simp
  | some d =>
    have e : preprocess c d [] (["#ifndef ".toList ++ n, "#error ".toList ++ (n ++ " is not defined".toList), "#endif".toList] ++
        ["int main() {".toList, "return 0;".toList, "}".toList]) =
        if d n then some ["int main() {".toList, "return 0;".toList, "}".toList] else none := by
      have hend : directive "#endif".toList = .endif := rfl
      simp only [List.cons_append, List.nil_append]
      rw [preprocess, directive_ifndef]
      dsimp only
      rw [preprocess, directive_error]
      dsimp only
      rw [preprocess, hend]
      dsimp only
      rw [preprocess_main]
      cases d n <;> simp
    dsimp only
    rw [e]
    cases hd : d n with
    | true =>
      simp only [if_true]
      constructor
      · intro _
        exact ⟨d, rfl, hd⟩
      · intro _
        exact hw
    | false =>
      simp only [Bool.false_eq_true, if_false, false_iff]
      rintro ⟨d', h', h''⟩
      cases h'
      rw [hd] at h''
      cases h''

/-- **C162**, headers: the test of a header is its name if a program can include it first, and `None` otherwise; the header of the class of
tests does not matter. -/
theorem C162_header (c : Compiler) (hw : c.works) (run : Text → Option Text → Option Text) (hr : c.runs run)
    (other : Desc → Option Text → Text) (attr : HeaderAttr) (d : Desc) (f : Text) (hk : d.kind = .header f) (ht : d.test = none)
    (ho : d.stdout = none) (hf : '\n' ∉ f) :
    evaluate (formatTest other) run attr d =
      .value (if (c.headers f c.builtin).isSome then some (.header f) else none) := by
  have hp : formatTest other d none = headerProgram none f := by simp [formatTest, hk]
  have hc := compiles_header c hw f hf
  have hrun := hr (headerProgram none f) d.stdin
  rw [hc] at hrun
  unfold evaluate
  simp only [hk, ht, hp, if_true]
  show (match run (headerProgram none f) d.stdin with | none => _ | some stdout => process d stdout) = _
  have hdef : c.defined (some f) = c.headers f c.builtin := rfl
  rw [hdef] at hrun
  cases hx : run (headerProgram none f) d.stdin with
  | none =>
    rw [hx] at hrun
    rw [← hrun]
    rfl
  | some out =>
    rw [hx] at hrun
    rw [← hrun]
    simp [process, hk, expected, ho]

/-- **C162**, macros: the test of a macro is a `Macro` if the macro is defined, behind the header of the class of tests if it has one, and `None`
otherwise, also if the header is missing. -/
theorem C162_macro (c : Compiler) (hw : c.works) (run : Text → Option Text → Option Text) (hr : c.runs run)
    (other : Desc → Option Text → Text) (header : Option Text) (hh : ∀ x, header = some x → '\n' ∉ x) (d : Desc) (n : Text)
    (hk : d.kind = .macro) (hname : d.name = some n) (ht : d.test = none) (ho : d.stdout = none) (hn : '\n' ∉ n) :
    ∃ r, evaluate (formatTest other) run (header.map some) d = .value r ∧ (r = some .macro ∨ r = none) ∧
      (r = some .macro ↔ ∃ defs, c.defined header = some defs ∧ defs n = true) := by
  have hp : formatTest other d header = macroProgram header n := by simp [formatTest, hk, hname]
  have hc := compiles_macro c hw header n hh hn
  have hrun := hr (macroProgram header n) d.stdin
  rw [← hc, ← hrun]
  have he : evaluate (formatTest other) run (header.map some) d =
      match run (macroProgram header n) d.stdin with
      | none => .value none
      | some stdout => process d stdout := by
    unfold evaluate
    cases header with
    | none => simp only [hk, ht, Option.map_none, Bool.false_eq_true, if_false]; rw [hp]; rfl
    | some h => simp only [hk, ht, Option.map_some, Bool.false_eq_true, if_false]; rw [hp]; rfl
  rw [he]
  cases hx : run (macroProgram header n) d.stdin with
  | none => exact ⟨none, rfl, .inr rfl, by simp⟩
  | some out => exact ⟨some .macro, by simp [process, hk, expected, ho], .inl rfl, by simp⟩

/-- **C162**, without the header: if the header that the class of tests names was not found, all its macros are `None`, and no program is run. -/
theorem C162_missing (format : Desc → Option Text → Text) (run : Text → Option Text → Option Text) (d : Desc) (hk : d.kind = .macro) :
    evaluate format run (some none) d = .value none := by
  simp [evaluate, hk]

/-! ## An instance -/

/-- a compiler with two headers, of which the second needs the first -/
def cc : Compiler where
  builtin n := n = "__unix".toList
  headers f d :=
    if f = "stdio.h".toList then some fun n => d n || n = "EOF".toList
    else if f = "readline.h".toList then if d "EOF".toList then some d else none
    else none
  accepts _ := true

/-- a program that is run prints nothing -/
def ccRun (text : Text) (_ : Option Text) : Option Text := if cc.compiles text then some [] else none

example : cc.works ∧ cc.runs ccRun := by
  refine ⟨rfl, fun text stdin => ?_⟩
  unfold ccRun
  cases cc.compiles text <;> rfl

example : evaluate (formatTest fun _ _ => []) ccRun none { kind := .header "stdio.h".toList } = .value (some (.header "stdio.h".toList)) ∧
    evaluate (formatTest fun _ _ => []) ccRun (some (some "stdio.h".toList)) { kind := .macro, name := some "EOF".toList } =
      .value (some .macro) ∧
    evaluate (formatTest fun _ _ => []) ccRun (some (some "stdio.h".toList)) { kind := .macro, name := some "BOF".toList } = .value none ∧
    evaluate (formatTest fun _ _ => []) ccRun none { kind := .macro, name := some "EOF".toList } = .value none := by
  decide +kernel

/-- a header that needs another one is not found -/
example : evaluate (formatTest fun _ _ => []) ccRun none { kind := .header "readline.h".toList } = .value none ∧
    (cc.headers "readline.h".toList fun n => n = "EOF".toList).isSome = true := by
  decide +kernel

end Verif.Config
