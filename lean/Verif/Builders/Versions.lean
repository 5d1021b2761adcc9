import Verif.Builders.Core
/-!
# Model of how the versions of tools are read and checked

`version` of `Gcc` (lib/fbuild/builders/c/gcc/__init__.py 312-316), `Clang` (lib/fbuild/builders/c/clang/__init__.py 8-23), `Intel`
(lib/fbuild/builders/c/intel.py 8-14), of `LlvmConfig` (lib/fbuild/builders/llvm.py 24-31), `ConfigSDL` (lib/fbuild/builders/sdl.py 24-30),
`PkgConfig` (lib/fbuild/builders/pkg_config.py 16-28) and the OCaml compilers (lib/fbuild/builders/ocaml/__init__.py 257-260), and the
`check_version` that is run with it.  The output of the tool is a text; blanks (`str.strip` and `\S`) and digits (`\d`) are parameters.
-/
namespace Verif.Versions
open Verif.Builders (Part Requires checkVersion)

abbrev Text := List Char

/-- what `version()` gives -/
inductive Found where
  | text (s : Text)
  /-- `None` -/
  | nothing
  /-- `IndexError` -/
  | noWord
  deriving DecidableEq

/-- `s.split(c)` -/
def splitAt (c : Char) : Text → List Text
  | [] => [[]]
  | d :: s =>
    if d = c then [] :: splitAt c s
    else match splitAt c s with
      | [] => [[d]]
      | w :: ws => (d :: w) :: ws

/-- `Gcc.version` (gcc/__init__.py 312-316): `stdout.split('\n')[0].split(' ')[2]` -/
def gcc (out : Text) : Found :=
  match (splitAt ' ' (out.takeWhile fun c => c != '\n'))[2]? with
  | some w => .text w
  | none => .noWord

/-- what comes after `p` -/
def after : Text → Text → Option Text
  | [], s => some s
  | _ :: _, [] => none
  | c :: p, d :: s => if c = d then after p s else none

/-- `Apple clang ` -/
def appleClang : Text := ['A', 'p', 'p', 'l', 'e', ' ', 'c', 'l', 'a', 'n', 'g', ' ']
/-- ` (based on LLVM ` -/
def based : Text := [' ', '(', 'b', 'a', 's', 'e', 'd', ' ', 'o', 'n', ' ', 'L', 'L', 'V', 'M', ' ']
/-- `clang version ` -/
def clangVersion : Text := ['c', 'l', 'a', 'n', 'g', ' ', 'v', 'e', 'r', 's', 'i', 'o', 'n', ' ']
/-- `icc (ICC) ` -/
def icc : Text := ['i', 'c', 'c', ' ', '(', 'I', 'C', 'C', ')', ' ']
/-- `icpc (ICC) ` -/
def icpc : Text := ['i', 'c', 'p', 'c', ' ', '(', 'I', 'C', 'C', ')', ' ']

section
variable (space digit : Char → Bool)

/-- `(\S+)\)`: the longest group -/
def untilParen : Text → Option Text
  | [] => none
  | c :: s =>
    if space c then none
    else match untilParen s with
      | some r => some (c :: r)
      | none => if s.head? = some ')' then some [c] else none

/-- `.* \(based on LLVM (\S+)\)`: the longest `.*`, which takes no newline -/
def apple : Text → Option Text
  | [] => none
  | c :: s =>
    match (if c = '\n' then none else apple s) with
    | some v => some v
    | none => (after based (c :: s)).bind (untilParen space)

/-- a group of at least one character -/
def some1 : Text → Found
  | [] => .nothing
  | v => .text v

/-- `Clang.version` (clang/__init__.py 8-23) -/
def clang (out : Text) : Found :=
  match (after appleClang out).bind (apple space) with
  | some v => .text v
  | none =>
    match after clangVersion out with
    | some s => some1 (s.takeWhile fun c => !space c)
    | none => .nothing

/-- `Intel.version` (intel.py 8-14) -/
def intel (out : Text) : Found :=
  match after icc out with
  | some s => some1 (s.takeWhile fun c => digit c || c == '.')
  | none =>
    match after icpc out with
    | some s => some1 (s.takeWhile fun c => digit c || c == '.')
    | none => .nothing

/-- `stdout.decode().strip()`, of the other tools -/
def plain (out : Text) : Found := .text (((out.dropWhile space).reverse.dropWhile space).reverse)

end

/-- how a check of a version ends -/
inductive Outcome where
  | ok | configFailed | typeError | attributeError | indexError
  deriving DecidableEq

/-- the exceptions of `check_version` -/
def outcome : Builders.Outcome → Outcome
  | .ok => .ok
  | .configFailed => .configFailed
  | .typeError => .typeError

/-- `check_version` (builders/__init__.py 73-122) with a `version_function`, which is called only if something is required; a version that
is `None` cannot be split. -/
def check (int : Text → Option Int) (less : Text → Text → Bool) (r : Requires) (version : Found) : Outcome :=
  if r.exactly.isNone && r.atLeast.isNone && r.atMost.isNone then .ok
  else
    match version with
    | .text s => outcome (checkVersion int less r s)
    | .nothing => .attributeError
    | .noWord => .indexError

end Verif.Versions
