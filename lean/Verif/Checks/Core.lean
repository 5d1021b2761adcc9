/-!
# Model of the checks of a C compiler

`check_statement`, `check_statements`, `check_header_exists`, `check_functions_exist`, `check_macros_exist` and `check_types_exist` of
`lib/fbuild/builders/c/__init__.py` (194-254), with `try_compile` of `lib/fbuild/builders/__init__.py` (177-183).  The compiler is a
parameter: what comes of a text.  The log is left out, and so are arguments that are neither a name nor a pair.
-/
namespace Verif.Checks

abbrev Text := List Char

/-- how `uncached_compile` of a text ends -/
inductive Outcome where
  | ok
  /-- `ExecutionError` -/
  | failed
  /-- another exception -/
  | raised (e : Text)
deriving DecidableEq

/-- `try_compile` (178-183) -/
def tryCompile (cc : Text → Outcome) (code : Text) : Except Text Bool :=
  match cc code with
  | .ok => .ok true
  | .failed => .ok false
  | .raised e => .error e

/-- `'#include <%s>' % h` (202) -/
def includeLine (h : Text) : Text := "#include <".toList ++ h ++ ['>']

/-- `'\n'.join(...)` (202) -/
def joinLines : List Text → Text
  | [] => []
  | [l] => l
  | l :: m :: ls => l ++ '\n' :: joinLines (m :: ls)

/-- the program (196-202) -/
def program (headers : List Text) (statement : Text) : Text :=
  "\n            ".toList ++ joinLines (headers.map includeLine) ++
    ";\n            int main() {\n                ".toList ++ statement ++
    "\n                return 0;\n            }\n        ".toList

/-- `check_statement` (194-210) -/
def checkStatement (cc : Text → Outcome) (headers : List Text) (statement : Text) : Except Text Bool :=
  tryCompile cc (program headers statement)

/-- `results.add(name)`, in the order of the first time -/
def add (results : List Text) (name : Text) : List Text := if name ∈ results then results else results ++ [name]

/-- the loop of `check_statements` (214-216) -/
def loop (cc : Text → Outcome) (headers : List Text) : List Text → List (Text × Text) → Except Text (List Text)
  | results, [] => .ok results
  | results, (name, statement) :: items =>
    match checkStatement cc headers statement with
    | .error e => .error e
    | .ok true => loop cc headers (add results name) items
    | .ok false => loop cc headers results items

/-- `check_statements` (212-218) and `check_functions_exist` (228-230) -/
def checkStatements (cc : Text → Outcome) (headers : List Text) (items : List (Text × Text)) : Except Text (List Text) :=
  loop cc headers [] items

/-- `check_header_exists` (222-226) -/
def checkHeader (cc : Text → Outcome) (header : Text) : Except Text Bool := checkStatement cc [header] []

/-- the statement for a macro (233-237) -/
def macroStatement (m : Text) : Text :=
  "\n            #ifndef ".toList ++ m ++ "\n            #error ".toList ++ m ++ "\n            #endif\n        ".toList

/-- `check_macros_exist` (232-241) -/
def checkMacros (cc : Text → Outcome) (headers : List Text) (macros : List Text) : Except Text (List Text) :=
  checkStatements cc headers (macros.map (fun m => (m, macroStatement m)))

/-- an argument of `check_types_exist`: a name, or a name and a statement -/
inductive Arg where
  | name (n : Text)
  | pair (n s : Text)

/-- `name, statement = name`, else the statement that declares a variable (246-249).  A string of two characters can be unpacked. -/
def item : Arg → Text × Text
  | .pair n s => (n, s)
  | .name [a, b] => ([a], [b])
  | .name n => (n, n ++ [' ', 't', ';'])

/-- `check_types_exist` (243-253) -/
def checkTypes (cc : Text → Outcome) (headers : List Text) (types : List Arg) : Except Text (List Text) :=
  checkStatements cc headers (types.map item)

end Verif.Checks
