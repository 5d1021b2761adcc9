/-!
# Model of lib/fbuild/builders/java.py

What `AbstractBuilder._run` (240-280) makes of the output of the compiler, the command line of `AbstractCompiler._run` (146-182) and of
`Java.run_class` (86-92).  Left out: `jar` (see `Verif/Path/Rel.lean`), the log, a compiler that fails.
-/
namespace Verif.Java

abbrev Text := List Char

/-! ## The output of the compiler -/

/-- the lines of `io.StringIO(s)`, with their ends -/
def lines : Text → Text → List Text
  | cur, [] => if cur = [] then [] else [cur]
  | cur, c :: s => if c = '\n' then (cur ++ [c]) :: lines [] s else lines (cur ++ [c]) s

/-- the literal parts of `_dep_regex` (237-238) -/
def litWrote : Text := ['[', 'w', 'r', 'o', 't', 'e', ' ']
def litObject : Text := ['R', 'e', 'g', 'u', 'l', 'a', 'r', 'F', 'i', 'l', 'e', 'O', 'b', 'j', 'e', 'c', 't', '[']
def litTo : Text := ['\'', ' ', 't', 'o', ' ']

/-- the text behind `x`, if `s` starts with it -/
def after (x s : Text) : Option Text := if x.isPrefixOf s then some (s.drop x.length) else none

/-- `'[^']+' to ` -/
def quoted (s : Text) : Option Text :=
  match s with
  | '\'' :: s =>
    if s.takeWhile (· ≠ '\'') = [] then none
    else after litTo (s.dropWhile (· ≠ '\''))
  | _ => none

/-- `([^\]]+)`: as much as possible, but something -/
def group (s : Text) : Option Text := if s.takeWhile (· ≠ ']') = [] then none else some (s.takeWhile (· ≠ ']'))

/-- an optional part: with it if the rest matches then, else without it -/
def optional (part : Text → Option Text) (rest : Text → Option Text) (s : Text) : Option Text :=
  match part s with
  | some s' => match rest s' with
    | some r => some r
    | none => rest s
  | none => rest s

/-- `_dep_regex.match(line)`, the group (237-238): `\[wrote (?:RegularFileObject\[)?(?:'[^']+' to )?([^\]]+)` -/
def wrote (line : Text) : Option Text :=
  match after litWrote line with
  | none => none
  | some s => optional (after litObject) (optional quoted group) s

/-- the files that `_run` returns (267-271) -/
def written (stderr : Text) : List Text := (lines [] stderr).filterMap wrote

/-! ## Command lines -/

/-- options of the compiler -/
def cp : Text := ['-', 'c', 'p']
def optD : Text := ['-', 'd']
def optSource : Text := ['-', 's', 'o', 'u', 'r', 'c', 'e', 'p', 'a', 't', 'h']
def optTarget : Text := ['-', 't', 'a', 'r', 'g', 'e', 't', ':']

/-- `-d dst` (161-162) -/
def dstArgs : Option Text → List Text
  | some d => [optD, d]
  | none => []

/-- the target (168-169) -/
def targetArgs : Option Text → List Text
  | some t => [optTarget ++ t]
  | none => []

/-- `_run` of the compiler (146-182), the command.  `debug` and `target` are the values that apply: the argument or the object's (164, 167). -/
def javac (exe : Text) (dst : Option Text) (debug : Bool) (debugFlags : List Text) (target : Option Text)
    (selfClasspaths classpaths selfSourcepaths sourcepaths selfFlags flags srcs : List Text) : List Text :=
  [exe]
    ++ dstArgs dst
    ++ (if debug then debugFlags else [])
    ++ targetArgs target
    ++ (selfClasspaths ++ classpaths).flatMap (fun p => [cp, p])
    ++ (selfSourcepaths ++ sourcepaths).flatMap (fun p => [optSource, p])
    ++ selfFlags ++ flags ++ srcs

/-- `os.pathsep.join(ps)` on POSIX -/
def pathsep : List Text → Text
  | [] => []
  | [p] => p
  | p :: q :: ps => p ++ ':' :: pathsep (q :: ps)

/-- `Java.run_class` (86-92) -/
def runClass (exe : Text) (selfClasspaths classpaths : List Text) (cls : Text) : List Text :=
  [exe, cp, pathsep (selfClasspaths ++ classpaths), cls]

end Verif.Java
