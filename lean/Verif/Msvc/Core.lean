import Verif.Builders.Library
import Verif.Gcc.Command
/-!
# Model of lib/fbuild/builders/c/msvc.py

What `Builder.compile` makes of the output of the compiler (420-476), and the command line of `Link._run` (254-330).
Paths are texts; the conversion to a relative path is a parameter.  The command line of `Cl` is in `Msvc/Cl.lean`.
`Lib` and the names of the files are in `Msvc/Lib.lean`.  The output when the compiler fails and the levels of messages are in `Msvc/Shown.lean`.
-/
namespace Verif.Msvc

open Library (Obj)

abbrev Text := List Char

/-! ## The output of the compiler -/

/-- the lines of `io.StringIO(s)`, with their ends -/
def lines (s : Text) : List Text :=
  go [] s
where
  go : Text → Text → List Text
    | cur, [] => if cur = [] then [] else [cur]
    | cur, c :: s => if c = '\n' then (cur ++ [c]) :: go [] s else go (cur ++ [c]) s

/-- the text behind `x`, if `s` starts with it -/
def after (x s : Text) : Option Text := if x.isPrefixOf s then some (s.drop x.length) else none

/-- ` +`, as many as there are -/
def blanks (s : Text) : Option Text :=
  match s with
  | ' ' :: s => some (s.dropWhile (· = ' '))
  | _ => none

/-- `re.match(r'^Note: +including file: +(.*)\r\n', line)` (420), the group, for a line with one `\n` at the end.  `.` matches
`\r` too, so the group ends at the end of the line. -/
def depLine (line : Text) : Option Text :=
  match after "Note:".toList line with
  | none => none
  | some s =>
    match blanks s with
    | none => none
    | some s =>
      match after "including file:".toList s with
      | none => none
      | some s =>
        match blanks s with
        | none => none
        | some s => if "\r\n".toList.isSuffixOf s then some (s.take (s.length - 2)) else none

/-- `for line in io.StringIO(stdout.decode())` (450-468): the dependencies, and what is written to the log.  `relpath` is
`Path(...).relpath()`, `none` is `ValueError`; `loud` is `quieter == 0 and stdout_quieter == 0`. -/
def read (relpath : Text → Option Text) (loud : Bool) (srcName : Text) : List Text → List Text × Text
  | [] => ([], [])
  | line :: rest =>
    let (deps, log) := read relpath loud srcName rest
    match depLine line with
    | some path =>
      match relpath path with
      | some p => (p :: deps, log)
      | none => (deps, log)
    | none => if loud ∧ line ≠ srcName ++ "\r\n".toList then (deps, line ++ log) else (deps, log)

/-- the dependencies that `compile` reports, and what it writes -/
def compileOutput (relpath : Text → Option Text) (loud : Bool) (srcName stdout : Text) : List Text × Text :=
  read relpath loud srcName (lines stdout)

/-! ## The libraries -/

/-- `x in xs` -/
def has (xs : List Obj) (x : Obj) : Bool := xs.any fun y => Library.eq y x

/-- `for x in xs: if x not in new: new.append(x)` (263-273, 284-291) -/
def addNew : List Obj → List Obj → List Obj
  | new, [] => new
  | new, x :: xs => addNew (if has new x then new else new ++ [x]) xs

/-- the lists that `f` extends -/
structure St where
  libpaths : List Obj
  external : List Obj
  libs : List Obj

mutual
/-- the function `f` (280-298) -/
def walk : Obj → St → St
  | .lib s p l x, st =>
    if has st.libs (.lib s p l x) then st
    else
      let st := walks l { st with libpaths := addNew st.libpaths p, external := addNew st.external x }
      { st with libs := st.libs ++ [.lib s p l x] }
  | .text b s, st => if has st.libs (.text b s) then st else { st with libs := st.libs ++ [.text b s] }
  | .exe s l, st => if has st.libs (.exe s l) then st else { st with libs := st.libs ++ [.exe s l] }
/-- `for l in libs: f(l)` (295-296, 300-301) -/
def walks : List Obj → St → St
  | [], st => st
  | l :: ls, st => walks ls (walk l st)
end

/-- what a `Link` is made with (232-252), and the arguments of a call -/
structure Linker where
  exe : Text
  preFlags : List Text
  flags : List Text
  libpaths : List Obj
  libs : List Obj
  ldlibs : List Text
  external : List Obj

structure Args where
  dst : Text
  srcs : List Text
  preFlags : List Text
  flags : List Text
  libpaths : List Obj
  libs : List Obj
  ldlibs : List Text
  external : List Obj

/-- the lists after 263-301 -/
def collect (b : Linker) (a : Args) : St :=
  walks (b.libs ++ a.libs)
    { libpaths := addNew [] (b.libpaths ++ a.libpaths), external := addNew [] (b.external ++ a.external), libs := [] }

/-- `lib[:-4] + '.lib'` for a `.dll`, else `lib` (318-321) -/
def importName (s : Text) : Text :=
  if ".dll".toList.isSuffixOf s then s.take (s.length - 4) ++ ".lib".toList else s

/-- the command line (303-325) -/
def command (b : Linker) (a : Args) : List Text :=
  let st := collect b a
  [b.exe, "/nologo".toList] ++ b.preFlags ++ a.preFlags ++ ["/OUT:".toList ++ a.dst] ++ b.flags ++ a.flags ++
    (((Gcc.sorted Gcc.leText (st.libpaths.map Obj.str)).filter (· ≠ [])).map ("/LIBRARYPATH:".toList ++ ·)) ++
    ((b.external ++ st.external ++ b.libs ++ st.libs.reverse).map fun l => "/DEFAULTLIB:".toList ++ importName l.str) ++
    a.srcs ++ a.ldlibs

end Verif.Msvc
