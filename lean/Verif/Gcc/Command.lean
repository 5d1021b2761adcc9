import Verif.Gcc.Core
import Verif.Path.Core
/-!
# Model of the command lines in lib/fbuild/builders/c/gcc/__init__.py

`Gcc.__call__` (167-310) up to `ctx.execute`, and the command of `Ar.__call__` (44-97) with what `ar` does.  Left out: the
texts for the log, `ranlib`, and the version and flag checks of the constructor.  `Path(x)` is `x` (POSIX).
-/
namespace Verif.Gcc

/-- Python's `a <= b` for texts: by code points -/
def leText : Text → Text → Bool
  | [], _ => true
  | _ :: _, [] => false
  | x :: xs, y :: ys => if x = y then leText xs ys else x.toNat < y.toNat

/-! ## The libraries, with the directories and external libraries they bring along -/

/-- A `fbuild.builders.c.Library` (builders/c/__init__.py:257-300), or a plain path, which has no `libs`, `libpaths` and
`external_libs`. -/
structure LibFiles where
  deps : Nat → List Nat
  isLib : Nat → Bool
  path : Nat → Text
  libpaths : Nat → List Text
  external : Nat → List Text

/-- `parent, lib = Path(lib).split()` (248) -/
def LibFiles.parent (g : LibFiles) (l : Nat) : Text := (Posix.split (g.path l)).1

/-- the name behind `-l` (248-254) -/
def LibFiles.name (g : LibFiles) (l : Nat) : Text := libName (Posix.split (g.path l)).2

/-- what the order of the libraries depends on -/
def LibFiles.libs (g : LibFiles) : Libs := ⟨g.deps, g.isLib, g.path, g.name⟩

/-- the lists that `f` extends -/
structure Link where
  names : List Text
  libpaths : List Text
  external : List Text

/-- `for l in lib.libs: f(l)` (245-246) -/
def eachLib (f : Nat → Link → Option Link) : List Nat → Link → Option Link
  | [], s => some s
  | l :: ls, s =>
    match f l s with
    | none => none
    | some s => eachLib f ls s

/-- The function `f` (230-257) with all it does.  The number is the recursion limit; `none` is `RecursionError`. -/
def visit (g : LibFiles) : Nat → Nat → Link → Option Link
  | 0, _, _ => none
  | n + 1, lib, s =>
    if g.isLib lib = false ∧ g.path lib ∈ s.names then some s                       -- 231-232
    else
      match eachLib (visit g n) (g.deps lib)
        { s with libpaths := dedup (g.libpaths lib) s.libpaths                      -- 235-237
                 external := dedup (g.external lib) s.external } with               -- 239-241
      | none => none
      | some s => some {
          names := dedup [g.name lib] s.names                                       -- 256-257
          libpaths := dedup [g.parent lib] s.libpaths                               -- 250-251
          external := s.external }

/-! ## The command -/

/-- What the constructor stores (105-147).  `debug` and so on: `None`, or whether the value is true. -/
structure Cc where
  exe : Text
  preFlags : List Text := []
  flags : List Text := []
  includes : List Text := []
  macros : List Text := []
  warnings : List Text := []
  libpaths : List Text := []
  libs : List Nat := []
  ldlibs : List Text := []
  external : List Text := []
  debug : Option Bool := none
  profile : Option Bool := none
  optimize : Option Bool := none
  debugFlags : List Text := ["-g".toList]
  profileFlags : List Text := ["-pg".toList]
  optimizeFlags : List Text := ["-O2".toList]
  arch : Option Text := none
  machineFlags : List Text := []

/-- the arguments of a call (167-183) -/
structure Args where
  srcs : List Text
  dst : Option Text := none
  preFlags : List Text := []
  flags : List Text := []
  includes : List Text := []
  macros : List Text := []
  warnings : List Text := []
  libpaths : List Text := []
  libs : List Nat := []
  ldlibs : List Text := []
  external : List Text := []
  debug : Option Bool := none
  profile : Option Bool := none
  optimize : Option Bool := none
  arch : Option Text := none
  machineFlags : List Text := []
  includeSourceDirs : Bool := true

/-- `(x is None and self.x) or x` as a condition (272-279) -/
def asked (own given : Option Bool) : Bool :=
  (given.isNone && own.getD false) || given.getD false

/-- `arch = (arch is None and self.arch) or arch` and `if arch` (281-283) -/
def archWords (own given : Option Text) : List Text :=
  match (if given.isNone ∧ own.getD [] ≠ [] then own else given) with
  | none => []
  | some a => if a = [] then [] else ["-arch".toList, a]

/-- a set with the elements of two lists, sorted (202-209, 287-290) -/
def sortedSet (given own : List Text) : List Text := sorted leText (dedup (given ++ own) [])

/-- `if dst is not None` (292-293) -/
def dstWords : Option Text → List Text
  | none => []
  | some d => ["-o".toList, d]

/-- the words in front of the libraries (268-299); `libpaths` is the list after the libraries were walked -/
def wordsBefore (b : Cc) (a : Args) (libpaths : List Text) : List Text :=
  [b.exe] ++ b.preFlags ++ a.preFlags
    ++ (if asked b.debug a.debug then b.debugFlags else [])
    ++ (if asked b.profile a.profile then b.profileFlags else [])
    ++ (if asked b.optimize a.optimize then b.optimizeFlags else [])
    ++ archWords b.arch a.arch
    ++ includeArgs leText b.includes a.includes
        (if a.includeSourceDirs then a.srcs.map (fun s => (Posix.split s).1) else [])
    ++ (sortedSet a.macros b.macros).map ("-D".toList ++ ·)
    ++ (sortedSet a.warnings b.warnings).map ("-W".toList ++ ·)
    ++ ((sorted leText libpaths).filter (· ≠ [])).map ("-L".toList ++ ·)
    ++ ((sortedSet a.machineFlags b.machineFlags).filter (· ≠ [])).map ("-m".toList ++ ·)
    ++ dstWords a.dst
    ++ dedup (b.flags ++ a.flags) []
    ++ a.srcs

/-- the lists before the libraries are walked (211-229) -/
def linkStart (b : Cc) (a : Args) : Link :=
  ⟨[], dedup (b.libpaths ++ a.libpaths) [], dedup (b.external ++ a.external) []⟩

/-- The command that `Gcc.__call__` executes (167-310); `none` is `RecursionError`. -/
def command (g : LibFiles) (limit : Nat) (b : Cc) (a : Args) : Option (List Text) :=
  match eachLib (visit g limit) (b.libs ++ a.libs) (linkStart b a) with
  | none => none
  | some s =>
    let cmd := wordsBefore b a s.libpaths
    if "-c".toList ∈ cmd then some cmd                                              -- 302
    else some (cmd ++ s.names.reverse.map ("-l".toList ++ ·) ++ s.external.map ("-l".toList ++ ·)
      ++ b.ldlibs ++ a.ldlibs)                                                      -- 304-308

/-! ## Names of the files that are made -/

/-- `Path(dst or src).addroot(buildroot).replaceext(suffix)` (`Compiler.__call__`, 363-367) -/
def objectFile (root suffix src : Text) (dst : Option Text) : Text :=
  Path.replaceext (Path.addroot (match dst with | none => src | some d => if d = [] then src else d) root) suffix

/-- `dst = Path(dst).addroot(buildroot)`, `dst.parent / prefix + dst.name + suffix` (`Linker.__call__`, 401-405;
`Ar.__call__`, 62-65) -/
def linkedFile (root pre suffix dst : Text) : Text :=
  let d := Path.addroot dst root
  Posix.join (Posix.split d).1 pre ++ (Posix.split d).2 ++ suffix

/-! ## Archives -/

/-- The members of an archive, by name. -/
abbrev Archive := List (Text × Text)

/-- `ar -rcs`, as its manual describes it: each file replaces the member of its name, or is added at the end; other members
stay.  If there is no archive, it is created.  `read` is the contents of a file. -/
def arReplace (read : Text → Text) : List Text → Archive → Archive
  | [], old => old
  | f :: fs, old =>
    let name := Posix.tail f
    arReplace read fs
      (if name ∈ old.map (·.1) then old.map (fun m => if m.1 = name then (name, read f) else m)
       else old ++ [(name, read f)])

/-- `Ar.__call__` (60-83) on the archive that is there, if any.  `glob` is `Path.globall` of one pattern. -/
def makeArchive (glob : Text → List Text) (read : Text → Text) (srcs : List Text) (there : Option Archive) : Archive :=
  arReplace read (srcs.flatMap glob) (there.getD [])

end Verif.Gcc
