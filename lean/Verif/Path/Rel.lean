import Verif.Path.Core
/-!
# `Path.relpath`, `Path.abspath`, `Path.normpath`, and the command line of `jar`

Model of `lib/fbuild/path.py` (131-133, 319-321, 328-336) with the functions of Python's `posixpath` behind it, and of
`Jar.uncached_create` of `lib/fbuild/builders/java.py` (32-68) up to the call of `execute`.
-/
namespace Verif.Path.Rel
open Verif.Posix Verif.Path

/-- `p.split('/')` -/
def splitSlash : Text → List Text
  | [] => [[]]
  | c :: s =>
    if c = '/' then [] :: splitSlash s
    else match splitSlash s with
      | [] => [[c]]
      | p :: ps => (c :: p) :: ps

/-- `'/'.join(ps)` -/
def joinSlash : List Text → Text
  | [] => []
  | [a] => a
  | a :: b :: rest => a ++ '/' :: joinSlash (b :: rest)

/-- one round of the loop of `posixpath.normpath`; `abs` is `initial_slashes != 0` -/
def normStep (abs : Bool) (new : List Text) (comp : Text) : List Text :=
  if comp = [] ∨ comp = ['.'] then new
  else if comp ≠ ['.', '.'] ∨ (abs = false ∧ new = []) ∨ new.getLast? = some ['.', '.'] then new ++ [comp]
  else new.dropLast

/-- `initial_slashes`: two slashes are kept, three or more are one -/
def slashes : Text → Nat
  | '/' :: '/' :: '/' :: _ => 1
  | '/' :: '/' :: _ => 2
  | '/' :: _ => 1
  | _ => 0

/-- `posixpath.normpath` -/
def normpath (p : Text) : Text :=
  if p = [] then ['.']
  else
    let r := List.replicate (slashes p) '/' ++ joinSlash ((splitSlash p).foldl (normStep (slashes p != 0)) [])
    if r = [] then ['.'] else r

/-- `posixpath.abspath`; `cwd` is what `os.getcwd()` returns -/
def abspath (cwd p : Text) : Text := if isabs p then normpath p else normpath (join cwd p)

/-- the length of the common prefix of two lists (`genericpath.commonprefix`) -/
def common : List Text → List Text → Nat
  | a :: as, b :: bs => if a = b then common as bs + 1 else 0
  | _, _ => 0

/-- `posixpath.relpath`, which `Path.relpath` calls; `none` is a `ValueError` -/
def relpath (cwd p start : Text) : Option Text :=
  if p = [] then none
  else
    let s := (splitSlash (abspath cwd start)).filter (· ≠ [])
    let q := (splitSlash (abspath cwd p)).filter (· ≠ [])
    let i := common s q
    let rel := List.replicate (s.length - i) ['.', '.'] ++ q.drop i
    match rel with
    | [] => some ['.']
    | a :: rest => some (rest.foldl join a)

/-- a list of results, unless one of them is missing -/
def all : List (Option Text) → Option (List Text)
  | [] => some []
  | none :: _ => none
  | some a :: rest => (all rest).map (a :: ·)

/-- What `Jar.uncached_create` (java.py 32-68) executes: the directory to run it in and the command line.  `none` if it raises.
`cwd` is the directory of the process, `dir` the argument `cwd` (42-43). -/
def jar (cwd exe buildroot : Text) (dir : Option Text) (dst : Text) (srcs : List Text) (manifest : Option Text) :
    Option (Text × List Text) :=
  if srcs = [] then none
  else
    let at' := dir.getD buildroot
    let dst := addroot dst buildroot
    let flags : List (Option Text) := match manifest with
      | none => [some "cf".toList]
      | some m => [some "cmf".toList, relpath cwd m at']
    (all (flags ++ relpath cwd dst at' :: srcs.map fun s => relpath cwd s at')).map fun args => (at', exe :: args)

end Verif.Path.Rel
