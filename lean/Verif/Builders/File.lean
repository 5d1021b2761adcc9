import Verif.Path.Core
/-!
# Model of lib/fbuild/builders/file.py

`copy`, `move` and `copy_regex`, and what they use of lib/fbuild/path.py (`makedirs`, `find`, `copy`, `move`), on a tree
of files and directories.  Left out: links, permissions of directories, a component `..` (it is taken for a name like any
other), the log.  The cache around the functions is the subject of `DB/`.
-/
namespace Verif.FileOps
open Verif.Posix Verif.Path

/-! ## The file system -/

/-- content and mode are numbers -/
inductive Node where
  | file (content mode : Nat)
  | dir
  deriving DecidableEq

/-- the names that lead from the top directory to a file, outermost first -/
abbrev Loc := List Text

abbrev FS := Loc → Option Node

def FS.set (fs : FS) (l : Loc) (n : Node) : FS := fun k => if k = l then some n else fs k

def FS.erase (fs : FS) (l : Loc) : FS := fun k => if k = l then none else fs k

/-- the parts of a text between slashes -/
def pieces : Text → List Text
  | [] => [[]]
  | c :: s =>
    if c = '/' then [] :: pieces s
    else match pieces s with
      | [] => [[c]]
      | p :: ps => (c :: p) :: ps

/-- the names in a path: empty parts and single dots count for nothing -/
def names (p : Text) : Loc := (pieces p).filter fun c => c ≠ [] ∧ c ≠ ['.']

/-- where a path leads; a relative path starts at the working directory -/
def loc (cwd : Loc) (p : Text) : Loc := if isabs p then names p else cwd ++ names p

/-- a path that ends in a slash or a dot leads to nothing but a directory -/
def mustDir (p : Text) : Bool := tail p = [] || tail p = ['.']

/-- `os.stat`: `none` if it fails -/
def stat (cwd : Loc) (fs : FS) (p : Text) : Option Node :=
  if p = [] then none
  else match fs (loc cwd p) with
    | some (.file c m) => if mustDir p then none else some (.file c m)
    | n => n

/-- `Path.exists` (path.py 175-176) -/
def exists' (cwd : Loc) (fs : FS) (p : Text) : Bool := (stat cwd fs p).isSome

/-- `Path.isdir` (path.py 251-252) -/
def isdir (cwd : Loc) (fs : FS) (p : Text) : Bool := stat cwd fs p = some .dir

/-- `os.mkdir` for what is missing of the names `rest` below `at'`, until one of them is a file. -/
def mkdirs (fs : FS) (at' : Loc) : List Text → Bool × FS
  | [] => (true, fs)
  | c :: rest =>
    match fs (at' ++ [c]) with
    | some .dir => mkdirs fs (at' ++ [c]) rest
    | none => mkdirs (fs.set (at' ++ [c]) .dir) (at' ++ [c]) rest
    | some (.file _ _) => (false, fs)

/-- `Path.makedirs` (path.py 282-293): it raises if there is a file in the way, and for the empty path. -/
def makedirs (cwd : Loc) (fs : FS) (p : Text) : Bool × FS :=
  if p = [] then (false, fs) else mkdirs fs [] (loc cwd p)

/-- a file can be created, or written, under this path -/
def writable (cwd : Loc) (fs : FS) (p : Text) : Bool :=
  p ≠ [] && !mustDir p && fs (loc cwd p) ≠ some .dir && fs (loc cwd p).dropLast = some .dir

/-- `Path.copy` (path.py 149-150), `shutil.copy`: into `dst` if that is a directory; an error if source and destination are
the same file. -/
def copyFile (cwd : Loc) (fs : FS) (src dst : Text) : Bool × FS :=
  let dst := if isdir cwd fs dst then join dst (split src).2 else dst
  match stat cwd fs src with
  | some (.file c m) =>
    if loc cwd src = loc cwd dst then (false, fs)
    else if writable cwd fs dst then (true, fs.set (loc cwd dst) (.file c m))
    else (false, fs)
  | _ => (false, fs)

/-- `Path.move` (path.py 312-313), `shutil.move`, for a source that is a file: into `dst` if that is a directory, unless
there is something of that name in it; a file is replaced. -/
def moveFile (cwd : Loc) (fs : FS) (src dst : Text) : Bool × FS :=
  let dst' := if isdir cwd fs dst then join dst (split src).2 else dst
  if isdir cwd fs dst && exists' cwd fs dst' then (false, fs)
  else match stat cwd fs src with
    | some (.file c m) =>
      if writable cwd fs dst' then
        if loc cwd src = loc cwd dst' then (true, fs)
        else (true, (fs.erase (loc cwd src)).set (loc cwd dst') (.file c m))
      else (false, fs)
    | _ => (false, fs)

/-! ## copy and move -/

/-- the lines 15-27 of `_copy_or_move`: the destination, and the directories for it; `none` if that raises -/
def place (cwd : Loc) (root : Text) (fs : FS) (src dst : Text) : Option Text × FS :=
  let dst := addroot dst root
  if !exists' cwd fs dst then
    if dst.getLast? = some '/' then
      let (ok, fs) := makedirs cwd fs dst
      (if ok then some (join dst (split src).2) else none, fs)
    else
      let (ok, fs) := makedirs cwd fs (split dst).1
      (if ok then some dst else none, fs)
  else if isdir cwd fs dst then (some (join dst (split src).2), fs)
  else (some dst, fs)

/-- `_copy_or_move` (file.py 9-33); `root` is `ctx.buildroot`.  `none` if it raises. -/
def copyOrMove (function : Loc → FS → Text → Text → Bool × FS) (cwd : Loc) (root : Text) (fs : FS) (src dst : Text) :
    Option Text × FS :=
  match place cwd root fs src dst with
  | (none, fs) => (none, fs)
  | (some dst, fs) =>
    match function cwd fs src dst with
    | (true, fs) => (some dst, fs)
    | (false, fs) => (none, fs)

/-- `copy` (file.py 38-44) -/
def copy : Loc → Text → FS → Text → Text → Option Text × FS := copyOrMove copyFile

/-- `move` (file.py 92-98) -/
def move : Loc → Text → FS → Text → Text → Option Text × FS := copyOrMove moveFile

/-! ## copy_regex -/

/-- `Path.find` without a pattern (path.py 188-199): `os.walk` from the top down.  `ls` lists a directory; the first argument
bounds the depth. -/
def find (cwd : Loc) (fs : FS) (ls : Loc → List Text) (includeDirs : Bool) : Nat → Text → List Text
  | 0, _ => []
  | n + 1, root =>
    let isDir (f : Text) : Bool := fs (loc cwd root ++ [f]) = some .dir
    let dirs := (ls (loc cwd root)).filter isDir
    let files := (ls (loc cwd root)).filter fun f => !isDir f
    (if includeDirs then files ++ dirs else files).map (join root) ++
      dirs.flatMap fun d => find cwd fs ls includeDirs n (join root d)

/-- the lines 64-82 of `copy_regex` for the paths found: `excluded` is `re.search(exclude_pattern, ...)`, `subn` is
`re.subn(src_pattern, dst_pattern, ...)`, giving the text and the number of replacements.  Returns `srcs` and `dsts`, or `none`
if it raises. -/
def copyFound (cwd : Loc) (srcdir dstdir : Text) (excluded : Text → Bool) (subn : Text → Text × Nat) :
    List Text → FS → Option (List Text × List Text) × FS
  | [], fs => (some ([], []), fs)
  | src :: rest, fs =>
    if excluded src then copyFound cwd srcdir dstdir excluded subn rest fs
    else
      let (dst, nsub) := subn (src.drop (srcdir ++ ['/']).length)
      if nsub > 0 then
        let dst := join dstdir dst
        match makedirs cwd fs (split dst).1 with
        | (false, fs) => (none, fs)
        | (true, fs) =>
          match copyFile cwd fs src dst with
          | (false, fs) => (none, fs)
          | (true, fs) =>
            match copyFound cwd srcdir dstdir excluded subn rest fs with
            | (none, fs) => (none, fs)
            | (some (srcs, dsts), fs) => (some (src :: srcs, dst :: dsts), fs)
      else copyFound cwd srcdir dstdir excluded subn rest fs

/-- `copy_regex` (file.py 48-87).  Simplification: the directories are listed before anything is copied, which makes a
difference only if the destination is inside `srcdir`. -/
def copyRegex (cwd : Loc) (root : Text) (fs : FS) (ls : Loc → List Text) (depth : Nat) (srcdir dstdir : Text)
    (excluded : Text → Bool) (subn : Text → Text × Nat) (includeDirs : Bool) : Option (List Text × List Text) × FS :=
  copyFound cwd srcdir (addroot dstdir root) excluded subn (find cwd fs ls includeDirs depth srcdir) fs

end Verif.FileOps
