import Verif.Posix
import Verif.Fnmatch.Core
/-!
# Model of `lib/fbuild/glob.py`

The file system is a tree without symbolic links; every directory can be read.  `os.listdir` gives the
names in the order of the tree.  A pattern that makes `re.compile` raise is taken to match nothing here
(the theorems exclude such patterns).  Not modelled: `bytes` patterns, generators (`iglob` gives the whole
list), changes of the file system while `glob` runs.
-/
namespace Verif.Glob
open Verif.Posix

abbrev Text := List Char

/-! ## The file system -/

inductive Node where
  | file
  | dir (entries : List (Text × Node))

/-- the root directory, and the working directory with its parents, innermost first -/
structure FS where
  root : Node
  cwd : List Node

def Node.isDir : Node → Bool
  | .dir _ => true
  | .file => false

def Node.names : Node → Option (List Text)
  | .dir es => some (es.map (·.1))
  | .file => none

mutual
/-- the number of levels -/
def Node.depth : Node → Nat
  | .file => 0
  | .dir es => depths es + 1
def depths : List (Text × Node) → Nat
  | [] => 0
  | (_, n) :: es => max n.depth (depths es)
end

/-- one component of a path, starting at a node with its parents -/
def step (loc : List Node) (name : Text) : Option (List Node) :=
  match loc with
  | .dir es :: up =>
    if name = [] ∨ name = ['.'] then some loc
    else if name = ['.', '.'] then some (if up = [] then loc else up)
    else (es.lookup name).map (fun n => n :: loc)
  | _ => none

def walk : List Node → List Text → Option (List Node)
  | loc, [] => some loc
  | loc, c :: cs => (step loc c).bind (fun loc => walk loc cs)

/-- the parts of a path between slashes -/
def parts : Text → List Text
  | [] => [[]]
  | c :: s =>
    if c = '/' then [] :: parts s
    else match parts s with
      | [] => [[c]]
      | p :: ps => (c :: p) :: ps

/-- what the operating system finds for a path -/
def FS.resolve (fs : FS) (p : Text) : Option (List Node) :=
  if p = [] then none
  else walk (if isabs p then [fs.root] else fs.cwd) (parts p)

/-- `os.path.lexists` -/
def FS.lexists (fs : FS) (p : Text) : Bool := (fs.resolve p).isSome

/-- `os.path.isdir` -/
def FS.isdir (fs : FS) (p : Text) : Bool :=
  match fs.resolve p with
  | some (n :: _) => n.isDir
  | _ => false

/-- `os.listdir`; `none` is an `OSError` -/
def FS.listdir (fs : FS) (p : Text) : Option (List Text) :=
  match fs.resolve p with
  | some (n :: _) => n.names
  | _ => none

/-! ## glob.py -/

/-- `has_magic` (134-142) -/
def hasMagic (s : Text) : Bool := s.any (fun c => c ∈ ['*', '?', '[', '{'])

/-- `_ishidden` (144-145), for texts that are not empty -/
def isHidden (s : Text) : Bool := s.head? == some '.'

/-- `_isrecursive` (147-151) -/
def isRecursive (s : Text) : Bool := s == ['*', '*']

/-- `dirname or os.curdir` (82-86, 117-121) -/
def orCurdir (dirname : Text) : Text := if dirname = [] then ['.'] else dirname

open Classical in
/-- `glob1` (81-93) with `fnmatch.filter` (fnmatch.py:55-70) -/
noncomputable def glob1 (fs : FS) (dirname pattern : Text) : List Text :=
  match fs.listdir (orCurdir dirname) with
  | none => []
  | some names =>
    let names := if isHidden pattern then names else names.filter (fun x => !isHidden x)
    names.filter (fun x => decide (Fnmatch.Fnmatchcase x pattern))

/-- `glob0` (95-104) -/
def glob0 (fs : FS) (dirname basename : Text) : List Text :=
  if basename = [] then
    if fs.isdir dirname then [basename] else []
  else if fs.lexists (join dirname basename) then [basename] else []

/-- `_rlistdir` (116-131); the first argument bounds the recursion -/
def rlistdir (fs : FS) : Nat → Text → List Text
  | 0, _ => []
  | n + 1, dirname =>
    let dirname := orCurdir dirname
    match fs.listdir dirname with
    | none => []
    | some names =>
      names.flatMap (fun x =>
        if isHidden x then []
        else x :: (rlistdir fs n (join dirname x)).map (fun y => join x y))

/-- the levels below a directory: the recursion of `_rlistdir` cannot be deeper -/
def FS.levels (fs : FS) (dirname : Text) : Nat :=
  match fs.resolve (orCurdir dirname) with
  | some (n :: _) => n.depth
  | _ => 0

/-- `glob2` (109-113) -/
def glob2 (fs : FS) (dirname : Text) : List Text :=
  [] :: rlistdir fs (fs.levels dirname) dirname

/-- `_iglob` (40-75); the first argument bounds the recursion on the directory -/
noncomputable def iglobFrom (fs : FS) (recursive : Bool) : Nat → Text → List Text
  | 0, _ => []
  | n + 1, pathname =>
    let dirname := (split pathname).1
    let basename := (split pathname).2
    if ¬ hasMagic pathname then
      if basename ≠ [] then (if fs.lexists pathname then [pathname] else [])
      else (if fs.isdir dirname then [pathname] else [])
    else if dirname = [] then
      if recursive && isRecursive basename then glob2 fs dirname else glob1 fs dirname basename
    else
      let dirs := if dirname ≠ pathname ∧ hasMagic dirname then iglobFrom fs recursive n dirname else [dirname]
      dirs.flatMap (fun dirname =>
        (if hasMagic basename then
            if recursive && isRecursive basename then glob2 fs dirname else glob1 fs dirname basename
          else glob0 fs dirname basename).map (fun name => join dirname name))

/-- `glob` (9-38); `next(it)` drops the first result -/
noncomputable def glob (fs : FS) (recursive : Bool) (pathname : Text) : List Text :=
  let it := iglobFrom fs recursive (pathname.length + 1) pathname
  if recursive && isRecursive pathname then it.drop 1 else it

end Verif.Glob
