import Verif.Glob.Core
import Verif.Fnmatch.Spec
/-!
# What `glob` should return

A pattern is given by its components.  `Picks` says which lists of names its components pick; whether such a
path exists is a question to the file system.
-/
namespace Verif.Glob

/-- a name that stands in a directory -/
def IsName (x : Text) : Prop := x ≠ [] ∧ '/' ∉ x ∧ x ≠ ['.'] ∧ x ≠ ['.', '.']

/-- a component without special characters -/
def Plain (c : Text) : Prop := ∀ ch ∈ c, ch ∉ ['*', '?', '[', '{']

/-- The names picked by the components of a pattern. -/
inductive Picks (recursive : Bool) : List Text → List Text → Prop
  | nil : Picks recursive [] []
  /-- a plain component stands for itself -/
  | plain {c cs qs} : Plain c → Picks recursive cs qs → Picks recursive (c :: cs) (c :: qs)
  /-- a pattern picks the names that match; hidden names only if it starts with a dot -/
  | magic {c cs x qs} : ¬ Plain c → (recursive = true → c ≠ ['*', '*']) → IsName x →
      Fnmatch.Matches (Fnmatch.pattern c) x → (x.head? = some '.' → c.head? = some '.') →
      Picks recursive cs qs → Picks recursive (c :: cs) (x :: qs)
  /-- `**` picks any number of names that are not hidden -/
  | any {us cs qs} : recursive = true → (∀ x ∈ us, IsName x ∧ x.head? ≠ some '.') → (us ≠ [] ∨ cs ≠ []) →
      Picks recursive cs qs → Picks recursive (['*', '*'] :: cs) (us ++ qs)
  /-- `**` at the end picks also the directory itself, written with a slash at the end -/
  | here : recursive = true → Picks recursive [['*', '*']] [[]]

def slashed : List Text → Text
  | [] => []
  | [x] => x
  | x :: xs => x ++ '/' :: slashed xs

/-- a path with these components -/
def text (abs : Bool) (qs : List Text) : Text := (if abs then ['/'] else []) ++ slashed qs

/-- A pattern that can be written: no slashes in components, only the last may be empty (the pattern ends in
a slash then), and no reversed ranges like `[b-a]`. -/
structure PatOk (cs : List Text) : Prop where
  nonempty : cs ≠ []
  noSlash : ∀ c ∈ cs, '/' ∉ c
  inner : ∀ c ∈ cs.dropLast, c ≠ []
  sound : ∀ c ∈ cs, Fnmatch.Sound (Fnmatch.pattern c)

mutual
/-- names in directories are names, and have no newlines -/
def Good : Node → Prop
  | .file => True
  | .dir es => Goods es
def Goods : List (Text × Node) → Prop
  | [] => True
  | (x, n) :: es => IsName x ∧ '\n' ∉ x ∧ Good n ∧ Goods es
end

structure FS.Ok (fs : FS) : Prop where
  root : Good fs.root ∧ fs.root.isDir = true
  cwd : fs.cwd ≠ [] ∧ ∀ n ∈ fs.cwd, Good n ∧ n.isDir = true

end Verif.Glob
