import Verif.Posix

/-!
# Model of the operators of `Path` in lib/fbuild/path.py

`Path.__new__` for texts, `/` from both sides, `+`, `name`, `parent`, `split`, `splitext` and the way in which the linkers of the
builders put prefix and suffix around a file name.  On POSIX: `os.sep` is `/`, so `path.replace('/', os.sep)` (34) changes nothing.
Left out: paths that are given to `Path` as lists (36).
-/

namespace Verif.Path.Operators

abbrev Text := List Char

/-- `Path(*paths)` (30-38) for texts -/
def new (paths : List Text) : Text := paths.foldl Posix.join []

/-- `self / rel` (40-46) -/
def div (self rel : Text) : Text := new [self, rel]

/-- `rel / self` for a text `rel` (48-53) -/
def rdiv (rel self : Text) : Text := new [rel, self]

/-- `self + rel` (55-63) -/
def add (self rel : Text) : Text := new [self ++ rel]

/-- `name` (80-87), `basename` (135-141) -/
def name (self : Text) : Text := new [(Posix.split self).2]

/-- `parent` (89-96), `dirname` (167-173) -/
def parent (self : Text) : Text := new [(Posix.split self).1]

/-- `split` (395-403) -/
def split (self : Text) : Text × Text := (new [(Posix.split self).1], new [(Posix.split self).2])

/-- `splitext` (433-443) -/
def splitext (self : Text) : Text × Text := (new [(Posix.splitext self).1], (Posix.splitext self).2)

/-- `dst.parent / prefix + dst.name + suffix` (builders/c/msvc.py 199, 336; builders/c/gcc/__init__.py 65, 405) -/
def target (dst pre suf : Text) : Text := add (add (div (parent dst) pre) (name dst)) suf

end Verif.Path.Operators
