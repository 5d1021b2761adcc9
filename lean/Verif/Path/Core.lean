import Verif.Posix
/-!
# Model of `lib/fbuild/path.py`

The pure functions of `Path`, on texts.  `Path(a)` is `a`, and `Path(a, b)` is `os.path.join(a, b)` (30-38).
-/
namespace Verif.Path
open Verif.Posix

abbrev Text := List Char

/-- `addroot` (113-129) -/
def addroot (p root : Text) : Text :=
  if root.isPrefixOf p then p
  else join root (if isabs p then (split p).2 else p)

/-- `removeroot` (344-356) -/
def removeroot (p root : Text) : Text :=
  if root.isPrefixOf p then p.drop root.length else p

/-- `replaceext` (364-370) -/
def replaceext (p ext : Text) : Text := (splitext p).1 ++ ext

/-- `replaceexts` (372-387); the dictionary is a list of pairs -/
def replaceexts (p : Text) (extensions : List (Text × Text)) : Text :=
  match extensions.lookup (splitext p).2 with
  | none => p
  | some ext => (splitext p).1 ++ ext

/-- `addprefix` (104-111) -/
def addprefix (p pre : Text) : Text := join (split p).1 (pre ++ (split p).2)

/-- The loop of `splitall` (405-425): `paths` is in the order of the appends.  The first argument bounds the
number of rounds; `none` if the loop has not ended by then. -/
def splitallFrom : Nat → Text → Text → List Text → Option (List Text)
  | 0, _, _, _ => none
  | n + 1, old, path, paths =>
    let path' := (split path).1
    let filename := (split path).2
    if path' = old then some (if path' ≠ [] then paths ++ [path'] else paths).reverse
    else splitallFrom n path' path' (paths ++ [filename])

/-- `p.splitall()` returns `ps` -/
def Splitall (p : Text) (ps : List Text) : Prop := ∃ n, splitallFrom n p p [] = some ps

end Verif.Path
