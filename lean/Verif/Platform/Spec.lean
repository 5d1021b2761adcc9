/-!
# What platform options mean

Written without the model: values are plain data, and an option is a change of a table from names to values.
-/
namespace Verif.Platform.Spec

abbrev Text := List Char

inductive Data where
  | none
  | str (s : Text)
  | list (xs : List Text)
  | tuple (xs : List Text)
  | set (xs : List Text)
  | other (n : Nat)
  deriving DecidableEq

/-- the elements of a list, tuple or set -/
def Data.elems : Data → Option (List Text)
  | .list xs | .tuple xs | .set xs => some xs
  | _ => Option.none

/-- the empty value of the type of `m` -/
def Data.empty : Data → Data
  | .str _ => .str []
  | .list _ => .list []
  | .tuple _ => .tuple []
  | .set _ => .set []
  | d => d

/-- `key+`: text after text, tuple after tuple, the elements of anything after a list, the union of sets.
Other combinations have no meaning. -/
def append : Data → Data → Option Data
  | .str a, .str b => some (.str (a ++ b))
  | .list xs, m => m.elems.map (fun ys => .list (xs ++ ys))
  | .tuple xs, .tuple ys => some (.tuple (xs ++ ys))
  | .set xs, .set ys => some (.set (xs ++ ys.filter (fun y => y ∉ xs)))
  | _, _ => Option.none

/-- `key-`: the characters or the elements that are not in `m`. -/
def remove : Data → Data → Option Data
  | .str a, .str b => some (.str (a.filter (fun c => c ∉ b)))
  | .str a, m => m.elems.map (fun ys => .str (a.filter (fun c => [c] ∉ ys)))
  | .list xs, m => m.elems.map (fun ys => .list (xs.filter (fun x => x ∉ ys)))
  | .tuple xs, m => m.elems.map (fun ys => .tuple (xs.filter (fun x => x ∉ ys)))
  | .set xs, m => m.elems.map (fun ys => .set (xs.filter (fun x => x ∉ ys)))
  | _, _ => Option.none

/-- a table of keyword arguments -/
abbrev Table := Text → Option Data

/-- the value in the table, or the empty value of the type of `m` -/
def value (t : Table) (k : Text) (m : Data) : Data :=
  match t k with
  | some .none | Option.none => m.empty
  | some d => d

def put (t : Table) (k : Text) (d : Data) : Table := fun k' => if k' = k then some d else t k'

/-- One option: `key+` appends, `key-` removes, another key sets.  The empty key has no meaning. -/
def apply (t : Table) (k : Text) (m : Data) : Option Table :=
  match k.getLast? with
  | Option.none => Option.none
  | some '+' => (append (value t k.dropLast m) m).map (put t k.dropLast)
  | some '-' => (remove (value t k.dropLast m) m).map (put t k.dropLast)
  | some _ => some (put t k m)

/-- One option after the other. -/
def applyAll : List (Text × Data) → Table → Option Table
  | [], t => some t
  | (k, m) :: rest, t => (apply t k m).bind (applyAll rest)

/-- All plain names are in the platform and no name with `!` is. -/
def Matches (platform matcher : List Text) : Prop :=
  (∀ p ∈ matcher, p.head? ≠ some '!' → p ∈ platform) ∧ ∀ q, '!' :: q ∈ matcher → q ∉ platform

end Verif.Platform.Spec
