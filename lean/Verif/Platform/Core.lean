/-!
# Model of lib/fbuild/builders/platform.py

`platform_match` (180-184) and `parse_platform_options` (187-223).  Python's lists are objects that can be
shared and changed, so lists are references into a heap; texts, tuples and sets are not changed by this code.
The elements of lists, tuples and sets are texts.
-/
namespace Verif.Platform

abbrev Text := List Char

/-- `platform_match` (180-184) -/
def platformMatch (platform matcher : List Text) : Bool :=
  let present := matcher.filter (fun p => p.head? ≠ some '!')
  let absent := (matcher.filter (fun p => p.head? = some '!')).map (fun p => p.drop 1)
  present.all (fun p => p ∈ platform) && !platform.any (fun p => p ∈ absent)

/-- A value of a keyword argument or an option. -/
inductive Val where
  | none
  | str (s : Text)
  /-- a list object -/
  | list (ref : Nat)
  | tuple (xs : List Text)
  /-- a set, its elements in the order of iteration -/
  | set (xs : List Text)
  /-- a value of another type, which has no `+` and cannot be iterated over -/
  | other (n : Nat)
  deriving DecidableEq

/-- the contents of the list objects -/
abbrev Heap := List (List Text)

abbrev Dict := List (Text × Val)

def Dict.set (d : Dict) (k : Text) (v : Val) : Dict :=
  if (d.lookup k).isSome then d.map (fun x => if x.1 = k then (k, v) else x) else d ++ [(k, v)]

inductive Err where
  | typeError | indexError | assertionError
  deriving DecidableEq

/-- the characters of a text, as texts -/
def chars (s : Text) : List Text := s.map (fun c => [c])

/-- `for x in v`; `none` if that raises -/
def iter (h : Heap) : Val → Option (List Text)
  | .str s => some (chars s)
  | .list r => some (h.getD r [])
  | .tuple xs => some xs
  | .set xs => some xs
  | .none | .other _ => none

/-- all ends of a text -/
def ends : Text → List Text
  | [] => [[]]
  | c :: l => (c :: l) :: ends l

/-- `x in s` for texts -/
def infixOf (x s : Text) : Bool := (ends s).any (fun t => x.isPrefixOf t)

/-- `x in modifier` -/
def contains (h : Heap) (x : Text) : Val → Bool
  | .str s => infixOf x s
  | .list r => x ∈ h.getD r []
  | .tuple xs => x ∈ xs
  | .set xs => x ∈ xs
  | .none | .other _ => false

/-- `value += modifier` (207): lists are changed in place, sets have no `+`. -/
def plus (h : Heap) (value modifier : Val) : Except Err (Val × Heap) :=
  match value with
  | .str a => match modifier with
    | .str b => .ok (.str (a ++ b), h)
    | _ => .error .typeError
  | .list r => match iter h modifier with
    | some xs => .ok (.list r, h.set r (h.getD r [] ++ xs))
    | none => .error .typeError
  | .tuple xs => match modifier with
    | .tuple ys => .ok (.tuple (xs ++ ys), h)
    | _ => .error .typeError
  | .set _ | .none | .other _ => .error .typeError

/-- the operation `-` (209-214) -/
def minus (h : Heap) (value modifier : Val) : Except Err (Val × Heap) :=
  match value with
  | .str s => .ok (.str (((chars s).filter (fun x => !contains h x modifier)).flatten), h)
  | .list r => .ok (.list h.length, h ++ [(h.getD r []).filter (fun x => !contains h x modifier)])
  | .tuple xs => .ok (.tuple (xs.filter (fun x => !contains h x modifier)), h)
  | .set xs => .ok (.set (xs.filter (fun x => !contains h x modifier)), h)
  | .none | .other _ => .error .typeError

/-- `type(modifier)()` (204); a new list object for a list -/
def fresh (h : Heap) : Val → Val × Heap
  | .str _ => (.str [], h)
  | .list _ => (.list h.length, h ++ [[]])
  | .tuple _ => (.tuple [], h)
  | .set _ => (.set [], h)
  | v => (v, h)

/-- `isinstance(modifier, (str, list, tuple, set))` (199) -/
def supported : Val → Bool
  | .str _ | .list _ | .tuple _ | .set _ => true
  | .none | .other _ => false

/-- `value = kwargs.get(key)`, and the empty value if it is `None` (202-204) -/
def current (h : Heap) (kw : Dict) (key : Text) (modifier : Val) : Val × Heap :=
  match kw.lookup key with
  | Option.none | some .none => fresh h modifier
  | some v => (v, h)

/-- One option (193-223). -/
def option (kw : Dict) (h : Heap) (key : Text) (modifier : Val) : Except Err (Dict × Heap) :=
  match key.getLast? with
  | Option.none => .error .indexError
  | some c =>
    if c = '+' ∨ c = '-' then
      if supported modifier then
        let (value, h) := current h kw key.dropLast modifier
        match (if c = '+' then plus h value modifier else minus h value modifier) with
        | .error e => .error e
        | .ok (v, h) => .ok (Dict.set kw key.dropLast v, h)
      else .error .assertionError
    else .ok (Dict.set kw key modifier, h)

/-- The options of one entry (193-223). -/
def options : List (Text × Val) → Dict → Heap → Except Err (Dict × Heap)
  | [], kw, h => .ok (kw, h)
  | (k, m) :: rest, kw, h =>
    match option kw h k m with
    | .error e => .error e
    | .ok (kw, h) => options rest kw h

/-- `parse_platform_options` (187-223) for a given platform -/
def parse (platform : List Text) : List (List Text × List (Text × Val)) → Dict → Heap → Except Err (Dict × Heap)
  | [], kw, h => .ok (kw, h)
  | (matcher, opts) :: rest, kw, h =>
    if platformMatch platform matcher then
      match options opts kw h with
      | .error e => .error e
      | .ok (kw, h) => parse platform rest kw h
    else parse platform rest kw h

end Verif.Platform
