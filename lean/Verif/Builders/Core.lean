/-!
# Model of lib/fbuild/builders/__init__.py

`find_program` (28-70) and `check_version` (73-122).  The body of `find_program` is modelled, not the cache around
it.  `int(...)` and the file system are parameters.
-/
namespace Verif.Builders

abbrev Text := List Char

/-! ## check_version -/

/-- a part of a version: a number, or a text if it is not a number -/
inductive Part where
  | num (n : Int)
  | text (s : Text)
  deriving DecidableEq, Repr

/-- Python's `a < b` for parts; `none` is `TypeError` -/
def Part.lt (less : Text → Text → Bool) : Part → Part → Option Bool
  | .num a, .num b => some (a < b)
  | .text a, .text b => some (less a b)
  | _, _ => none

/-- Python's `a < b` for tuples: the first pair that differs decides, else the length. -/
def tupleLt (less : Text → Text → Bool) : List Part → List Part → Option Bool
  | [], [] => some false
  | [], _ :: _ => some true
  | _ :: _, [] => some false
  | a :: as, b :: bs => if a = b then tupleLt less as bs else Part.lt less a b

/-- `s.split('.')` -/
def splitDot : Text → List Text
  | [] => [[]]
  | c :: s =>
    if c = '.' then [] :: splitDot s
    else match splitDot s with
      | [] => [[c]]
      | p :: ps => (c :: p) :: ps

/-- the tuple of a version (86-95); `int` is Python's `int`, `none` is `ValueError` -/
def version (int : Text → Option Int) (s : Text) : List Part :=
  (splitDot s).map (fun p => match int p with
    | some n => .num n
    | none => .text p)

inductive Outcome where
  | ok | configFailed | typeError
  deriving DecidableEq, Repr

structure Requires where
  exactly : Option (List Part) := none
  atLeast : Option (List Part) := none
  atMost : Option (List Part) := none

/-- a comparison that must not hold (97, 104-105, 113-114) -/
def refuse (t : Option (Option Bool)) : Outcome :=
  match t with
  | none => .ok
  | some none => .typeError
  | some (some true) => .configFailed
  | some (some false) => .ok

/-- `check_version` (73-122) -/
def checkVersion (int : Text → Option Int) (less : Text → Text → Bool) (r : Requires) (s : Text) : Outcome :=
  if r.exactly.isNone && r.atLeast.isNone && r.atMost.isNone then .ok
  else
    match refuse (r.exactly.map (fun x => some (decide (x ≠ version int s)))) with
    | .ok =>
      match refuse (r.atLeast.map (fun x => tupleLt less (version int s) x)) with
      | .ok => refuse (r.atMost.map (fun x => tupleLt less x (version int s)))
      | o => o
    | o => o

/-! ## find_program -/

/-- the names looked for on Windows (38-50); the condition there always holds -/
def winNames : List Text → List Text
  | [] => []
  | n :: ns => (n ++ ".exe".toList) :: (n ++ ".cmd".toList) :: (n ++ ".bat".toList) :: n :: winNames ns

/-- the directories for one name (61-65) -/
def inPaths (isFile : Text → Bool) (join : Text → Text → Text) (name : Text) : List Text → Option Text
  | [] => none
  | p :: ps => if isFile (join p name) then some (join p name) else inPaths isFile join name ps

/-- the loop over the names (52-70) -/
def search (isFile : Text → Bool) (join : Text → Text → Text) (paths : List Text) : List Text → Option Text
  | [] => none
  | n :: ns =>
    if isFile n then some n
    else match inPaths isFile join n paths with
      | some f => some f
      | none => search isFile join paths ns

/-- `find_program` (28-70); `none` is `MissingProgram`.  `isFile f` is `f.exists() and f.isfile()`. -/
def findProgram (win : Bool) (isFile : Text → Bool) (join : Text → Text → Text) (names paths : List Text) : Option Text :=
  search isFile join paths (if win then winNames names else names)

end Verif.Builders
