import Verif.Functools.Core
/-!
# Model of `Database._find_call_filenames` (lib/fbuild/db/database.py:293-311)

and of the annotations `SRC`, `SRCS`, `DST`, `DSTS`, `OPTIONAL_SRC`, `OPTIONAL_DST`
(lib/fbuild/db/__init__.py:41-90).  The sets of files are lists.
-/
namespace Verif.Functools

/-- An annotation: one of fbuild's classes, another class, or an object that is not a class (then
`issubclass` raises). -/
inductive Annot
  | src | srcs | optionalSrc | dst | dsts | optionalDst
  | cls
  | notClass
deriving DecidableEq

/-- `issubclass(avalue, fbuild.db.SRC)` -/
def Annot.isSrc : Annot → Bool
  | .src | .srcs | .optionalSrc => true
  | _ => false

/-- `issubclass(avalue, fbuild.db.DST)` -/
def Annot.isDst : Annot → Bool
  | .dst | .dsts | .optionalDst => true
  | _ => false

/-- What the code does with the value of an annotated parameter. -/
structure FileOps (V : Type) where
  /-- `v is None` -/
  isNone : V → Bool
  /-- the elements, if `v` can be iterated over; of a text, its characters -/
  iter : V → Option (List V)
  /-- `v` can be put into a set -/
  hashable : V → Bool
  /-- a keyword as a value -/
  ofName : Name → V

section
variable {V : Type}

/-- the method `convert` of the annotations (db/__init__.py:43-90) -/
def convert (fo : FileOps V) : Annot → Value V → Except Err (List (Value V))
  | .src, v => .ok [v]
  | .dst, v => .ok [v]
  | .optionalSrc, .one v => if fo.isNone v then .ok [] else .ok [.one v]
  | .optionalSrc, v => .ok [v]
  | .optionalDst, .one v => if fo.isNone v then .ok [] else .ok [.one v]
  | .optionalDst, v => .ok [v]
  | _, .one v =>
    match fo.iter v with
    | some l => .ok (l.map .one)
    | none => .error .typeError
  | _, .tuple vs => .ok (vs.map .one)
  | _, .dict d => .ok (d.map (fun x => .one (fo.ofName x.1)))

def hashable (fo : FileOps V) : Value V → Bool
  | .one v => fo.hashable v
  | .tuple vs => vs.all fo.hashable
  | .dict _ => false

/-- `files.update(avalue.convert(value))` -/
def updateFiles (fo : FileOps V) (files : List (Value V)) (a : Annot) (v : Value V) :
    Except Err (List (Value V)) :=
  match convert fo a v with
  | .error e => .error e
  | .ok l => if l.all (hashable fo) then .ok (files ++ l) else .error .typeError

/-- the loop over `function.__annotations__.items()` (database.py:303-309); the state is
`return_type`, `srcs`, `dsts` -/
def annotLoop (fo : FileOps V) (bound : Dict (Value V)) : List (Name × Annot) →
    Option Annot × List (Value V) × List (Value V) →
    Except Err (Option Annot × List (Value V) × List (Value V))
  | [], st => .ok st
  | (k, a) :: rest, (ret, srcs, dsts) =>
    if k = "return" then annotLoop fo bound rest (some a, srcs, dsts)
    else if a = .notClass then .error .typeError
    else if a.isSrc then
      match bound.lookup k with
      | none => .error .keyError
      | some v =>
        match updateFiles fo srcs a v with
        | .error e => .error e
        | .ok srcs' => annotLoop fo bound rest (ret, srcs', dsts)
    else if a.isDst then
      match bound.lookup k with
      | none => .error .keyError
      | some v =>
        match updateFiles fo dsts a v with
        | .error e => .error e
        | .ok dsts' => annotLoop fo bound rest (ret, srcs, dsts')
    else annotLoop fo bound rest (ret, srcs, dsts)

/-- `_find_call_filenames` (database.py:293-311): `bound`, `srcs`, `dsts`, `return_type` -/
def findCallFilenames (ops : Ops V) (fo : FileOps V) (s : Sig V) (ann : List (Name × Annot))
    (as : List V) (kws : Dict V) :
    Except Err (Dict (Value V) × List (Value V) × List (Value V) × Option Annot) :=
  match bindArgs ops s as kws with
  | .error e => .error e
  | .ok bound =>
    match annotLoop fo bound ann (none, [], []) with
    | .error e => .error e
    | .ok (ret, srcs, dsts) => .ok (bound, srcs, dsts, ret)

end
end Verif.Functools
