import Verif.Posix
/-!
# Model of `Test.get` (lib/fbuild/config/__init__.py 71-82)

An object is `None`, or it has attributes.  Left out: attributes whose computation raises something else than `AttributeError`
(it comes out of `getattr`).
-/
namespace Verif.Config.Get

abbrev Text := List Char

inductive Obj where
  | none
  /-- any other object: which one it is, and its attributes -/
  | some (id : Nat) (attrs : List (Text × Obj))

/-- `key.split('.')` -/
def splitDot : Text → List Text
  | [] => [[]]
  | c :: cs =>
    if c = '.' then [] :: splitDot cs
    else match splitDot cs with
      | [] => [[c]]
      | w :: ws => (c :: w) :: ws

/-- `getattr(obj, key, None)` (79) -/
def attr : Obj → Text → Obj
  | .none, _ => .none
  | .some _ attrs, key =>
    match attrs.find? (·.1 = key) with
    | Option.some (_, v) => v
    | Option.none => .none

/-- the loop (78-82) -/
def walk (default : Obj) : Obj → List Text → Obj
  | obj, [] => obj
  | obj, key :: keys =>
    match attr obj key with
    | .none => default
    | o => walk default o keys

/-- `Test.get` (71-82) -/
def get (self : Obj) (key : Text) (default : Obj) : Obj := walk default self (splitDot key)

end Verif.Config.Get
