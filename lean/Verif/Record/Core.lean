import Verif.Dict
/-!
# Model of `Record` (lib/fbuild/record.py)

A record is a `dict`, with Python's rules for attributes: `r.x` is first looked for in the class (`x` in `classAttrs`, the names of
`dir(dict)` and of the two methods of `Record`), then in the object's own attributes, of which there are none as `__setattr__` stores
items, and then `__getattr__` is called.
-/
namespace Verif.Record
variable {V : Type}

abbrev Name := String

/-- What `r.x` is. -/
inductive Attr (V : Type) where
  /-- an attribute of the class, such as a method of `dict` -/
  | ofClass
  | value (v : V)
  | attributeError

/-- `r.x`: the class first, or else `__getattr__` (7-13) -/
def getattr (classAttrs : List Name) (r : Dict Name V) (x : Name) : Attr V :=
  if x ∈ classAttrs then .ofClass
  else match r.get? x with
    | some v => .value v
    | none => .attributeError

/-- What a program does to a record. -/
inductive Op (V : Type) where
  /-- `r.x = v` -/
  | setattr (x : Name) (v : V)
  /-- `r[x] = v` -/
  | setitem (x : Name) (v : V)
  /-- `del r[x]` -/
  | delitem (x : Name)
  /-- `del r.x` -/
  | delattr (x : Name)

/-- One operation; `none` is an exception (the record is unchanged then).  `__setattr__` (2-5) stores an item.  There is no `__delattr__`,
so that of `object` is used, which finds no attribute. -/
def step (r : Dict Name V) : Op V → Option (Dict Name V)
  | .setattr x v => some (r.set x v)
  | .setitem x v => some (r.set x v)
  | .delitem x => match r.get? x with
    | some _ => some (r.erase x)
    | none => none
  | .delattr _ => none

/-- The record after operations, with exceptions caught. -/
def after (r : Dict Name V) : List (Op V) → Dict Name V
  | [] => r
  | o :: os => after ((step r o).getD r) os

end Verif.Record
