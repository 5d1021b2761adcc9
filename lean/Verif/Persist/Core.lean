/-!
# Model of `PersistentObject.__eq__` in lib/fbuild/db/__init__.py

Values are atoms (texts, numbers, the context: things with an equality of their own) and persistent objects.  An object has
an identity, a class and its own attributes (`__dict__`).
-/
namespace Verif.Persist

abbrev Key := String

mutual
inductive Val where
  | atom (n : Nat)
  | obj (id : Nat) (cls : Nat) (attrs : Attrs)

/-- the own attributes of an object, `__dict__` -/
inductive Attrs where
  | nil
  | cons (key : Key) (value : Val) (rest : Attrs)
end

def Attrs.lookup : Attrs → Key → Option Val
  | .nil, _ => none
  | .cons k v rest, key => if k = key then some v else rest.lookup key

/-- `getattr(other, key)`: an own attribute or one of the class; `none` is `AttributeError` -/
def getattr (clsAttr : Nat → Key → Option Val) (cls : Nat) (attrs : Attrs) (key : Key) : Option Val :=
  match attrs.lookup key with
  | some v => some v
  | none => clsAttr cls key

mutual
/-- `self == other` (lib/fbuild/db/__init__.py:137-152).  Objects of different classes are never equal: if the class of `other` is below the class
of `self`, Python asks `other` first, and `isinstance(self, type(other))` is false. -/
def eq (clsAttr : Nat → Key → Option Val) : Val → Val → Bool
  | .atom a, other => match other with
    | .atom b => a = b
    | .obj _ _ _ => false
  | .obj id cls attrs, other => match other with
    | .atom _ => false
    | .obj id' cls' attrs' => id = id' || (cls = cls' && eqAttrs clsAttr attrs cls' attrs')

/-- the loop over `self.__dict__` (lib/fbuild/db/__init__.py:144-152) -/
def eqAttrs (clsAttr : Nat → Key → Option Val) : Attrs → Nat → Attrs → Bool
  | .nil, _, _ => true
  | .cons k v rest, cls, attrs =>
    (match getattr clsAttr cls attrs k with
      | none => false
      | some w => eq clsAttr v w) && eqAttrs clsAttr rest cls attrs
end

end Verif.Persist
