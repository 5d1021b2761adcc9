/-!
# Model of `Library` and `Executable` (lib/fbuild/builders/c/__init__.py 257-333)

Objects are compared by value.  The shortcut for `self is other` (283, 320) is not modelled: it gives what the comparison
gives (`C89_eq` shows that an object is equal to itself).
-/
namespace Verif.Library

abbrev Text := List Char

/-- A text or `Path`, a `Library` or an `Executable`. -/
inductive Obj where
  /-- `path`: it is a `Path`, which does not matter for equality -/
  | text (path : Bool) (s : Text)
  | lib (s : Text) (libpaths libs externalLibs : List Obj)
  | exe (s : Text) (libs : List Obj)

/-- the text the object is, as every one of them is a `str` -/
def Obj.str : Obj → Text
  | .text _ s => s
  | .lib s _ _ _ => s
  | .exe s _ => s

mutual
/-- `a == b`: `str.__eq__`, `Library.__eq__` (282-292) and `Executable.__eq__` (319-327).  If `a` is a plain text and `b` is not, the
method of `b` is asked first, as its class is a subclass; it finds another class and returns `False`. -/
def eq : Obj → Obj → Bool
  | .text _ s, .text _ t => s == t
  | .lib s p l x, .lib t q m y => s == t && eqs p q && eqs l m && eqs x y
  | .exe s l, .exe t m => s == t && eqs l m
  | _, _ => false
/-- `==` of tuples -/
def eqs : List Obj → List Obj → Bool
  | [], [] => true
  | a :: l, b :: m => eq a b && eqs l m
  | _, _ => false
end

/-- `a != b`.  Neither class has a `__ne__`, so it is that of `str`. -/
def ne (a b : Obj) : Bool := a.str != b.str

mutual
/-- `hash(a)` (294-299, 329-332), for the hash functions of texts and tuples -/
def hash (ht : Text → Nat) (hl : List Nat → Nat) : Obj → Nat
  | .text _ s => ht s
  | .lib s p l x => hl [ht s, hl (hashes ht hl p), hl (hashes ht hl l), hl (hashes ht hl x)]
  | .exe s l => hl [ht s, hl (hashes ht hl l)]
def hashes (ht : Text → Nat) (hl : List Nat → Nat) : List Obj → List Nat
  | [] => []
  | a :: l => hash ht hl a :: hashes ht hl l
end

end Verif.Library
