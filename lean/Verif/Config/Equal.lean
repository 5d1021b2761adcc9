import Verif.Config.Programs
/-!
# Equality and hashes of configuration tests

`__eq__` and `__hash__` of `AbstractFieldDescriptor`, `header_test`, `function_test` and `struct_test` of
lib/fbuild/config/c/__init__.py, which the other descriptors inherit, `template_test` of lib/fbuild/config/cxx/__init__.py among them.  What
Python's `hash` makes of a tuple is left open: two values with the same key have the same hash.  Simplified: members of structures and
parameters are given as tuples, and `Function` objects in a tuple are compared with `==` even if they are the same object.
-/
namespace Verif.Config.Equal
open Verif.Config.Results (Ty tyEq Key)

/-- one of `default_args` -/
inductive Default where
  | text (s : Text)
  | int (n : Int)
  deriving DecidableEq

/-- `default_args`: `None`, a tuple or a list -/
inductive Defaults where
  | none
  | tuple (ds : List Default)
  | list (ds : List Default)
  deriving DecidableEq

/-- the class of a descriptor, with its own attributes -/
inductive Kind where
  | header (filename : Text)
  | function (ret : Ty) (args : List Ty) (defaults : Defaults)
  | macro
  | type
  | intType
  | struct (members : List (Text × Text))
  /-- `struct_test` of config/cxx -/
  | cxxStruct (members : List (Text × Text))
  | variable
  | template (types : List Text)

/-- a descriptor (147-159): `key` is `__name__` -/
structure Test where
  kind : Kind
  key : Option Text := none
  name : Option Text := none
  test : Option Text := none
  stdin : Option Text := none
  stdout : Option Text := none
  timeout : Option Nat := none

/-- the classes -/
inductive Class where
  | header | function | macro | type | intType | struct | cxxStruct | variable | template
  deriving DecidableEq

/-- `self.__class__` -/
def Kind.cls : Kind → Class
  | .header _ => .header
  | .function _ _ _ => .function
  | .macro => .macro
  | .type => .type
  | .intType => .intType
  | .struct _ => .struct
  | .cxxStruct _ => .cxxStruct
  | .variable => .variable
  | .template _ => .template

/-- the module and the name of a class -/
def Class.path : Class → Text × Text
  | .header => ("fbuild.config.c".toList, "header_test".toList)
  | .function => ("fbuild.config.c".toList, "function_test".toList)
  | .macro => ("fbuild.config.c".toList, "macro_test".toList)
  | .type => ("fbuild.config.c".toList, "type_test".toList)
  | .intType => ("fbuild.config.c".toList, "int_type_test".toList)
  | .struct => ("fbuild.config.c".toList, "struct_test".toList)
  | .cxxStruct => ("fbuild.config.cxx".toList, "struct_test".toList)
  | .variable => ("fbuild.config.c".toList, "variable_test".toList)
  | .template => ("fbuild.config.cxx".toList, "template_test".toList)

/-- `AbstractFieldDescriptor.__eq__` (208-216) -/
def baseEq (a b : Test) : Bool :=
  decide (a.kind.cls = b.kind.cls) && decide (a.key = b.key) && decide (a.name = b.name) && decide (a.test = b.test) &&
    decide (a.stdin = b.stdin) && decide (a.stdout = b.stdout) && decide (a.timeout = b.timeout)

/-- `==` of tuples of types; `none` is an `AttributeError` -/
def argsEq : List Ty → List Ty → Option Bool
  | [], [] => some true
  | t :: ts, u :: us =>
    match tyEq t u with
    | none => none
    | some false => some false
    | some true => argsEq ts us
  | _, _ => some false

/-- `==` of the attributes that a class adds: `header_test` (262-265), `function_test` (344-349), `struct_test` (495-498); the others
inherit `__eq__`. -/
def ownEq : Kind → Kind → Option Bool
  | .header f, .header g => some (decide (f = g))
  | .function r as d, .function r' as' d' =>
    match tyEq r r' with
    | none => none
    | some false => some false
    | some true =>
      match argsEq as as' with
      | none => none
      | some false => some false
      | some true => some (decide (d = d'))
  | .struct ms, .struct ms' => some (decide (ms = ms'))
  | .cxxStruct ms, .cxxStruct ms' => some (decide (ms = ms'))
  | _, _ => some true

/-- `a == b`; `none` is an `AttributeError` -/
def eq (a b : Test) : Option Bool := if baseEq a b then ownEq a.kind b.kind else some false

/-- what is hashed -/
inductive Hashed where
  | text (s : Text)
  | none
  | int (n : Int)
  | ty (k : Key)
  | tuple (hs : List Hashed)

def ofText : Option Text → Hashed
  | none => .none
  | some s => .text s

/-- `AbstractFieldDescriptor.__hash__` (218-228) -/
def baseHashed (a : Test) : Hashed :=
  .tuple [.text a.kind.cls.path.1, .text a.kind.cls.path.2, ofText a.key, ofText a.name, ofText a.test, ofText a.stdin, ofText a.stdout,
    (match a.timeout with | none => .none | some n => .int n)]

/-- one of `default_args` in a tuple -/
def Default.hashed : Default → Hashed
  | .text s => .text s
  | .int n => .int n

/-- `__hash__`: `header_test` (267-271), `function_test` (351-357), `struct_test` (500-504), the others by inheritance (218-228); `none` is
the `TypeError` of `hash([...])` -/
def hashed (a : Test) : Option Hashed :=
  match a.kind with
  | .header f => some (.tuple [baseHashed a, .text f])
  | .function r as d =>
    match d with
    | .none => some (.tuple [baseHashed a, .ty r.key, .tuple (as.map fun t => .ty t.key), .none])
    | .tuple ds => some (.tuple [baseHashed a, .ty r.key, .tuple (as.map fun t => .ty t.key), .tuple (ds.map Default.hashed)])
    | .list _ => none
  | .struct ms => some (.tuple [baseHashed a, .tuple (ms.map fun m => .tuple [.text m.1, .text m.2])])
  | .cxxStruct ms => some (.tuple [baseHashed a, .tuple (ms.map fun m => .tuple [.text m.1, .text m.2])])
  | _ => some (baseHashed a)

/-- `template_test.format_test` (config/cxx/__init__.py 49-60) -/
def templateProgram (header : Option Text) (name : Text) (types : List Text) : Text :=
  '\n' :: Results.includeLine header ++ "\n\nint main() {\n    ".toList ++ name ++ '<' :: Results.commas types ++
    "> t;\n    return 0;\n}\n".toList

end Verif.Config.Equal
