import Verif.Dict
import Verif.Gcc.Core
/-!
# Configuration tests

Model of `fbuild.config` (lib/fbuild/config/__init__.py), of the descriptors and `Test` in
`fbuild.config.c` (lib/fbuild/config/c/__init__.py) and of `template_test` and `TestMeta` in
`fbuild.config.cxx` (lib/fbuild/config/cxx/__init__.py).

Descriptors are mutable objects that several classes may share, so they live in a heap.

Left out: the texts of the test programs (a parameter `format`), messages, timeouts, `Test.get`, attributes set
on a class after its creation, how Python orders the ancestors of a class with several bases (a parameter).
-/
namespace Verif.Config
open Verif (Dict)

abbrev Text := List Char

/-- the descriptor classes (config/c/__init__.py:232-532, config/cxx/__init__.py:40-67) with the arguments of their
constructors; types given as `Function` objects are written as text -/
inductive Kind
  | header (filename : Text)
  | function (ret : Text) (args : List Text)
  | macro
  | type
  | intType
  | struct (members : List (Text × Text))
  | variable
  | template (types : List Text)
deriving DecidableEq

/-- an `AbstractFieldDescriptor` (config/c/__init__.py:140-157): `key` is its `__name__` -/
structure Desc where
  kind : Kind
  key : Option Text := none
  name : Option Text := none
  test : Option Text := none
  stdin : Option Text := none
  stdout : Option Text := none
deriving DecidableEq

/-- the descriptors that were created, by their identity -/
abbrev Heap := Nat → Desc

/-- `heap[i] = d` -/
def Heap.set (h : Heap) (i : Nat) (d : Desc) : Heap := fun j => if j = i then d else h j

/-- a value assigned in the body of a class: a descriptor, a function decorated with `c.cacheproperty`
(config/c/__init__.py:130), or something without `contribute_to_class` -/
inductive Val
  | desc (id : Nat)
  | prop (id : Nat)
  | other (id : Nat)
deriving DecidableEq

/-- `hasattr(value, 'contribute_to_class')` (config/__init__.py:57) -/
def Val.isField : Val → Bool
  | .other _ => false
  | _ => true

/-- a statement in the body of a class -/
inductive Stmt
  | set (key : Text) (v : Val)
  | del (key : Text)
deriving DecidableEq

/-- the name that a statement assigns or deletes -/
def Stmt.key : Stmt → Text
  | .set k _ => k
  | .del k => k

/-- `_FieldTable` (config/__init__.py:8-19): the dictionary and `field_names` -/
structure Table where
  dict : Dict Text Val := []
  names : List Text := []

/-- one statement of the body; `del` uses the method of `dict`, so `field_names` keeps the name.  `none` is a
`NameError`. -/
def Table.step (t : Table) : Stmt → Option Table
  | .set k v => some ⟨t.dict.set k v, if (t.dict.get? k).isSome then t.names else t.names ++ [k]⟩
  | .del k => if (t.dict.get? k).isSome then some ⟨t.dict.erase k, t.names⟩ else none

/-- the body of a class is executed in the mapping of `__prepare__` (config/__init__.py:22-24) -/
def Table.run : Table → List Stmt → Option Table
  | t, [] => some t
  | t, s :: rest =>
    match t.step s with
    | none => none
    | some t => t.run rest

/-- a class: the dictionaries of the class and its ancestors in the order of `__mro__`, and `__field_names__` -/
structure Cls where
  dicts : List (Dict Text Val) := []
  fieldNames : List Text := []

/-- `getattr(cls, key)`: the first dictionary that has it -/
def getattr : List (Dict Text Val) → Text → Option Val
  | [], _ => none
  | d :: rest, k =>
    match d.get? k with
    | some v => some v
    | none => getattr rest k

/-- `contribute_to_class` of a descriptor (config/c/__init__.py:159-163, for structs 463-467): it takes the key as its
`__name__` and, if it was created without one, as the name of the thing to test -/
def Desc.contribute (d : Desc) (key : Text) : Desc :=
  { d with
    key := some key
    name := match d.name, d.kind with
      | some n, _ => some n
      | none, .struct _ => some ("struct ".toList ++ key)
      | none, _ => some key }

/-- what `add_to_class` changes (config/__init__.py:56-60) -/
structure Adding where
  heap : Heap
  own : Dict Text Val := []
  fieldNames : List Text

/-- `add_to_class` (config/__init__.py:56-60), with `cacheproperty.contribute_to_class`
(config/c/__init__.py:131-136) -/
def Adding.add (a : Adding) (key : Text) : Val → Adding
  | .desc i => ⟨a.heap.set i ((a.heap i).contribute key), a.own.set key (.desc i), a.fieldNames ++ [key]⟩
  | .prop i => ⟨a.heap, a.own.set key (.prop i), a.fieldNames ++ [key]⟩
  | .other i => ⟨a.heap, a.own.set key (.other i), a.fieldNames⟩

/-- the loop over `attrs.field_names` (config/__init__.py:46-52): names that were deleted are left out -/
def addAll (attrs : Dict Text Val) : List Text → Adding → Adding
  | [], a => a
  | key :: rest, a =>
    match attrs.get? key with
    | none => addAll attrs rest a
    | some v => addAll attrs rest (a.add key v)

/-- `TestMeta.__new__` (config/__init__.py:26-54) for a class with at least one base that is a `TestMeta`.  `rest`: the
dictionaries of the ancestors in the order of `__mro__`. -/
def newClass (heap : Heap) (parents : List Cls) (rest : List (Dict Text Val)) (body : List Stmt) :
    Option (Heap × Cls) :=
  match Table.run {} body with
  | none => none
  | some t =>
    let inherited := parents.flatMap (fun p => p.fieldNames.filter (fun k => (t.dict.get? k).isNone))
    let a := addAll t.dict t.names { heap := heap, fieldNames := inherited }
    some (a.heap, ⟨a.own :: rest, a.fieldNames⟩)

/-- `fields()` (config/__init__.py:66-69); `none` is an `AttributeError` -/
def fields (c : Cls) : List (Text × Option Val) := c.fieldNames.map (fun k => (k, getattr c.dicts k))

/-- a class with one base -/
def subclass (heap : Heap) (parent : Cls) (body : List Stmt) : Option (Heap × Cls) :=
  newClass heap [parent] parent.dicts body

/-- classes derived one from another; the first derives from `Test`, which has no fields -/
def chain : Heap → Cls → List (List Stmt) → Option (Heap × Cls)
  | heap, c, [] => some (heap, c)
  | heap, c, body :: rest =>
    match subclass heap c body with
    | none => none
    | some (heap, c) => chain heap c rest

/-! ## C++ -/

/-- the loop over the fields of a class with a namespace (config/cxx/__init__.py:77-81).  `none` is an
`AttributeError`: what is found under the name has no `method` or the `method` is a function, without `name`. -/
def prefixAll (ns : Text) : List (Text × Option Val) → Heap → Option Heap
  | [], heap => some heap
  | (_, some (.desc i)) :: rest, heap =>
    match (heap i).kind, (heap i).name with
    | .macro, _ => prefixAll ns rest heap
    | _, some n => prefixAll ns rest (heap.set i { heap i with name := some (ns ++ "::".toList ++ n) })
    | _, none => none
  | _ :: _, _ => none

/-- `TestMeta.__new__` of C++ (config/cxx/__init__.py:72-83); the namespace is taken out of the body -/
def newCxxClass (heap : Heap) (parents : List Cls) (rest : List (Dict Text Val)) (ns : Option Text)
    (body : List Stmt) : Option (Heap × Cls) :=
  match newClass heap parents rest body with
  | none => none
  | some (heap, c) =>
    match ns with
    | none => some (heap, c)
    | some ns =>
      match prefixAll ns (fields c) heap with
      | none => none
      | some heap => some (heap, c)

/-! ## Running a test -/

/-- the objects that tests return (config/c/__init__.py:9-126, config/cxx/__init__.py:27-38) -/
inductive Res
  | header (filename : Text)
  | function (ret : Text) (args : List Text)
  | macro
  | type (alignment size : Int)
  | intType (alignment size : Int) (signed : Bool)
  | struct (members : List (Text × Text))
  | variable
  | template
deriving DecidableEq

/-- how the evaluation of a test ends: with a value, where `none` is `None`, or with an exception -/
inductive Out
  | value (r : Option Res)
  | raised
deriving DecidableEq

/-- the digits of a number, from the most significant one; `none` if there is another character.  The first argument
is the value of the digits before. -/
def digits (acc : Nat) : Text → Option Nat
  | [] => some acc
  | c :: s => if c.isDigit then digits (acc * 10 + (c.toNat - '0'.toNat)) s else none

/-- `int(s)` of a word; underscores between digits are left out -/
def pyInt : Text → Option Int
  | [] => none
  | ['-'] => none
  | ['+'] => none
  | '-' :: s => (digits 0 s).map (fun n => - (n : Int))
  | '+' :: s => (digits 0 s).map (fun n => (n : Int))
  | s => (digits 0 s).map (fun n => (n : Int))

/-- `int(stdout[i])` -/
def word (words : List Text) (i : Nat) : Option Int :=
  match words[i]? with
  | none => none
  | some w => pyInt w

/-- what is returned if the output is as declared (config/c/__init__.py:256-260, 338-342, 383-387, 489-493, 528-532,
config/cxx/__init__.py:62-67) -/
def expected (d : Desc) (stdout : Text) (r : Res) : Out :=
  match d.stdout with
  | none => .value (some r)
  | some s => if s = stdout then .value (some r) else .value none

/-- `process_stdout` of each kind; those of types are config/c/__init__.py:411-418 and 441-450 -/
def process (d : Desc) (stdout : Text) : Out :=
  match d.kind with
  | .header f => expected d stdout (.header f)
  | .function r args => expected d stdout (.function r args)
  | .macro => expected d stdout .macro
  | .struct ms => expected d stdout (.struct ms)
  | .variable => expected d stdout .variable
  | .template _ => expected d stdout .template
  | .type =>
    let words := Gcc.splitBlank [] stdout
    match word words 0, word words 1 with
    | some a, some s => .value (some (.type a s))
    | _, _ => .raised
  | .intType =>
    let words := Gcc.splitBlank [] stdout
    match word words 0, word words 1, word words 2 with
    | some a, some s, some g => .value (some (.intType a s (g = 1)))
    | _, _, _ => .raised

/-- what `instance.header` is: there is no such attribute, or its value -/
abbrev HeaderAttr := Option (Option Text)

/-- `AbstractFieldDescriptor.__call__` (config/c/__init__.py:165-200).  `format`: the text of the program for a
descriptor and a header; `run`: `tempfile_run`, with `none` for `ExecutionError`. -/
def evaluate (format : Desc → Option Text → Text) (run : Text → Option Text → Option Text) (header : HeaderAttr)
    (d : Desc) : Out :=
  let isHeader := match d.kind with | .header _ => true | _ => false
  let go (header : Option Text) :=
    let program := match d.test with
      | some t => if t = [] then format d header else t
      | none => format d header
    match run program d.stdin with
    | none => .value none
    | some stdout => process d stdout
  if isHeader then go none
  else
    match header with
    | none => go none
    | some none => .value none
    | some (some h) => go (some h)

/-! ## Listing the results -/

/-- `functions`, `macros`, `types`, `int_types`, `structs`, `variables` -/
inductive Listing
  | functions | macros | types | intTypes | structs | variables
deriving DecidableEq

/-- `isinstance(field.method, ...)` (config/c/__init__.py:566, 577, 588, 599, 610, 621) -/
def Listing.test : Listing → Kind → Bool
  | .functions, .function _ _ => true
  | .macros, .macro => true
  | .types, .type => true
  | .types, .intType => true
  | .intTypes, .intType => true
  | .structs, .struct _ => true
  | .variables, .variable => true
  | _, _ => false

/-- `functions` and so on (config/c/__init__.py:563-627): pairs of `field.method.name` and the value of the attribute.
`value` evaluates the test of that key.  The branch for things that are no `cacheproperty` (569-572 and so on) is only
reached if a field is hidden by something else, and then raises or lists nothing; here it lists nothing. -/
def listing (heap : Heap) (value : Text → Option Res) (l : Listing) (c : Cls) : List (Option Text × Option Res) :=
  (fields c).filterMap (fun f =>
    match f.2 with
    | some (.desc i) => if l.test (heap i).kind then some ((heap i).name, value f.1) else none
    | _ => none)

end Verif.Config
