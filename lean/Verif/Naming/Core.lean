import Verif.Dict
import Verif.DB.Backend
/-!
# Names and digests of cached functions

Model of `Database._find_function_name`, `add_function_to_map`, `get_function_digest_from_map`,
`_digest_function` (lib/fbuild/db/database.py:222-291) and of `PersistentMeta.__init__`
(lib/fbuild/db/__init__.py:98-116).

Left out: function objects other than functions and methods (functors), functions whose `__name__`
differs from the attribute they are bound to, the search for the source text
(lib/fbuild/inspect.py).
-/
namespace Verif.Naming
open Verif.DB (FunName Digest)

abbrev Text := String

/-- A Python function: what `__module__`, `__name__` and `inspect.getsource` give.
`decorator` is the text of the wrapper if it was decorated with `fbuild.functools.wraps`
(lib/fbuild/functools.py:9-27); `captured` stands for what else distinguishes it from a function with
the same text, such as captured variables. -/
structure Fn where
  module : String
  name : String
  text : Text
  decorator : Option Text := none
  captured : Nat := 0
deriving DecidableEq

/-- An attribute in the dictionary of a class: a `cachemethod` or `cacheproperty`, or something else. -/
structure Attr where
  name : String
  cached : Option Fn
deriving DecidableEq

/-- A subclass of `PersistentObject`.  `mro`: the dictionaries of the class and its ancestors in the
order of `__mro__`; `bases`: the same for each direct base. -/
structure Cls where
  module : String
  name : String
  initText : Text
  mro : List (List Attr)
  bases : List (List (List Attr))
deriving DecidableEq

/-- `getattr(cls, name)` for a class with this `mro`; `none`: no such attribute, or not cached -/
def resolve : List (List Attr) → String → Option Fn
  | [], _ => none
  | d :: rest, a =>
    match d.find? (fun x => x.name = a) with
    | some x => x.cached
    | none => resolve rest a

/-- the cached ones among `map(functools.partial(getattr, cls), dir(cls))`
(lib/fbuild/db/__init__.py:105-112) -/
def members (mro : List (List Attr)) : List Fn :=
  (mro.flatten.map Attr.name).filterMap (resolve mro)

/-- The things whose calls are cached: a function, a method found on an instance of a class, the
creation of an object. -/
inductive Callee
  | fn (f : Fn)
  | method (c : Cls) (f : Fn)
  | new (c : Cls)
deriving DecidableEq

/-- `_find_function_name` (database.py:236-276) -/
def nameOf : Callee → FunName
  | .fn f => f.module ++ "." ++ f.name
  | .method c f => f.module ++ "." ++ c.name ++ "." ++ f.name
  | .new c => c.module ++ "." ++ c.name

/-- The text that `_digest_function` (database.py:278-291) finds: the decorated function's own text
(line 241 unwraps), and for the creation of an object the text of `PersistentMeta.__call_super__`
(`superText`), which is the function that is called (db/__init__.py:118-119,123). -/
def digestText (superText : Text) : Callee → Text
  | .fn f => f.text
  | .method _ f => f.text
  | .new _ => superText

/-- A definition that is executed when the scripts are imported. -/
inductive Def
  | fn (f : Fn)
  | cls (c : Cls)
deriving DecidableEq

/-- What a definition registers, in order: `caches.__init__` (db/__init__.py:174-175) and
`PersistentMeta.__init__` (db/__init__.py:105-116). -/
def Def.registers : Def → List Callee
  | .fn f => [.fn f]
  | .cls c => (members c.mro ++ c.bases.flatMap members).map (.method c) ++ [.new c]

/-- `add_function_to_map` (database.py:222-228): the first one stays. -/
def register (superText : Text) (m : Dict FunName Text) (c : Callee) : Dict FunName Text :=
  match m.get? (nameOf c) with
  | none => m.set (nameOf c) (digestText superText c)
  | some _ => m

/-- `_FUN_DIGESTS` after the definitions `P` were executed -/
def digests (superText : Text) (P : List Def) : Dict FunName Text :=
  (P.flatMap Def.registers).foldl (register superText) []

/-- `get_function_digest_from_map` (database.py:230-234); `none` is a `KeyError` -/
def digestOf (md5 : Text → Digest) (superText : Text) (P : List Def) (c : Callee) : Option Digest :=
  ((digests superText P).get? (nameOf c)).map md5

end Verif.Naming
