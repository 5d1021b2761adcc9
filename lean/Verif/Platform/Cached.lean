import Verif.Functools.Files
import Verif.Platform.Core
/-!
# Cached methods with platform options

`build_objects`, `link_lib` and `link_exe` (lib/fbuild/builders/__init__.py:140-142, 198-200, 270-272) are cached methods
that are decorated with `auto_platform_options` (lib/fbuild/builders/platform.py:226-253), by `wraps`
(lib/fbuild/functools.py:9-26).  The model is `Database.call` (lib/fbuild/db/database.py:66-109, 184) for such a method: which
arguments and files the database is told about, and what the method itself is given.

The object is the first of the positional arguments and has a context (233-240), so that the options are always read.  The value
of `platform_options` is an object, which is `Val.other` here; `read` is what it contains.
-/
namespace Verif.Platform
open Functools (Name Sig Annot)

/-- keyword arguments -/
abbrev Keywords := Functools.Dict Val

/-- what an object given for `platform_options` contains -/
abbrev Options := List (List Text × List (Text × Val))

/-- What `_find_call_filenames` does with values; `h` are the contents of the lists. -/
def fileOps (h : Heap) : Functools.FileOps Val where
  isNone v := v = .none
  iter v := (iter h v).map fun xs => xs.map Val.str
  hashable
    | .list _ | .set _ => false
    | _ => true
  ofName n := .str n.toList

/-- What `bind_args` does with the value of a parameter called `kw` or `kwargs` (functools.py:257-259). -/
def argOps (h : Heap) : Functools.Ops Val where
  probe v := match v with
    | .none | .other _ => .raises .typeError
    | .str s => if infixOf Functools.inner.toList s then .raises .attributeError else .absent
    | .list r => if Functools.inner.toList ∈ h.getD r [] then .raises .typeError else .absent
    | .tuple xs => if Functools.inner.toList ∈ xs then .raises .attributeError else .absent
    | .set xs => if Functools.inner.toList ∈ xs then .raises .typeError else .absent
  isInner v := v = .str Functools.inner.toList

/-- `platform = kw.get('platform', None)`, and the system's platform if it is `None` (platform.py:190-191, 243) -/
def platformOf (guess : List Text) : Option Val → Except Err (List Text)
  | Option.none | some .none => .ok guess
  | some (.set p) => .ok p
  | some _ => .error .typeError

/-- `kw.pop('platform_options', [])` (244) -/
def optionsOf (read : Nat → Options) : Option Val → Except Err Options
  | Option.none => .ok []
  | some (.other n) => .ok (read n)
  | some _ => .error .typeError

/-- the keyword arguments as `parse_platform_options` sees them, and back -/
def toDict (kw : Keywords) : Dict := kw.map fun x => (x.1.toList, x.2)
def ofDict (kw : Dict) : Keywords := kw.map fun x => (String.ofList x.1, x.2)

/-- `_wrapper` of `auto_platform_options` (228-250): the keyword arguments that the method itself is called with -/
def enter (guess : List Text) (read : Nat → Options) (passPlatform : Bool) (kws : Keywords) (h : Heap) :
    Except Err (Keywords × Heap) :=
  let kw := Functools.Dict.erase kws Functools.inner                                      -- 230
  match platformOf guess (kw.lookup "platform"), optionsOf read (kw.lookup "platform_options") with
  | .error e, _ => .error e
  | .ok _, .error e => .error e
  | .ok platform, .ok po =>
    match parse platform po (toDict (Functools.Dict.erase kw "platform_options")) h with  -- 243-245
    | .error e => .error e
    | .ok (kw, h) =>
      .ok (if passPlatform then ofDict kw else Functools.Dict.erase (ofDict kw) "platform", h)  -- 246-248

/-- the keyword arguments with the key that `Database.call` adds (database.py:90-91) -/
def marked (kws : Keywords) : Keywords := Functools.Dict.set kws Functools.inner (.other 0)

/-- What the database is told: the arguments under which the result is stored, the declared files, and the annotation of the
result (database.py:106-109). -/
def declare (s : Sig Val) (ann : List (Name × Annot)) (as : List Val) (kws : Keywords) (h : Heap) :=
  Functools.findCallFilenames (argOps h) (fileOps h) s ann as (marked kws)

/-- What the method is called with, and the contents of the lists at that time (database.py:184). -/
def given (guess : List Text) (read : Nat → Options) (passPlatform : Bool) (kws : Keywords) (h : Heap) :
    Except Err (Keywords × Heap) :=
  enter guess read passPlatform (marked kws) h

end Verif.Platform
