import Verif.Path.Core
/-!
# Model of the functions that are given by name: `import_module`, `import_function` and `call` of lib/fbuild/functools.py (40-64)

Modules and what they define are a parameter.  Left out: that importing a module runs it, and what else the import can raise.
-/
namespace Verif.Functools.Import

abbrev Text := List Char

/-- what Python finds: the module with a dotted name, as the attributes it has; `none`: there is no such module -/
abbrev Modules (V : Type) := Text → Option (Text → Option V)

/-- how an import ends -/
inductive Out (α : Type) where
  | ok (x : α)
  | importError
  | attributeError
  /-- too few parts to unpack, or an empty name of a module -/
  | valueError
  deriving DecidableEq

/-- `name.rsplit('.', 1)`: the parts before and behind the last dot; `none` if there is no dot -/
def rsplit : Text → Option (Text × Text)
  | [] => none
  | c :: s =>
    match rsplit s with
    | some (a, b) => some (c :: a, b)
    | none => if c = '.' then some ([], s) else none

/-- Python's `__import__(name, {}, {}, fromlist)`: the module itself if something is imported from it, else the package that its name
begins with -/
def pyImport {V : Type} (ms : Modules V) (name : Text) (fromlist : List Text) : Out (Text → Option V) :=
  if name = [] then .valueError
  else
    match ms name with
    | none => .importError
    | some m =>
      if fromlist ≠ [] then .ok m
      else
        match ms (name.takeWhile (· ≠ '.')) with
        | none => .importError
        | some p => .ok p

/-- `getattr(m, f)` -/
def getattr {V : Type} (m : Text → Option V) (f : Text) : Out V :=
  match m f with
  | some v => .ok v
  | none => .attributeError

/-- a module or a function, or its name -/
inductive Given (α : Type) where
  | name (s : Text)
  | itself (x : α)

/-- `import_module` (40-47) -/
def importModule {V : Type} (ms : Modules V) : Given (Text → Option V) → Out (Text → Option V)
  | .name s => pyImport ms s [[]]
  | .itself m => .ok m

/-- `import_function` (49-57) -/
def importFunction {V : Type} (ms : Modules V) : Given V → Out V
  | .name s =>
    match rsplit s with
    | none => .valueError
    | some (m, f) =>
      match pyImport ms m [[]] with
      | .ok module => getattr module f
      | .importError => .importError
      | .attributeError => .attributeError
      | .valueError => .valueError
  | .itself f => .ok f

/-- `call` (59-64) of a function with arguments -/
def call {A R : Type} (ms : Modules (A → R)) (f : Given (A → R)) (args : A) : Out R :=
  match importFunction ms f with
  | .ok f => .ok (f args)
  | .importError => .importError
  | .attributeError => .attributeError
  | .valueError => .valueError

end Verif.Functools.Import
