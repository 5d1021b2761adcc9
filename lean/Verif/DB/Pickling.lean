/-!
# Model of how values are written to the database and read from it

`Pickler`, `Unpickler` of lib/fbuild/db/backend.py (334-373), `close` and `_connect` of lib/fbuild/db/pickle_backend.py (12-73) and
`_pickle_dumps`, `_pickle_loads`, `find_call`, `save_call` of lib/fbuild/db/sqlite_backend.py (223-326).  Of Python's pickle there is a stack
machine with what matters here: persistent ids, containers and instances of classes, which are found by name.  Left out: the memo (values are
trees), the encoding of the operations as bytes, `__reduce__` of one's own, the version and the number of tables (see `Verif/DB/Pickle.lean`).
-/
namespace Verif.DB.Pickling

abbrev Text := String

/-- what holds other values: the containers, instances of a class with their attributes, and `_ObjectID` (sqlite_backend.py 12-15) -/
inductive Tag where
  | list | tuple | set | dict
  | inst (cls : Text)
  | objId (cls : Text)
  deriving DecidableEq

mutual
/-- Python values: those without parts, contexts (each process has its own), things that cannot be pickled such as lambdas, and those with
parts -/
inductive Val where
  | atom (t : Text)
  | ctx (n : Nat)
  | opaque (n : Nat)
  | node (tag : Tag) (xs : Vals)
/-- the parts of a value, with their names (attributes, keys) -/
inductive Vals where
  | nil
  | cons (name : Text) (v : Val) (vs : Vals)
end

/-- whether a class can be found by its name: the module has it, the module does not have it, there is no such module -/
inductive Avail where
  | there | noMember | noModule
  deriving DecidableEq

/-- the operations of a pickle -/
inductive Op where
  | atom (t : Text)
  | pers (pid : Text)
  | name (t : Text)
  | mark (tag : Tag)
  | build

/-- the class that has to be found for a value with parts -/
def Tag.cls : Tag → Option Text
  | .inst c => some c
  | .objId c => some c
  | _ => none

/-- whether the class can be found -/
def usable (av : Text → Avail) (tag : Tag) : Bool :=
  match tag.cls with
  | none => true
  | some c => av c == .there

mutual
/-- `Pickler.dump` with `persistent_id` (341-345); `none` if it raises -/
def dump (ctx : Nat) (av : Text → Avail) : Val → Option (List Op)
  | .atom t => some [.atom t]
  | .ctx n => if n = ctx then some [.pers "ctx"] else none
  | .opaque _ => none
  | .node tag xs =>
    if usable av tag then (dumpAll ctx av xs).map fun ops => .mark tag :: (ops ++ [.build]) else none
def dumpAll (ctx : Nat) (av : Text → Avail) : Vals → Option (List Op)
  | .nil => some []
  | .cons n v vs =>
    match dump ctx av v with
    | none => none
    | some a => (dumpAll ctx av vs).map fun b => .name n :: (a ++ b)
end

/-- what is on the stack of the unpickler -/
inductive Item where
  | val (v : Val)
  | name (t : Text)
  | mark (tag : Tag)

/-- the exceptions of loading: `AttributeError`, `ModuleNotFoundError`, `UnpicklingError` -/
inductive LoadErr where
  | attribute | module | unpickling
  deriving DecidableEq

/-- the parts on top of the stack, and the value that they belong to -/
def collect : List Item → Vals → Except LoadErr (List Item)
  | .val v :: .name n :: st, acc => collect st (.cons n v acc)
  | .mark tag :: st, acc => .ok (.val (.node tag acc) :: st)
  | _, _ => .error .unpickling

/-- one operation; `persistent_load` is 354-359 -/
def exec (ctx : Nat) (av : Text → Avail) : Op → List Item → Except LoadErr (List Item)
  | .atom t, st => .ok (.val (.atom t) :: st)
  | .pers pid, st => if pid = "ctx" then .ok (.val (.ctx ctx) :: st) else .error .unpickling
  | .name t, st => .ok (.name t :: st)
  | .mark tag, st =>
    match tag.cls with
    | none => .ok (.mark tag :: st)
    | some c =>
      match av c with
      | .there => .ok (.mark tag :: st)
      | .noMember => .error .attribute
      | .noModule => .error .module
  | .build, st => collect st .nil

def execAll (ctx : Nat) (av : Text → Avail) : List Op → List Item → Except LoadErr (List Item)
  | [], st => .ok st
  | op :: ops, st =>
    match exec ctx av op st with
    | .error e => .error e
    | .ok st1 => execAll ctx av ops st1

/-- `Unpickler.load` -/
def load (ctx : Nat) (av : Text → Avail) (ops : List Op) : Except LoadErr Val :=
  match execAll ctx av ops [] with
  | .error e => .error e
  | .ok [.val v] => .ok v
  | .ok _ => .error .unpickling

/-! ## The pickle engine -/

/-- `close` (pickle_backend.py 39-73): whether it succeeds, and the state file afterwards.  The tables are dumped before anything is written. -/
def close (ctx : Nat) (av : Text → Avail) (tables : Vals) (file : Option (List Op)) : Bool × Option (List Op) :=
  match dump ctx av (.node .tuple tables) with
  | none => (false, file)
  | some ops => (true, some ops)

/-- `_connect` (12-36): the tables.  Without a file, and if a class is not in its module, they are empty. -/
def connect (ctx : Nat) (av : Text → Avail) : Option (List Op) → Except LoadErr Vals
  | none => .ok .nil
  | some ops =>
    match load ctx av ops with
    | .ok (.node _ tables) => .ok tables
    | .ok _ => .error .unpickling
    | .error .attribute => .ok .nil
    | .error e => .error e

/-! ## The sqlite engine -/

mutual
/-- `persist` (sqlite_backend.py 234-240); `persistent` are the classes derived from `PersistentObject` -/
def persist (persistent : Text → Bool) : Val → Val
  | .node (.inst c) xs => if persistent c then .node (.objId c) (persistAll persistent xs) else .node (.inst c) xs
  | .atom t => .atom t
  | .ctx n => .ctx n
  | .opaque n => .opaque n
  | .node tag xs => .node tag xs
def persistAll (persistent : Text → Bool) : Vals → Vals
  | .nil => .nil
  | .cons n v vs => .cons n (persist persistent v) (persistAll persistent vs)
end

mutual
/-- `unpersist` (261-268) -/
def unpersist : Val → Val
  | .node (.objId c) xs => .node (.inst c) (unpersistAll xs)
  | .atom t => .atom t
  | .ctx n => .ctx n
  | .opaque n => .opaque n
  | .node tag xs => .node tag xs
def unpersistAll : Vals → Vals
  | .nil => .nil
  | .cons n v vs => .cons n (unpersist v) (unpersistAll vs)
end

/-- `_pickle_dumps` (223-245) -/
def sqlDump (ctx : Nat) (av : Text → Avail) (persistent : Text → Bool) (v : Val) : Option (List Op) := dump ctx av (persist persistent v)

/-- `_pickle_loads` (248-270) -/
def sqlLoad (ctx : Nat) (av : Text → Avail) (ops : List Op) : Except LoadErr Val :=
  match load ctx av ops with
  | .error e => .error e
  | .ok v => .ok (unpersist v)

/-- `save_call` (298-326) of a new call: whether it succeeds, and the rows of the function (arguments and result) -/
def save (ctx : Nat) (av : Text → Avail) (persistent : Text → Bool) (bound result : Val) (rows : List (List Op × List Op)) :
    Bool × List (List Op × List Op) :=
  match sqlDump ctx av persistent result, sqlDump ctx av persistent bound with
  | some r, some b => (true, rows ++ [(b, r)])
  | _, _ => (false, rows)

/-- `find_call` (273-295): the result of the first row with equal arguments -/
def find (ctx : Nat) (av : Text → Avail) (eq : Val → Val → Bool) (bound : Val) : List (List Op × List Op) → Except LoadErr (Option Val)
  | [] => .ok none
  | (b, r) :: rows =>
    match sqlLoad ctx av b with
    | .error e => .error e
    | .ok old =>
      if eq bound old then
        match sqlLoad ctx av r with
        | .error e => .error e
        | .ok v => .ok (some v)
      else find ctx av eq bound rows

end Verif.DB.Pickling
