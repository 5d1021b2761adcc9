/-!
# Model of the objects in the table of calls

What `find_call` and `save_call` keep: the engines `cache` and `pickle` keep the argument objects and the result object
themselves (cache_backend.py:136-195), so a later change of such an object changes the table; the engine `sqlite` keeps pickled
copies (sqlite_backend.py:273-325).  An object is a reference with a value on a heap.  `call_bound` is the list of argument objects
(database.py:106-109, the dictionary itself is new for every call).  The function is run between `start` and `finish`; any object
may be changed at any time by `mutate`.  Files and digests are left out: `start` says whether the recorded result may be used.
-/
namespace Verif.Alias

abbrev FunName := String
abbrev Ref := Nat

variable {V : Type}

abbrev Heap (V : Type) := Ref → V

/-- a stored object: the object itself, or a copy of its value -/
inductive Stored (V : Type) where
  | ref (r : Ref)
  | copy (v : V)

def Stored.value (h : Heap V) : Stored V → V
  | .ref r => h r
  | .copy v => v

def Stored.refs : Stored V → List Ref
  | .ref r => [r]
  | .copy _ => []

inductive Engine where
  /-- `cache` and `pickle` -/
  | alias
  /-- `sqlite` -/
  | copy
  deriving DecidableEq

def Engine.store (e : Engine) (h : Heap V) (r : Ref) : Stored V :=
  match e with
  | .alias => .ref r
  | .copy => .copy (h r)

structure Entry (V : Type) where
  /-- row number (`call_id` of `sqlite`, never used twice) -/
  id : Nat
  key : List (Stored V)
  res : Stored V

structure Pending (V : Type) where
  fn : FunName
  args : List Ref
  /-- the values of the arguments when the call started (history) -/
  vals : List V
  /-- `fun_dirty` -/
  dirty : Bool
  /-- index and row number of the entry found by `find_call` -/
  found : Option (Nat × Nat)

/-- A finished execution: the values of the arguments when the function was called, the value of the result when it returned. -/
structure Exec (V : Type) where
  fn : FunName
  args : List V
  res : V
  deriving DecidableEq

structure State (V : Type) where
  heap : Heap V
  table : FunName → List (Entry V)
  /-- the next row number -/
  next : Nat
  pending : Nat → Option (Pending V)
  /-- history -/
  log : List (Exec V)

inductive Event (V : Type) where
  /-- A call up to the decision whether to run the function (database.py:100-143).  `dirty`: the function or one it depends on
  changed; `usable`: the files do not require running it. -/
  | start (id : Nat) (f : FunName) (args : List Ref) (dirty usable : Bool)
  /-- the function returned the object `res` (database.py:180-192) -/
  | finish (id : Nat) (res : Ref)
  /-- the function raised an exception: nothing is stored -/
  | fail (id : Nat)
  /-- an object gets a new value -/
  | mutate (r : Ref) (v : V)
  /-- `delete_function` (cache_backend.py:72-132) -/
  | forget (f : FunName)
  /-- the database is saved and loaded by a new process (pickle_backend.py:12-79) -/
  | reload

inductive Out (V : Type) where
  | hit (v : V)
  | run
  | done
  deriving DecidableEq

variable [DecidableEq V]

def keyIs (h : Heap V) (vals : List V) (e : Entry V) : Bool := e.key.map (Stored.value h) == vals

/-- `find_call` (cache_backend.py:136-157, sqlite_backend.py:273-295): the first entry whose arguments are equal now -/
def findCall (h : Heap V) (vals : List V) (t : List (Entry V)) : Option (Nat × Entry V) :=
  match t.findIdx? (keyIs h vals), t.find? (keyIs h vals) with
  | some i, some e => some (i, e)
  | _, _ => none

/-- `save_call`: `cache` and `pickle` (cache_backend.py:160-197) replace the entry at the index; an index past the end is an
exception and nothing is stored; if there are no entries the index is ignored.  `sqlite` (sqlite_backend.py:298-325) changes only
the result of the row, if it is still there. -/
def saveCall (eng : Engine) (h : Heap V) (next : Nat) (found : Option (Nat × Nat)) (args : List Ref) (res : Ref)
    (t : List (Entry V)) : List (Entry V) :=
  let new : Entry V := ⟨next, args.map (eng.store h), eng.store h res⟩
  match eng, found with
  | _, none => t ++ [new]
  | .alias, some (i, _) => if t.isEmpty then [new] else t.set i new
  | .copy, some (_, k) => t.map fun e => if e.id = k then { e with res := eng.store h res } else e

def upd {A B : Type} [DecidableEq A] (f : A → B) (a : A) (b : B) : A → B := fun x => if x = a then b else f x

def step (eng : Engine) (s : State V) : Event V → Out V × State V
  | .start id f args dirty usable =>
    let vals := args.map s.heap
    let found := if dirty then none else findCall s.heap vals (s.table f)
    match found, usable with
    | some (_, e), true => (.hit (e.res.value s.heap), s)
    | _, _ => (.run, { s with
        pending := upd s.pending id (some ⟨f, args, vals, dirty, found.map fun x => (x.1, x.2.id)⟩) })
  | .finish id res =>
    match s.pending id with
    | none => (.done, s)
    | some p =>
      let t := if p.dirty then [] else s.table p.fn
      (.done, { s with
        table := upd s.table p.fn (saveCall eng s.heap s.next p.found p.args res t)
        next := s.next + 1
        pending := upd s.pending id none
        log := ⟨p.fn, p.vals, s.heap res⟩ :: s.log })
  | .fail id => (.done, { s with pending := upd s.pending id none })
  | .mutate r v => (.done, { s with heap := upd s.heap r v })
  | .forget f => (.done, { s with table := upd s.table f [] })
  | .reload => (.done, { s with
      table := fun f => (s.table f).map fun e =>
        ⟨e.id, e.key.map fun k => .copy (k.value s.heap), .copy (e.res.value s.heap)⟩
      pending := fun _ => none })

/-- no calls are recorded -/
def init (h : Heap V) : State V := ⟨h, fun _ => [], 0, fun _ => none, []⟩

def run (eng : Engine) (s : State V) (evs : List (Event V)) : State V := evs.foldl (fun s ev => (step eng s ev).2) s

end Verif.Alias
