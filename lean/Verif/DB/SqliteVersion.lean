import Verif.DB.Pickle
/-!
# The version of an sqlite database

`SqliteBackend._connect`, `close` (sqlite_backend.py 38-67) and `Backend.connect` (backend.py 27-34), with the states of the file after
each step that reaches the disk.  What the other tables contain is a parameter; a change of it that is committed is a function
on it.  `SqliteBackend.cache` commits (`with self.conn`, sqlite_backend.py 135-137).
-/
namespace Verif.DB.SqliteVersion

open Pickle (Version latest nullVersion)

variable {D : Type}

/-- the rows of the table `Version`, and the other tables -/
structure Db (D : Type) where
  rows : List Version
  tables : D

/-- the file -/
abbrev Disk (D : Type) := Option (Db D)

/-- `_initialize_database` (69-131): what is missing is created -/
def setup (empty : D) : Disk D → Db D
  | none => ⟨[], empty⟩
  | some db => db

/-- `self._version` (49-53); `none` if the assertion fails -/
def version (db : Db D) : Option Version :=
  match db.rows with
  | [] => some nullVersion
  | [v] => some v
  | _ => none

/-- `close` (56-67): a row is inserted, or all rows are changed -/
def close (v : Version) (db : Db D) : Db D :=
  if v = nullVersion then { db with rows := db.rows ++ [latest] } else { db with rows := db.rows.map fun _ => latest }

/-- `Backend.connect` (backend.py 27-34): the states of the file, one for each step, and the version in use; `none` if it raises. -/
def connect (empty : D) (d : Disk D) : List (Disk D) × Option (Version × Db D) :=
  let db := setup empty d
  match version db with
  | none => ([d, some db], none)
  | some v =>
    if v = latest then ([d, some db], some (v, db))
    else
      let new := setup empty none
      ([d, some db, some (close v db), none, some new],
        (version new).map fun v => (v, new))

/-- How a process ends: it closes the database, or it is killed. -/
inductive Ending where
  | closed
  | killed

/-- A process that connects, commits changes, and ends: the file afterwards.  If `connect` raises the file is as it leaves it. -/
def session (empty : D) (d : Disk D) (changes : List (D → D)) (e : Ending) : Disk D :=
  match connect empty d with
  | (states, none) => states.getLast?.join
  | (_, some (v, db)) =>
    let db := { db with tables := changes.foldl (fun x f => f x) db.tables }
    match e with
    | .closed => some (close v db)
    | .killed => some db

/-- what the next process finds: the other tables after `connect` -/
def found (empty : D) (d : Disk D) : Option D := (connect empty d).2.map fun x => x.2.tables

end Verif.DB.SqliteVersion
