import Verif.DB.History
/-!
# Model of `lib/fbuild/db/sqlite_backend.py`

The tables of the schema (sqlite_backend.py:70-131) are lists of rows in order of their ids.
`AUTOINCREMENT` counters are part of the database (sqlite keeps them in a table, so they are
rolled back too).  Foreign keys are enforced (line 72) and deletions cascade.

Simplifications: the pickled columns hold the values themselves; the `\0`-joined text of
dependents (lines 156-160, 172) is a list.
-/
namespace Verif.DB

structure FunRow where
  id : Nat
  name : FunName
  digest : Digest
  deps : List FunName

structure CallRow (B R : Type) where
  id : Nat
  fn : Nat
  bound : B
  result : R

structure FileRow where
  id : Nat
  name : FileName
  mtime : Nat
  digest : Digest

/-- the tables and the `AUTOINCREMENT` counters (the last id given out) -/
structure SDB (B R : Type) where
  functions : List FunRow := []
  calls : List (CallRow B R) := []
  files : List FileRow := []
  /-- `CallFile (call_id, file_id, file_digest)` -/
  callFiles : List (Nat × Nat × Digest) := []
  /-- `ExternalSrc (call_id, file_id)`, `ExternalDst (call_id, file_id)` -/
  externalSrcs : List (Nat × Nat) := []
  externalDsts : List (Nat × Nat) := []
  lastFun : Nat := 0
  lastCall : Nat := 0
  lastFile : Nat := 0

namespace SDB
variable {B R : Type}

/-- `find_function` (sqlite_backend.py:141-161); `fun_name` is `UNIQUE`. -/
def findFunction (f : FunName) (db : SDB B R) : Option (Nat × Digest × List FunName) :=
  (db.functions.find? (fun r => r.name = f)).map (fun r => (r.id, r.digest, r.deps))

/-- `save_function` (sqlite_backend.py:164-185). -/
def saveFunction (fid : Option Nat) (f : FunName) (d : Digest) (deps : List FunName)
    (db : SDB B R) : Except Err Nat × SDB B R :=
  match fid with
  | none =>
    if db.functions.any (fun r => r.name = f) then (.error .integrity, db)   -- UNIQUE
    else (.ok (db.lastFun + 1), { db with
      functions := db.functions ++ [⟨db.lastFun + 1, f, d, deps⟩], lastFun := db.lastFun + 1 })
  | some i => (.ok i, { db with functions := db.functions.map (fun r =>
      if r.id = i then { r with digest := d, deps := deps } else r) })

/-- `delete_function` (sqlite_backend.py:188-219) returns `None`.  The loop over the calls deletes
at most the first one, because its body reuses the cursor; deleting the row of `Function` removes
all calls and what refers to them by cascading. -/
def deleteFunction (f : FunName) (db : SDB B R) : Bool × SDB B R :=
  let funs := (db.functions.filter (fun r => r.name = f)).map FunRow.id
  let dead := (db.calls.filter (fun c => c.fn ∈ funs)).map CallRow.id
  (false, { db with
    functions := db.functions.filter (fun r => ¬ r.name = f)
    calls := db.calls.filter (fun c => ¬ c.fn ∈ funs)
    callFiles := db.callFiles.filter (fun t => ¬ t.1 ∈ dead)
    externalSrcs := db.externalSrcs.filter (fun t => ¬ t.1 ∈ dead)
    externalDsts := db.externalDsts.filter (fun t => ¬ t.1 ∈ dead) })

/-- `find_call` (sqlite_backend.py:273-295) -/
def findCall [DecidableEq B] (fid : Nat) (b : B) (db : SDB B R) : Option (Nat × R) :=
  (db.calls.find? (fun c => c.fn = fid ∧ b = c.bound)).map (fun c => (c.id, c.result))

/-- `save_call` (sqlite_backend.py:298-326) -/
def saveCall (cid : Option Nat) (fid : Nat) (b : B) (r : R) (db : SDB B R) :
    Except Err Nat × SDB B R :=
  match cid with
  | none =>
    if db.functions.any (fun f => f.id = fid) then
      (.ok (db.lastCall + 1), { db with
        calls := db.calls ++ [⟨db.lastCall + 1, fid, b, r⟩], lastCall := db.lastCall + 1 })
    else (.error .integrity, db)                                             -- foreign key
  | some i => (.ok i, { db with calls := db.calls.map (fun c =>
      if c.id = i then { c with result := r } else c) })

/-- `find_call_file` (sqlite_backend.py:330-351); `(call_id, file_id)` is the primary key. -/
def findCallFile (cid fid : Nat) (db : SDB B R) : Option Digest :=
  (db.callFiles.find? (fun t => t.1 = cid ∧ t.2.1 = fid)).map (fun t => t.2.2)

/-- the foreign keys of the three tables that refer to a call and a file -/
def refsOk (cid fid : Nat) (db : SDB B R) : Bool :=
  db.calls.any (fun c => c.id = cid) && db.files.any (fun r => r.id = fid)

/-- `save_call_file` (sqlite_backend.py:354-365): `INSERT OR REPLACE` -/
def saveCallFile (cid fid : Nat) (d : Digest) (db : SDB B R) : Except Err Unit × SDB B R :=
  if refsOk cid fid db then
    (.ok (), { db with callFiles :=
      db.callFiles.filter (fun t => ¬ (t.1 = cid ∧ t.2.1 = fid)) ++ [(cid, fid, d)] })
  else (.error .integrity, db)

/-- The join of `find_external_srcs` / `find_external_dsts` (sqlite_backend.py:369-400). -/
def findExternal (t : List (Nat × Nat)) (cid : Nat) (db : SDB B R) : List FileName :=
  (db.files.filter (fun r => (cid, r.id) ∈ t)).map FileRow.name

/-- `find_file` (sqlite_backend.py:458-475); `file_name` is `UNIQUE`. -/
def findFile (x : FileName) (db : SDB B R) : FoundFile Nat :=
  match db.files.find? (fun r => r.name = x) with
  | none => .unknown none
  | some r => .known r.id r.mtime r.digest

/-- `save_file` (sqlite_backend.py:478-498).  An id is given or the name is not in the table (it was
not found or has just been deleted), so the insertion cannot fail. -/
def saveFile (fid : Option Nat) (x : FileName) (m : Nat) (d : Digest) (db : SDB B R) :
    Nat × SDB B R :=
  match fid with
  | none => (db.lastFile + 1, { db with
      files := db.files ++ [⟨db.lastFile + 1, x, m, d⟩], lastFile := db.lastFile + 1 })
  | some i => (i, { db with files := db.files.map (fun r =>
      if r.id = i then { r with mtime := m, digest := d } else r) })

/-- `delete_file` (sqlite_backend.py:501-529) returns `None`. -/
def deleteFile (x : FileName) (db : SDB B R) : Bool × SDB B R :=
  match db.files.find? (fun r => r.name = x) with
  | none => (false, db)
  | some r => (false, { db with
      callFiles := db.callFiles.filter (fun t => ¬ t.2.1 = r.id)
      externalSrcs := db.externalSrcs.filter (fun t => ¬ t.2 = r.id)
      externalDsts := db.externalDsts.filter (fun t => ¬ t.2 = r.id)
      files := db.files.filter (fun q => ¬ q.name = x) })

/-- The storage operations of `SqliteBackend`. -/
def storage (B R : Type) [DecidableEq B] : Storage (SDB B R) Nat Nat Nat B R where
  findFunction := findFunction
  saveFunction := saveFunction
  deleteFunction := deleteFunction
  findCall := findCall
  saveCall := saveCall
  findCallFile := findCallFile
  saveCallFile := saveCallFile
  findExternalSrcs := fun c db => findExternal db.externalSrcs c db
  findExternalDsts := fun c db => findExternal db.externalDsts c db
  findFile := findFile
  saveFile := saveFile
  deleteFile := deleteFile

/-- `[self.check_call_file(call_id, src) for src in srcs]` (sqlite_backend.py:426-427,448-449) -/
def checkAll [DecidableEq B] (env : Env) (cid : Nat) : List FileName → SDB B R →
    Except Err (List (Bool × Nat × Digest)) × SDB B R
  | [], db => (.ok [], db)
  | x :: xs, db =>
    match checkCallFile (storage B R) env (some cid) x db with
    | (.error e, db1) => (.error e, db1)
    | (.ok t, db1) =>
      match checkAll env cid xs db1 with
      | (.error e, db2) => (.error e, db2)
      | (.ok ts, db2) => (.ok (t :: ts), db2)

/-- `INSERT INTO ExternalSrc / ExternalDst` for a list of files: primary and foreign keys -/
def insertExternal (cid : Nat) (db : SDB B R) : List Nat → List (Nat × Nat) →
    Except Err (List (Nat × Nat))
  | [], t => .ok t
  | i :: is, t =>
    if (cid, i) ∈ t ∨ refsOk cid i db = false then .error .integrity
    else insertExternal cid db is (t ++ [(cid, i)])

/-- `executemany('INSERT OR REPLACE INTO CallFile ...')` (sqlite_backend.py:435-439) -/
def saveDirty (cid : Nat) : List (Bool × Nat × Digest) → SDB B R → Except Err Unit × SDB B R
  | [], db => (.ok (), db)
  | (dirty, fid, d) :: ts, db =>
    if dirty then
      match saveCallFile cid fid d db with
      | (.error e, db1) => (.error e, db1)
      | (.ok (), db1) => saveDirty cid ts db1
    else saveDirty cid ts db

/-- `save_external_files` (sqlite_backend.py:403-454) -/
def saveExternal [DecidableEq B] (env : Env) (srcs dsts : List FileName) (cid : Nat)
    (db : SDB B R) : Except Err Unit × SDB B R :=
  let db1 := { db with
    externalSrcs := db.externalSrcs.filter (fun t => ¬ t.1 = cid)
    externalDsts := db.externalDsts.filter (fun t => ¬ t.1 = cid) }
  match checkAll env cid srcs db1 with
  | (.error e, db2) => (.error e, db2)
  | (.ok ts, db2) =>
    match insertExternal cid db2 (ts.map (fun t => t.2.1)) db2.externalSrcs with
    | .error e => (.error e, db2)
    | .ok rows =>
      match saveDirty cid ts { db2 with externalSrcs := rows } with
      | (.error e, db3) => (.error e, db3)
      | (.ok (), db3) =>
        match checkAll env cid dsts db3 with
        | (.error e, db4) => (.error e, db4)
        | (.ok us, db4) =>
          match insertExternal cid db4 ((us.filter (fun t => t.1)).map (fun t => t.2.1))
              db4.externalDsts with
          | .error e => (.error e, db4)
          | .ok rows' => (.ok (), { db4 with externalDsts := rows' })

end SDB

/-! ### Histories with the sqlite engine -/

/-- A call between its two phases. -/
structure SPending (B R : Type) where
  fn : FunName
  code : Digest
  bound : B
  prep : Prep Nat Nat Nat R
  /-- the file system and the number of rollbacks when the call was prepared (history) -/
  fs0 : FS
  epoch : Nat

/-- `committed` is what other connections see and what a rollback restores.  `stamped`: the table
`Version` has a row (written only by `close`, sqlite_backend.py:55-66); without it the next
`connect` removes the database (backend.py:29-36). -/
structure SSys (B R : Type) where
  db : SDB B R
  committed : SDB B R
  stamped : Bool
  env : Env
  inflight : Dict Nat (SPending B R)
  /-- completed executions, newest first, and the number of rollbacks (history: nothing in the
  model reads them) -/
  log : List (Exec B R)
  epoch : Nat

variable {B R : Type} [DecidableEq B]

/-- First phase of `Database.call` (database.py:102-149) with the sqlite engine. `prepare` runs
outside a `with self.conn` block: its changes stay uncommitted. -/
def SSys.stepPrepare (sg : Sig B R) (id : Nat) (f : FunName) (b : B) (s : SSys B R) :
    Out R × SSys B R :=
  match s.env.funDigest f with
  | none => (.raised (.key f), s)
  | some code =>
    match prepare (SDB.storage B R) s.env f b (sg.srcs f code b) s.db with
    | (.error e, db1) => (.raised e, { s with db := db1 })
    | (.ok p, db1) =>
      match hit s.env (sg.dsts f code b) (sg.returnDsts f code) p with
      | some r => (.hit r, { s with db := db1 })
      | none => (.run, { s with
          db := db1
          inflight := s.inflight.set id ⟨f, code, b, p, s.env.fs, s.epoch⟩ })

/-- `SqliteBackend.cache` (sqlite_backend.py:135-137): commit, or roll back to the last commit if an
exception is raised. -/
def SSys.stepComplete (id : Nat) (r : R) (deps : List FunName) (ext extDsts : List FileName)
    (s : SSys B R) : Out R × SSys B R :=
  match s.inflight.get? id with
  | none => (.done, s)
  | some p =>
    let e (ok : Bool) : Exec B R :=
      ⟨p.fn, p.code, p.bound, r, p.prep.funDirty, p.fs0, s.env.fs, deps, ext, extDsts, ok⟩
    match cache (SDB.storage B R) (SDB.saveExternal s.env ext extDsts) p.prep.funDirty
        p.prep.funId p.fn p.code deps (p.prep.found.map Prod.fst) p.bound r
        p.prep.callFileDigests s.db with
    | (.error err, _) =>
      (.raised err, { s with
        db := s.committed, inflight := s.inflight.erase id, log := e false :: s.log
        epoch := s.epoch + 1 })
    | (.ok (), db1) =>
      (.done, { s with
        db := db1, committed := db1, inflight := s.inflight.erase id, log := e true :: s.log })

def SSys.step (sg : Sig B R) (s : SSys B R) : Event B R → Out R × SSys B R
  | .prepare id f b => s.stepPrepare sg id f b
  | .complete id r deps ext extDsts => s.stepComplete id r deps ext extDsts
  | .fail id => (.done, { s with inflight := s.inflight.erase id })
  | .edit x st => (.done, { s with env := { s.env with
      fs := fun y => if y = x then st else s.env.fs y } })
  | .tick n => (.done, { s with env := { s.env with now := n } })
  | .restart ds => (.done, { s with
      committed := s.db, stamped := true, inflight := [], env := { s.env with funDigest := ds } })
  | .crash ds =>
    let db := if s.stamped then s.committed else {}
    (.done, { s with db := db, committed := db, inflight := [],
                     env := { s.env with funDigest := ds } })
  | .deleteFunction f =>
    if s.inflight.isEmpty then
      let (e, db1) := SDB.deleteFunction f s.db
      (.deleted e, { s with db := db1 })
    else (.done, s)
  | .deleteFile x =>
    if s.inflight.isEmpty then
      let (e, db1) := SDB.deleteFile x s.db
      (.deleted e, { s with db := db1 })
    else (.done, s)

/-- no database file yet -/
def SSys.init (env : Env) : SSys B R := ⟨{}, {}, false, env, [], [], 0⟩

/-- the state after some events (oldest first), with what was observed -/
def SSys.run (sg : Sig B R) : SSys B R → List (Event B R) → List (Out R) × SSys B R
  | s, [] => ([], s)
  | s, ev :: evs =>
    let (o, s1) := s.step sg ev
    let (os, s2) := SSys.run sg s1 evs
    (o :: os, s2)

end Verif.DB
