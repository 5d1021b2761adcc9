import Verif.DB.CacheBackend
/-!
# Histories of a database (engines `cache` and `pickle`)

A transition system whose events are the atomic steps that act on the database and on what it
reads: the two phases of a cached call (`Database.call`, database.py:69-207), edits of files,
the clock, restarts of the process with edited scripts, and the command line deletions.

Calls from several threads interleave freely: `prepare` and `cache` run inside the RPC thread
(atomic, `rpc.py`), the function itself runs between the two.

`log` is a history variable: nothing in the model reads it.
-/
namespace Verif.DB

/-- What the text of a cached function determines besides its digest: the declared source and
destination files for given (bound) arguments, from the annotations
(`Database._find_call_filenames`, database.py:293-311), and the destinations read off a result
if the return annotation is a DST (database.py:129-133).  Simplification: these depend on the
function only through its name and digest. -/
structure Sig (B R : Type) where
  srcs : FunName → Digest → B → List FileName
  dsts : FunName → Digest → B → List FileName
  returnDsts : FunName → Digest → R → List FileName

/-- A completed execution of a cached function. -/
structure Exec (B R : Type) where
  fn : FunName
  /-- digest of the function's source text -/
  code : Digest
  bound : B
  result : R
  /-- the function was dirty when the call was prepared -/
  dirty : Bool
  /-- the file system when the call was prepared, before the function ran -/
  fs0 : FS
  /-- the file system when the result was stored -/
  fs1 : FS
  /-- the cached functions called directly, as recorded by the call stack (database.py:185) -/
  deps : List FunName
  /-- external sources and destinations reported during the execution -/
  ext : List FileName
  extDsts : List FileName
  /-- storing the result did not raise -/
  ok : Bool

/-- A call between its two phases: the local variables of `Database.call` that are used after
line 176, and the file system at `prepare` (history). -/
structure Pending (B R : Type) where
  fn : FunName
  code : Digest
  bound : B
  prep : Prep FunName (FunName × Nat) FileName R
  fs0 : FS
  /-- number of executions completed before this call was prepared (history) -/
  start : Nat

structure Sys (B R : Type) where
  db : CDB B R
  /-- content of the state file (`PickleBackend.close`) -/
  saved : CDB B R
  env : Env
  inflight : Dict Nat (Pending B R)
  /-- newest first -/
  log : List (Exec B R)

inductive Event (B R : Type) where
  /-- `Database.call` up to the decision whether to run the function; the number names the call -/
  | prepare (id : Nat) (f : FunName) (b : B)
  /-- the function returned: `Database.call` lines 185-195 -/
  | complete (id : Nat) (r : R) (deps : List FunName) (ext extDsts : List FileName)
  /-- the function raised -/
  | fail (id : Nat)
  | edit (x : FileName) (st : Option FState)
  | tick (now : Nat)
  /-- the database is closed (saved) and a new process loads it; calls still running are gone -/
  | restart (digests : FunName → Option Digest)
  /-- the process is killed without saving and a new process loads the state file -/
  | crash (digests : FunName → Option Digest)
  /-- `fbuild --delete-function` / `--delete-file` (main.py:88-99): no call is running then -/
  | deleteFunction (f : FunName)
  | deleteFile (x : FileName)

/-- What the caller observes. -/
inductive Out (R : Type) where
  | hit (r : R)
  | run
  | raised (e : Err)
  | done
  | deleted (existed : Bool)
  deriving DecidableEq

variable {B R : Type} [DecidableEq B]

/-- First phase of `Database.call` (database.py:102-149).  The existence check of the
destinations is done in the same step as `prepare` (simplification). -/
def stepPrepare (sg : Sig B R) (id : Nat) (f : FunName) (b : B) (s : Sys B R) : Out R × Sys B R :=
  match s.env.funDigest f with
  | none => (.raised (.key f), s)
  | some code =>
    match prepare (CDB.storage B R) s.env f b (sg.srcs f code b) s.db with
    | (.error e, db1) => (.raised e, { s with db := db1 })
    | (.ok p, db1) =>
      match hit s.env (sg.dsts f code b) (sg.returnDsts f code) p with
      | some r => (.hit r, { s with db := db1 })
      | none => (.run, { s with
          db := db1
          inflight := s.inflight.set id ⟨f, code, b, p, s.env.fs, s.log.length⟩ })

/-- `self._rpc.call(self._backend.cache, ...)` (database.py:192-195). -/
def stepComplete (id : Nat) (r : R) (deps : List FunName) (ext extDsts : List FileName)
    (s : Sys B R) : Out R × Sys B R :=
  match s.inflight.get? id with
  | none => (.done, s)
  | some p =>
    let e (ok : Bool) : Exec B R :=
      ⟨p.fn, p.code, p.bound, r, p.prep.funDirty, p.fs0, s.env.fs, deps, ext, extDsts, ok⟩
    match cache (CDB.storage B R) (CDB.saveExternal s.env ext extDsts) p.prep.funDirty
        p.prep.funId p.fn p.code deps (p.prep.found.map Prod.fst) p.bound r
        p.prep.callFileDigests s.db with
    | (.error err, db1) =>
      (.raised err, { s with db := db1, inflight := s.inflight.erase id, log := e false :: s.log })
    | (.ok (), db1) =>
      (.done, { s with db := db1, inflight := s.inflight.erase id, log := e true :: s.log })

def step (sg : Sig B R) (s : Sys B R) : Event B R → Out R × Sys B R
  | .prepare id f b => stepPrepare sg id f b s
  | .complete id r deps ext extDsts => stepComplete id r deps ext extDsts s
  | .fail id => (.done, { s with inflight := s.inflight.erase id })
  | .edit x st => (.done, { s with env := { s.env with
      fs := fun y => if y = x then st else s.env.fs y } })
  | .tick n => (.done, { s with env := { s.env with now := n } })
  | .restart ds => (.done, { s with
      saved := s.db, inflight := [], env := { s.env with funDigest := ds } })
  | .crash ds => (.done, { s with
      db := s.saved, inflight := [], env := { s.env with funDigest := ds } })
  | .deleteFunction f =>
    if s.inflight.isEmpty then
      let (e, db1) := CDB.deleteFunction f s.db
      (.deleted e, { s with db := db1 })
    else (.done, s)
  | .deleteFile x =>
    if s.inflight.isEmpty then
      let (e, db1) := CDB.deleteFile x s.db
      (.deleted e, { s with db := db1 })
    else (.done, s)

/-- The start: no state file, nothing recorded. -/
def Sys.init (env : Env) : Sys B R := ⟨{}, {}, env, [], []⟩

end Verif.DB
