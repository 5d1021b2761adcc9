import Verif.Dict
/-!
# Model of `lib/fbuild/db/backend.py`

The class `Backend` is an algorithm over abstract storage operations
(`find_function`, `save_call`, ...), implemented by `CacheBackend` and `SqliteBackend`.
The same structure is kept: `Storage` is the record of abstract operations and the
functions below follow the methods of `Backend`, parametrised by a `Storage`.

Exceptions are values (`Err`); since a raised exception does not undo the updates done
before, an operation returns both the outcome and the storage it leaves behind.
-/
namespace Verif.DB

abbrev FunName := String
abbrev FileName := String
abbrev Digest := String
abbrev Content := String

/-- What a Python exception raised inside the database is about. -/
inductive Err where
  /-- `OSError`: a file cannot be examined or read -/
  | os (file : FileName)
  /-- `KeyError` from `Database._FUN_DIGESTS[fun_name]` -/
  | key (name : FunName)
  /-- `RecursionError` -/
  | recursion
  /-- `IndexError` from `datas[call_index]` -/
  | index
  /-- `sqlite3.IntegrityError` -/
  | integrity
  deriving DecidableEq, Repr

/-- What the operating system reports about an existing path: `getmtime` and, if it can be
opened as a file, its content (a directory or an unreadable file has content `none`).
Times are natural numbers of nanoseconds (the code has floats). -/
structure FState where
  mtime : Nat
  content : Option Content
  deriving DecidableEq, Repr

/-- The file system as far as the database sees it: `none` = path does not exist. -/
abbrev FS := FileName → Option FState

/-- One second (backend.py:291 compares with `1.0`). -/
def oneSecond : Nat := 1000000000

/-- What the database reads from outside: the file system, `time.time()`, the digests of the
cached functions registered in this process (`Database._FUN_DIGESTS`, database.py:22,224-234)
and `Path.digest` (path.py:295-304, md5 of the content). -/
structure Env where
  fs : FS
  now : Nat
  funDigest : FunName → Option Digest
  md5 : Content → Digest
  /-- Python's recursion limit, as the number of nested `check_function` frames -/
  recursionLimit : Nat

/-- Result of `find_file`: `(file_id, mtime, digest)` with mtime and digest both given or both
`None` (cache_backend.py:306-320, sqlite_backend.py:458-475). -/
inductive FoundFile (FileId : Type) where
  | known (id : FileId) (mtime : Nat) (digest : Digest)
  | unknown (id : Option FileId)

/-- The abstract methods of `Backend` (backend.py:146-330).  `find_function` returns `none` for
the triple of `None`s.  Deletions return whether the Python method returns a true value. -/
structure Storage (σ FunId CallId FileId B R : Type) where
  findFunction : FunName → σ → Option (FunId × Digest × List FunName)
  saveFunction : Option FunId → FunName → Digest → List FunName → σ → Except Err FunId × σ
  deleteFunction : FunName → σ → Bool × σ
  findCall : FunId → B → σ → Option (CallId × R)
  saveCall : Option CallId → FunId → B → R → σ → Except Err CallId × σ
  findCallFile : CallId → FileId → σ → Option Digest
  saveCallFile : CallId → FileId → Digest → σ → Except Err Unit × σ
  findExternalSrcs : CallId → σ → List FileName
  findExternalDsts : CallId → σ → List FileName
  findFile : FileName → σ → FoundFile FileId
  saveFile : Option FileId → FileName → Nat → Digest → σ → FileId × σ
  deleteFile : FileName → σ → Bool × σ

section
variable {σ FunId CallId FileId B R : Type} (st : Storage σ FunId CallId FileId B R)

/-- `Backend.add_file` (backend.py:273-314).  Returns `(dirty, file_id, digest)`; the mtime the
code also returns is not used by any caller. -/
def addFile (env : Env) (x : FileName) (s : σ) : Except Err (Bool × FileId × Digest) × σ :=
  match env.fs x with
  | none => (.error (.os x), s)                                   -- line 285
  | some f =>
    match st.findFile x s with                                    -- line 281
    | .known fid m d =>
      if f.mtime = m ∧ env.now > f.mtime + oneSecond then         -- lines 287-292
        (.ok (false, fid, d), s)
      else
        match f.content with
        | none => (.error (.os x), s)                             -- line 295
        | some c =>
          if env.md5 c = d then                                   -- lines 297-300
            let (_, s1) := st.saveFile (some fid) x f.mtime (env.md5 c) s
            (.ok (false, fid, env.md5 c), s1)
          else                                                    -- lines 302-314
            let (_, s1) := st.deleteFile x s
            let (fid', s2) := st.saveFile none x f.mtime (env.md5 c) s1
            (.ok (true, fid', env.md5 c), s2)
    | .unknown fid =>
      match f.content with
      | none => (.error (.os x), s)
      | some c =>
        let s1 := if fid.isSome then (st.deleteFile x s).2 else s  -- lines 302-308
        let (fid', s2) := st.saveFile none x f.mtime (env.md5 c) s1
        (.ok (true, fid', env.md5 c), s2)

/-- `Backend.check_call_file` (backend.py:194-216). -/
def checkCallFile (env : Env) (cid : Option CallId) (x : FileName) (s : σ) :
    Except Err (Bool × FileId × Digest) × σ :=
  match addFile st env x s with
  | (.error e, s1) => (.error e, s1)
  | (.ok (dirty, fid, digest), s1) =>
    match cid with
    | none => (.ok (true, fid, digest), s1)
    | some c =>
      match st.findCallFile c fid s1 with
      | some old => if digest = old then (.ok (dirty, fid, digest), s1)
                    else (.ok (true, fid, digest), s1)
      | none => (.ok (true, fid, digest), s1)

/-- `Backend.check_call_files` (backend.py:174-183).  The set of files is given as a list in
the (arbitrary) order of iteration. -/
def checkCallFiles (env : Env) (cid : Option CallId) :
    List FileName → σ → Except Err (List (FileId × FileName × Digest)) × σ
  | [], s => (.ok [], s)
  | x :: xs, s =>
    match checkCallFile st env cid x s with
    | (.error e, s1) => (.error e, s1)
    | (.ok (d, fid, digest), s1) =>
      match checkCallFiles env cid xs s1 with
      | (.error e, s2) => (.error e, s2)
      | (.ok rest, s2) => (.ok (if d then (fid, x, digest) :: rest else rest), s2)

/-- The loop of `Backend.check_external_files` (backend.py:244-252): an `OSError` is ignored.
Only `OSError` can be raised by `check_call_file`. -/
def checkExternalLoop (env : Env) (cid : CallId) :
    List FileName → σ → List (FileId × FileName × Digest) × σ
  | [], s => ([], s)
  | x :: xs, s =>
    match checkCallFile st env (some cid) x s with
    | (.error _, s1) => checkExternalLoop env cid xs s1
    | (.ok (d, fid, digest), s1) =>
      let (rest, s2) := checkExternalLoop env cid xs s1
      (if d then (fid, x, digest) :: rest else rest, s2)

/-- The loop over the dependents in `check_function` (backend.py:137-141): stop at the first
dirty one.  `check` is the recursive call. -/
def anyDirty (check : FunName → Except Err (Bool × Option FunId)) :
    List FunName → Except Err Bool
  | [] => .ok false
  | d :: ds =>
    match check d with
    | .error e => .error e
    | .ok (true, _) => .ok true
    | .ok (false, _) => anyDirty check ds

/-- `Backend.check_function` (backend.py:119-143).  The recursive call at line 138 does not pass
`already_checked` on, so only the function itself is excluded (line 137).  The first argument
is the number of Python frames left before `RecursionError`.  The set difference is iterated
in the order of the stored tuple. -/
def checkFunction (env : Env) (s : σ) : Nat → FunName → Except Err (Bool × Option FunId)
  | 0, _ => .error .recursion
  | n + 1, f =>
    match env.funDigest f with
    | none => .error (.key f)                                     -- line 130, database.py:234
    | some digest =>
      match st.findFunction f s with
      | none => .ok (true, none)
      | some (fid, old, deps) =>
        if digest ≠ old then .ok (true, some fid)
        else
          match anyDirty (checkFunction env s n) (deps.filter (fun d => decide (d ≠ f))) with
          | .error e => .error e
          | .ok b => .ok (b, some fid)

/-- The tuple returned by `Backend.prepare` (backend.py:74-83). -/
structure Prep (FunId CallId FileId R : Type) where
  funDirty : Bool
  funId : Option FunId
  /-- `call_dirty`, `call_id` and `old_result` are all given by the call found, if any -/
  found : Option (CallId × R)
  callFileDigests : List (FileId × FileName × Digest)
  externalSrcs : List FileName
  externalDsts : List FileName
  externalDigests : List (FileId × FileName × Digest)

/-- The search for an earlier call in `Backend.prepare` (backend.py:54-64): only if the function
is clean. -/
def lookupCall (funDirty : Bool) (funId : Option FunId) (b : B) (s : σ) : Option (CallId × R) :=
  match funDirty, funId with
  | false, some fid => st.findCall fid b s
  | _, _ => none

/-- `Backend.prepare` (backend.py:47-83).  `call_dirty` is `found.isNone`. -/
def prepare (env : Env) (f : FunName) (b : B) (srcs : List FileName) (s : σ) :
    Except Err (Prep FunId CallId FileId R) × σ :=
  match checkFunction st env s env.recursionLimit f with
  | .error e => (.error e, s)
  | .ok (funDirty, funId) =>
    let found := lookupCall st funDirty funId b s
    let cid := found.map Prod.fst
    match checkCallFiles st env cid srcs s with
    | (.error e, s1) => (.error e, s1)
    | (.ok digests, s1) =>
      match cid with
      | none => (.ok ⟨funDirty, funId, found, digests, [], [], []⟩, s1)
      | some c =>
        let (ext, s2) := checkExternalLoop st env c (st.findExternalSrcs c s1) s1
        (.ok ⟨funDirty, funId, found, digests, st.findExternalSrcs c s1,
              st.findExternalDsts c s1, ext⟩, s2)

/-- `Backend.save_call_files` (backend.py:186-190). -/
def saveCallFiles (cid : CallId) : List (FileId × FileName × Digest) → σ → Except Err Unit × σ
  | [], s => (.ok (), s)
  | (fid, _, digest) :: rest, s =>
    match st.saveCallFile cid fid digest s with
    | (.error e, s1) => (.error e, s1)
    | (.ok (), s1) => saveCallFiles cid rest s1

/-- `Backend.cache` (backend.py:85-115).  `saveExternal` is `save_external_files`. -/
def cache (saveExternal : CallId → σ → Except Err Unit × σ)
    (funDirty : Bool) (funId : Option FunId) (f : FunName) (digest : Digest)
    (deps : List FunName) (cid : Option CallId) (b : B) (r : R)
    (files : List (FileId × FileName × Digest)) (s : σ) : Except Err Unit × σ :=
  let step1 : Except Err (Option FunId) × σ :=
    if funDirty then
      let s1 := if funId.isSome then (st.deleteFunction f s).2 else s
      match st.saveFunction none f digest deps s1 with
      | (.error e, s2) => (.error e, s2)
      | (.ok fid, s2) => (.ok (some fid), s2)
    else (.ok funId, s)
  match step1 with
  | (.error e, s1) => (.error e, s1)
  | (.ok none, s1) => (.error .integrity, s1)  -- not reachable: a clean function has an id
  | (.ok (some fid), s1) =>
    match st.saveCall cid fid b r s1 with
    | (.error e, s2) => (.error e, s2)
    | (.ok c, s2) =>
      match saveCallFiles st c files s2 with
      | (.error e, s3) => (.error e, s3)
      | (.ok (), s3) => saveExternal c s3

/-- The decision of `Database.call` (database.py:120-149): the stored result is returned if
nothing is dirty and all destinations exist.  `dsts` are the declared destination arguments,
`returnDsts` the destinations that a DST return annotation reads off the stored result. -/
def hit (env : Env) (dsts : List FileName) (returnDsts : R → List FileName)
    (p : Prep FunId CallId FileId R) : Option R :=
  match p.found with
  | none => none
  | some (_, r) =>
    if p.funDirty || !p.callFileDigests.isEmpty || !p.externalDigests.isEmpty then none
    else if (returnDsts r ++ dsts ++ p.externalDsts).all (fun x => (env.fs x).isSome) then some r
    else none

end
end Verif.DB
