import Verif.DB.Backend
/-!
# Model of `lib/fbuild/db/cache_backend.py`

The storage used by the engines `cache` and `pickle` (`PickleBackend` inherits everything but
`_connect` and `close`).  Function, call and file ids are the names themselves
(cache_backend.py:47,194,320).
-/
namespace Verif.DB

/-- The six tables of `CacheBackend` (cache_backend.py:14-19). -/
structure CDB (B R : Type) where
  functions : Dict FunName (Digest × List FunName) := []
  functionCalls : Dict FunName (List (B × R)) := []
  files : Dict FileName (Nat × Digest) := []
  callFiles : Dict FileName (Dict FunName (Dict Nat Digest)) := []
  externalSrcs : Dict FunName (Dict Nat (List FileName)) := []
  externalDsts : Dict FunName (Dict Nat (List FileName)) := []
  deriving Repr, DecidableEq

namespace CDB
variable {B R : Type} [DecidableEq B]

/-- `find_function` (cache_backend.py:33-50) -/
def findFunction (f : FunName) (db : CDB B R) : Option (FunName × Digest × List FunName) :=
  (db.functions.get? f).map (fun p => (f, p.1, p.2))

/-- `save_function` (cache_backend.py:53-67) -/
def saveFunction (_ : Option FunName) (f : FunName) (d : Digest) (deps : List FunName)
    (db : CDB B R) : Except Err FunName × CDB B R :=
  (.ok f, { db with functions := db.functions.set f (d, deps) })

/-- Removing a function from `_call_files` (cache_backend.py:107-130): drop the function from
every entry, then drop the entries that are empty. -/
def dropFun (cf : Dict FileName (Dict FunName (Dict Nat Digest))) (f : FunName) :
    Dict FileName (Dict FunName (Dict Nat Digest)) :=
  (cf.map (fun p => (p.1, Dict.erase p.2 f))).filter (fun p => !p.2.isEmpty)

/-- `delete_function` (cache_backend.py:70-132); returns whether anything was removed. -/
def deleteFunction (f : FunName) (db : CDB B R) : Bool × CDB B R :=
  ((db.functions.get? f).isSome || (db.functionCalls.get? f).isSome ||
     (db.externalSrcs.get? f).isSome || (db.externalDsts.get? f).isSome ||
     db.callFiles.any (fun p => (p.2.get? f).isSome || p.2.isEmpty),
   { db with
     functions := db.functions.erase f
     functionCalls := db.functionCalls.erase f
     externalSrcs := db.externalSrcs.erase f
     externalDsts := db.externalDsts.erase f
     callFiles := dropFun db.callFiles f })

/-- The search loop of `find_call` (cache_backend.py:151-154), from index `i` on. -/
def findCallFrom (b : B) : List (B × R) → Nat → Option (Nat × R)
  | [], _ => none
  | (b', r) :: rest, i => if b = b' then some (i, r) else findCallFrom b rest (i + 1)

/-- `find_call` (cache_backend.py:136-157) -/
def findCall (f : FunName) (b : B) (db : CDB B R) : Option ((FunName × Nat) × R) :=
  match db.functionCalls.get? f with
  | none => none
  | some datas => (findCallFrom b datas 0).map (fun p => ((f, p.1), p.2))

/-- `save_call` (cache_backend.py:160-194); `fun_name` and `fun_id` are the same (line 176). -/
def saveCall (cid : Option (FunName × Nat)) (f : FunName) (b : B) (r : R) (db : CDB B R) :
    Except Err (FunName × Nat) × CDB B R :=
  match db.functionCalls.get? f with
  | none => (.ok (f, 0), { db with functionCalls := db.functionCalls.set f [(b, r)] })
  | some datas =>
    match cid with
    | none =>
      (.ok (f, datas.length), { db with functionCalls := db.functionCalls.set f (datas ++ [(b, r)]) })
    | some (_, i) =>
      if i < datas.length then
        (.ok (f, i), { db with functionCalls := db.functionCalls.set f (datas.set i (b, r)) })
      else (.error .index, db)

/-- `_call_files[file][fun][i]` with `None` for a missing entry -/
def callFile (db : CDB B R) (x : FileName) (f : FunName) (i : Nat) : Option Digest :=
  match db.callFiles.get? x with
  | none => none
  | some m => match m.get? f with
    | none => none
    | some m' => m'.get? i

/-- `find_call_file` (cache_backend.py:198-220) -/
def findCallFile (cid : FunName × Nat) (x : FileName) (db : CDB B R) : Option Digest :=
  db.callFile x cid.1 cid.2

/-- `save_call_file` (cache_backend.py:223-237) -/
def saveCallFile (cid : FunName × Nat) (x : FileName) (d : Digest) (db : CDB B R) :
    Except Err Unit × CDB B R :=
  let m := (db.callFiles.get? x).getD []
  let m' := (m.get? cid.1).getD []
  (.ok (), { db with callFiles := db.callFiles.set x (m.set cid.1 (m'.set cid.2 d)) })

/-- Lookup in `_external_srcs` / `_external_dsts`, `frozenset()` if missing. -/
def findExt (t : Dict FunName (Dict Nat (List FileName))) (cid : FunName × Nat) : List FileName :=
  match t.get? cid.1 with
  | none => []
  | some m => (m.get? cid.2).getD []

/-- `self._external_srcs.setdefault(fun_name, {})[call_index] = srcs` -/
def setExt (t : Dict FunName (Dict Nat (List FileName))) (cid : FunName × Nat)
    (xs : List FileName) : Dict FunName (Dict Nat (List FileName)) :=
  t.set cid.1 (((t.get? cid.1).getD []).set cid.2 xs)

/-- `find_file` (cache_backend.py:306-320): the id is the name, also for an unknown file. -/
def findFile (x : FileName) (db : CDB B R) : FoundFile FileName :=
  match db.files.get? x with
  | none => .unknown (some x)
  | some (m, d) => .known x m d

/-- `save_file` (cache_backend.py:323-337) -/
def saveFile (_ : Option FileName) (x : FileName) (m : Nat) (d : Digest) (db : CDB B R) :
    FileName × CDB B R :=
  (x, { db with files := db.files.set x (m, d) })

/-- `delete_file` (cache_backend.py:340-362) -/
def deleteFile (x : FileName) (db : CDB B R) : Bool × CDB B R :=
  ((db.files.get? x).isSome || (db.callFiles.get? x).isSome,
   { db with files := db.files.erase x, callFiles := db.callFiles.erase x })

/-- The storage operations of `CacheBackend`. -/
def storage (B R : Type) [DecidableEq B] :
    Storage (CDB B R) FunName (FunName × Nat) FileName B R where
  findFunction := findFunction
  saveFunction := saveFunction
  deleteFunction := deleteFunction
  findCall := findCall
  saveCall := saveCall
  findCallFile := findCallFile
  saveCallFile := saveCallFile
  findExternalSrcs := fun c db => findExt db.externalSrcs c
  findExternalDsts := fun c db => findExt db.externalDsts c
  findFile := findFile
  saveFile := saveFile
  deleteFile := deleteFile

/-- The loop of `save_external_files` (cache_backend.py:297-300): `add_file` on every source. -/
def addAll (env : Env) : List FileName → CDB B R →
    Except Err (List (FileName × FileName × Digest)) × CDB B R
  | [], db => (.ok [], db)
  | x :: xs, db =>
    match addFile (storage B R) env x db with
    | (.error e, db1) => (.error e, db1)
    | (.ok (_, fid, d), db1) =>
      match addAll env xs db1 with
      | (.error e, db2) => (.error e, db2)
      | (.ok rest, db2) => (.ok ((fid, x, d) :: rest), db2)

/-- `save_external_files` (cache_backend.py:277-302) -/
def saveExternal (env : Env) (srcs dsts : List FileName) (cid : FunName × Nat) (db : CDB B R) :
    Except Err Unit × CDB B R :=
  let db1 := { db with
    externalSrcs := setExt db.externalSrcs cid srcs
    externalDsts := setExt db.externalDsts cid dsts }
  match addAll env srcs db1 with
  | (.error e, db2) => (.error e, db2)
  | (.ok digests, db2) => saveCallFiles (storage B R) cid digests db2

end CDB
end Verif.DB
