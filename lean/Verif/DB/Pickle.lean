import Verif.DB.CacheBackend
/-!
# The state file of the pickle engine

Model of `lib/fbuild/db/pickle_backend.py` (`_connect`, `close`) and of `Backend.connect`
(`lib/fbuild/db/backend.py:27-34`), down to single file system operations, so that the process
can be killed between any two of them.

Trusted: each operation below is atomic, and what was written survives the process (POSIX `rename`
replaces the target; nothing is said about power failures).
-/
namespace Verif.DB.Pickle

abbrev Bytes := List UInt8

/-- the state file, `path + '.tmp'` and `path + '.old'` (pickle_backend.py:62-64) -/
inductive Name where
  | path | tmp | old
  deriving DecidableEq

/-- content of the three files, `none` if missing -/
abbrev Disk := Name → Option Bytes

def Disk.put (d : Disk) (n : Name) (v : Option Bytes) : Disk := fun m => if m = n then v else d m

/-- single file system operations -/
inductive Op where
  /-- `open(n, 'wb')` -/
  | create (n : Name)
  /-- one more byte arrives on disk -/
  | append (n : Name) (b : UInt8)
  | rename (a b : Name)
  | remove (n : Name)

def Op.run (d : Disk) : Op → Disk
  | .create n => d.put n (some [])
  | .append n b => d.put n ((d n).map (· ++ [b]))
  | .rename a b => (d.put b (d a)).put a none
  | .remove n => d.put n none

def runOps (d : Disk) (ops : List Op) : Disk := ops.foldl Op.run d

abbrev Version := String

/-- `PickleBackend._LATEST_VERSION` (pickle_backend.py:10) and `Backend._NULL_VERSION`
(backend.py:11) -/
def latest : Version := "2"
def nullVersion : Version := "0"

/-- What `unpickler.load()` can give (pickle_backend.py:19-35). -/
inductive Loaded (D : Type) where
  /-- a 7-tuple with a version, or a 6-tuple without one -/
  | data (v : Option Version) (d : D)
  /-- `AttributeError`: a class has moved -/
  | moved
  /-- any other exception, or a value of another shape -/
  | broken

/-- The pickle module: `dump` of the 7-tuple with the latest version, and `load`. -/
structure Codec (D : Type) where
  enc : Version → D → Bytes
  dec : Bytes → Loaded D
  empty : D

variable {D : Type}

/-- The operations of `close` (pickle_backend.py:39-73), given the disk at its start.  `exists` is
evaluated when the code evaluates it: `path` is not touched before line 69, and at line 74 `old`
exists if it was there before or was just created. -/
def closeOps (c : Codec D) (d : Disk) (data : D) : List Op :=
  .create .tmp :: (c.enc latest data).map (.append .tmp) ++
    ((if (d .path).isSome then [.rename .path .old] else []) ++ (.rename .tmp .path ::
      (if (d .old).isSome || (d .path).isSome then [.remove .old] else [])))

/-- Result of `_connect` (pickle_backend.py:12-36): the version and the tables. -/
def load (c : Codec D) (d : Disk) : Option (Version × D) :=
  match d .path with
  | none => some (latest, c.empty)
  | some bytes =>
    match c.dec bytes with
    | .data (some v) x => some (v, x)
    | .data none x => some (nullVersion, x)
    | .moved => some (latest, c.empty)
    | .broken => none                                     -- the exception leaves `connect`

/-- The operations of `Backend.connect` (backend.py:27-34): if the version is not the latest, the
data just loaded is saved (stamped with the latest version), the file is removed. -/
def connectOps (c : Codec D) (d : Disk) : List Op :=
  match load c d with
  | none => []
  | some (v, x) => if v = latest then [] else closeOps c d x ++ [.remove .path]

/-- The tables after `Backend.connect` (the second `_connect` reads the disk again). -/
def connect (c : Codec D) (d : Disk) : Option D := (load c (runOps d (connectOps c d))).map Prod.snd

end Verif.DB.Pickle
