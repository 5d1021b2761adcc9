import Verif.DB.SqliteVersion
/-!
# A process, from the options to its exit status

Model of `main` in `lib/fbuild/main.py` (153-214) with `load_configuration` and `save_configuration` of
`lib/fbuild/context.py` (81-99).  A step is a function on the state that returns or raises; a step that is not part of the
database is a parameter.  Left out: the parser of the command line, the registration of targets (138-143, see `Main/Target.lean`), the handler for
SIGINT (159-165) except that a step can raise KeyboardInterrupt, and that SIGINT is ignored while the database is closed.
-/
namespace Verif.Main.Process

open Verif.DB

/-- what can be raised -/
inductive Exc where
  /-- `fbuild.Error` and what is derived from it -/
  | error
  /-- `KeyboardInterrupt` -/
  | interrupt
  /-- `SystemExit(n)` -/
  | exit (n : Nat)
  | other
  deriving DecidableEq, Repr

/-- a step: what it returns or raises, and the state afterwards -/
abbrev Step (σ α : Type) := σ → Except Exc α × σ

variable {σ α β : Type}

/-- one step after the other, unless it raises -/
def andThen (a : Step σ α) (b : α → Step σ β) : Step σ β := fun s =>
  match a s with
  | (.error e, s) => (.error e, s)
  | (.ok v, s) => b v s

/-- `try: a finally: b` -/
def tryFinally (a : Step σ α) (b : Step σ Unit) : Step σ α := fun s =>
  match b (a s).2 with
  | (.error e, t) => (.error e, t)
  | (.ok _, t) => ((a s).1, t)

/-- `raise e` -/
def raises (e : Exc) : Step σ α := fun s => (.error e, s)

def pass : Step σ Unit := fun s => (.ok (), s)

/-- The options and the steps of `main`. -/
structure Steps (σ : Type) where
  /-- `fbuildroot`: `none` if it was imported, else whether there is a file of this name -/
  missing : Option Bool := none
  /-- `--clean` -/
  clean : Bool := false
  /-- `ctx.options.buildroot.exists()` -/
  hasRoot : σ → Bool
  /-- `ctx.options.buildroot.rmtree()` -/
  rmtree : Step σ Unit
  createBuildroot : Step σ Unit
  loadConfiguration : Step σ Unit
  /-- `build(ctx)` -/
  build : Step σ Nat
  /-- `ctx.logger.log(e, color='red')` -/
  log : Step σ Unit
  /-- `print('Interrupted, saving state...')` -/
  tell : Step σ Unit
  clearTempDir : Step σ Unit
  saveConfiguration : Step σ Unit
  /-- `ctx.db.shutdown()` -/
  dbShutdown : Step σ Unit
  /-- `ctx.scheduler.shutdown()` -/
  shutdown : Step σ Unit

/-- `try: build … except … else …` (192-207) -/
def built (p : Steps σ) : Step σ Nat := fun s =>
  match p.build s with
  | (.error .error, s) => andThen p.log (fun _ => raises (.exit 1)) s
  | (.error .interrupt, s) => andThen p.tell (fun _ => raises .interrupt) s
  | (.error e, s) => (.error e, s)
  | (.ok v, s) => andThen p.clearTempDir (fun _ s => (.ok v, s)) s

/-- the body of the outer `try` (174-210); `none` is the bare `return` -/
def body (p : Steps σ) : Step σ (Option Nat) := fun s =>
  match p.missing with
  | some false => raises .error s
  | some true => raises .other s
  | none =>
    if p.clean then
      if p.hasRoot s then andThen p.rmtree (fun _ s => (.ok none, s)) s else (.ok none, s)
    else
      andThen p.createBuildroot (fun _ =>
        andThen p.loadConfiguration (fun _ =>
          andThen (tryFinally (built p) (andThen p.saveConfiguration fun _ => p.dbShutdown))
            (fun v s => (.ok (some v), s)))) s

/-- `main` (171-214) -/
def main (p : Steps σ) : Step σ (Option Nat) := tryFinally (body p) p.shutdown

/-- The exit status of `fbuild-light`, which ignores what `main` returns.  A process that is ended by an exception has some
other status than 0. -/
def status : Except Exc α → Nat
  | .ok _ => 0
  | .error (.exit n) => n
  | .error _ => 1

/-! ### The database -/

/-- An engine: `K` is what is on the disk, `H` what the backend keeps in memory, `D` the contents of the tables. -/
structure Engine (K H D : Type) where
  /-- `state_file.exists()` -/
  has : K → Bool
  /-- `state_file.remove()` -/
  remove : K → K
  /-- `Backend.connect`; `none` if it raises -/
  connect : K → Option H × K
  /-- a change of the tables by a call -/
  change : (D → D) → H × K → H × K
  close : H → K → K
  /-- the tables -/
  view : H → D

/-- The pickle engine (pickle_backend.py): changes are in memory only. -/
def pickle {D : Type} (c : Pickle.Codec D) : Engine Pickle.Disk D D where
  has d := (d .path).isSome
  remove d := d.put .path none
  connect d := (Pickle.connect c d, Pickle.runOps d (Pickle.connectOps c d))
  change f x := (f x.1, x.2)
  close h d := Pickle.runOps d (Pickle.closeOps c d h)
  view := id

/-- The cache engine (cache_backend.py): there is no file.  A file that is there for some reason is of type `K`. -/
def cache {K D : Type} (has : K → Bool) (remove : K → K) (empty : D) : Engine K D D where
  has := has
  remove := remove
  connect k := (some empty, k)
  change f x := (f x.1, x.2)
  close _ k := k
  view := id

/-- The sqlite engine (sqlite_backend.py): `cache` commits each change (135-137). -/
def sqlite {D : Type} (empty : D) :
    Engine (SqliteVersion.Disk D) (Pickle.Version × SqliteVersion.Db D) D where
  has d := d.isSome
  remove _ := none
  connect d := ((SqliteVersion.connect empty d).2, ((SqliteVersion.connect empty d).1.getLast?).join)
  change f x :=
    let db : SqliteVersion.Db D := { x.1.2 with tables := f x.1.2.tables }
    ((x.1.1, db), some db)
  close h _ := some (SqliteVersion.close h.1 h.2)
  view h := h.2.tables

/-- The state of a process: the disk, the backend (`none` if not connected), and everything else. -/
structure World (K H X : Type) where
  disk : K
  handle : Option H
  rest : X

variable {K H D X : Type}

/-- `load_configuration` (context.py 81-88) -/
def load (E : Engine K H D) (rebuild : Bool) : Step (World K H X) Unit := fun w =>
  let k := if rebuild && E.has w.disk then E.remove w.disk else w.disk
  match E.connect k with
  | (none, k) => (.error .other, { w with disk := k })
  | (some h, k) => (.ok (), { w with disk := k, handle := some h })

/-- `save_configuration` (context.py 90-99) -/
def save (E : Engine K H D) (doNotSave : Bool) : Step (World K H X) Unit := fun w =>
  if doNotSave then (.ok (), w)
  else match w.handle with
    | none => (.error .other, w)
    | some h => (.ok (), { w with disk := E.close h w.disk })

end Verif.Main.Process
