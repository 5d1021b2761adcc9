import Verif.Builders.File
/-!
# Model of `Context.create_buildroot` (lib/fbuild/context.py 67-79) and `clear_temp_dir` (104-105)

On the tree of files and directories of `Builders/File.lean`.  The paths of the log and of the state are those that `Context.__init__`
has put together (41-42); the temporary directory is `.tmp` in the build directory (60).  Left out: permissions, and links.
-/
namespace Verif.FileOps
open Verif.Posix Verif.Path

/-- `open(p, 'w')`: an empty file; `mode` is that of a new file -/
def openEmpty (cwd : Loc) (fs : FS) (mode : Nat) (p : Text) : Bool × FS :=
  if writable cwd fs p then
    (true, fs.set (loc cwd p) (.file 0 (match fs (loc cwd p) with | some (.file _ m) => m | _ => mode)))
  else (false, fs)

/-- `clear_temp_dir` (104-105): `rmtree` with `ignore_errors`; it does nothing if the path is no directory -/
def clearTempDir (cwd : Loc) (fs : FS) (p : Text) : FS :=
  if fs (loc cwd p) = some .dir then fun k => if (loc cwd p).isPrefixOf k then none else fs k else fs

/-- `Path.mkdir` (path.py 306-307) -/
def mkdir (cwd : Loc) (fs : FS) (p : Text) : Bool × FS :=
  if fs (loc cwd p) = none ∧ fs (loc cwd p).dropLast = some .dir then (true, fs.set (loc cwd p) .dir) else (false, fs)

/-- `create_buildroot` (context.py 67-79); `false` if it raises -/
def createBuildroot (cwd : Loc) (fs : FS) (mode : Nat) (root log state : Text) : Bool × FS :=
  match makedirs cwd fs root with
  | (false, fs) => (false, fs)
  | (true, fs) =>
    match openEmpty cwd fs mode log with
    | (false, fs) => (false, fs)
    | (true, fs) =>
      match makedirs cwd fs (split state).1 with
      | (false, fs) => (false, fs)
      | (true, fs) => mkdir cwd (clearTempDir cwd fs (join root ".tmp".toList)) (join root ".tmp".toList)

end Verif.FileOps
