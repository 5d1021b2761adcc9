import Verif.Posix
/-!
# Model of `Context.install` (lib/fbuild/context.py 259-279) and of lib/fbuild/install.py

`target` is where a file is to be installed.  `LocalCommander.install` works on a file system of files, links
and directories.
-/
namespace Verif.Install
open Verif.Posix

abbrev Text := List Char

/-- `rename or path.basename()` (278): an empty text counts as not given. -/
def nameOf (path : Text) : Option Text → Text
  | some (c :: r) => c :: r
  | _ => (split path).2

/-- The target of `Context.install(path, subdir, rename=...)` (266-278); `a / b` is `os.path.join(a, b)`. -/
def target (destdir pre path subdir : Text) (rename : Option Text) : Text :=
  let root :=
    if isabs subdir then join destdir (subdir.drop 1)
    else join (join destdir (if isabs pre then pre.drop 1 else pre)) subdir
  join root (nameOf path rename)

/-! ## The file system -/

inductive Node where
  | file (content : Nat) (mode : Nat)
  | dir
  /-- a link, with its text -/
  | link (to : Text)
  deriving DecidableEq

/-- Paths are whole texts: directories in between, and their permissions, are left out.  `makedirs` of the
parent (install.py 22) always succeeds. -/
abbrev FS := Text → Option Node

def FS.set (fs : FS) (p : Text) (n : Option Node) : FS := fun q => if q = p then n else fs q

/-- The text of a link is relative to the directory of the link. -/
def linkTarget (p to : Text) : Text := join (split p).1 to

/-- Following links, at most 40 as Linux does; `none` is `ELOOP`. -/
def follow (fs : FS) : Nat → Text → Option Text
  | 0, _ => none
  | n + 1, p =>
    match fs p with
    | some (.link to) => follow fs n (linkTarget p to)
    | _ => some p

def real (fs : FS) (p : Text) : Option Text := follow fs 41 p

/-- `os.path.exists`: follows links -/
def exists' (fs : FS) (p : Text) : Bool :=
  match real fs p with
  | some q => (fs q).isSome
  | none => false

/-- the result of an operation: the state, and whether it returned -/
structure Res where
  fs : FS
  ok : Bool

/-- `os.remove`: not for directories -/
def remove (fs : FS) (p : Text) : Res :=
  match fs p with
  | some (.file _ _) | some (.link _) => ⟨fs.set p none, true⟩
  | _ => ⟨fs, false⟩

/-- `os.symlink(to, p)`: `FileExistsError` if there is anything at `p` -/
def symlink (fs : FS) (to p : Text) : Res :=
  match fs p with
  | none => ⟨fs.set p (some (.link to)), true⟩
  | some _ => ⟨fs, false⟩

/-- `os.chmod`: follows links -/
def chmod (fs : FS) (p : Text) (mode : Nat) : Res :=
  match real fs p with
  | none => ⟨fs, false⟩
  | some q =>
    match fs q with
    | some (.file c _) => ⟨fs.set q (some (.file c mode)), true⟩
    | some .dir => ⟨fs, true⟩
    | _ => ⟨fs, false⟩

/-- `shutil.copy(src, dst)`: into the directory if `dst` is one, otherwise it writes the content to what `dst`
leads to, and copies the mode; `SameFileError` if source and destination are the same. -/
def copy (fs : FS) (src dst : Text) : Res :=
  match real fs src with
  | none => ⟨fs, false⟩
  | some s =>
    match fs s with
    | some (.file c m) =>
      let dst' := match real fs dst with
        | some d => if fs d = some .dir then join dst (split src).2 else dst
        | none => dst
      match real fs dst' with
      | none => ⟨fs, false⟩
      | some d =>
        if d = s then ⟨fs, false⟩
        else match fs d with
          | some .dir => ⟨fs, false⟩
          | _ => ⟨fs.set d (some (.file c m)), true⟩
    | _ => ⟨fs, false⟩

/-- one operation after the other, unless it raises -/
def Res.andThen (r : Res) (f : FS → Res) : Res := if r.ok then f r.fs else r

/-- `LocalCommander.install` (install.py 21-32) -/
def install (fs : FS) (file tgt : Text) (perms : Option Nat) : Res :=
  let r := match fs file with
    | some (.link to) =>
      (if exists' fs tgt then remove fs tgt else ⟨fs, true⟩ : Res).andThen fun fs => symlink fs to tgt
    | _ => copy fs file tgt
  r.andThen fun fs =>
    match perms with
    | none => ⟨fs, true⟩
    | some m => chmod fs file m

/-- `Installer._install` (install.py 109-116): all of `to_install`, in order -/
def installAll (fs : FS) : List (Text × Text × Option Nat) → Res
  | [] => ⟨fs, true⟩
  | (file, tgt, perms) :: rest => (install fs file tgt perms).andThen fun fs => installAll fs rest

end Verif.Install
