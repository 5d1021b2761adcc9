/-!
# Model of `build` in `lib/fbuild/main.py`

`build` (81-135) as the list of what it does.  The functions of the targets, the hooks and the installation are
external: each one returns or raises.
-/
namespace Verif.Main

abbrev Name := String

/-- What `build` depends on. -/
structure Setup where
  /-- `--dump-state` -/
  dumpState : Bool := false
  /-- `--delete-function`; does `db.delete_function` find it? -/
  deleteFunction : Option Bool := none
  /-- `--delete-file`; does `db.delete_file` find it? -/
  deleteFile : Option Bool := none
  targets : List Name
  /-- is there such a target? (target.py 30-36) -/
  registered : Name → Bool
  /-- does the function of the target return? -/
  succeeds : Name → Bool
  /-- is there a hook, and does it return? -/
  preInstall : Option Bool := none
  postInstall : Option Bool := none
  /-- does `install_files` return? -/
  installs : Bool := true

/-- What `build` starts. -/
inductive Event where
  | dump | deleteFunction | deleteFile
  | run (target : Name)
  | preInstall | install | postInstall
  deriving DecidableEq, Repr

/-- `l.insert(i, x)` for an index that may be negative -/
def pyInsert {α} (l : List α) (i : Int) (x : α) : List α :=
  let j := (if i < 0 then i + l.length else i).toNat
  l.take j ++ x :: l.drop j

/-- The list of targets to step through (104-108); `none` is `fbuild.Error`. -/
def plan (targets : List Name) : Option (List Name) :=
  if "install" ∈ targets then
    if targets.getLast? ≠ some "install" then none
    else if targets.all (fun t => t = "configure" || t = "install") then
      some (pyInsert targets ((targets.idxOf "install" : Int) - 1) "build")
    else some targets
  else some targets

/-- an action that is there or not -/
def hook (h : Option Bool) (e : Event) : List Event × Bool :=
  match h with
  | none => ([], true)
  | some ok => ([e], ok)

/-- one thing after the other, unless it raises -/
def andThen (a b : List Event × Bool) : List Event × Bool :=
  if a.2 then (a.1 ++ b.1, b.2) else a

/-- One round of the loop (111-131). -/
def target (s : Setup) (name : Name) : List Event × Bool :=
  if name = "install" then
    andThen (hook s.preInstall .preInstall)
      (andThen ([.install], s.installs) (hook s.postInstall .postInstall))
  else if s.registered name then ([.run name], s.succeeds name)
  else ([], false)

/-- The loop (111-131). -/
def loop (s : Setup) : List Name → List Event × Bool
  | [] => ([], true)
  | t :: ts => andThen (target s t) (loop s ts)

/-- `build` (81-135): what is started, and whether it returns. -/
def build (s : Setup) : List Event × Bool :=
  if s.dumpState then ([.dump], true)
  else match s.deleteFunction with
    | some found => ([.deleteFunction], found)
    | none => match s.deleteFile with
      | some found => ([.deleteFile], found)
      | none => match plan s.targets with
        | none => ([], false)
        | some ts => loop s ts

end Verif.Main
