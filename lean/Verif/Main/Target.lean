import Verif.Dict
/-!
# Model of lib/fbuild/target.py

Targets (1-52), and the targets that `main` registers (lib/fbuild/main.py 138-143).
-/
namespace Verif.Main.Target

abbrev Text := List Char

/-- a function of the build script: its name, its docstring, and which one it is -/
structure Fn where
  name : Text
  doc : Option Text
  id : Nat
  deriving DecidableEq, Repr

/-- `Target` (target.py 8-12) -/
structure Target where
  function : Fn
  name : Text
  help : Option Text
  deriving DecidableEq, Repr

/-- `Target(function, name=name, help=help)` (target.py 9-12) -/
def Target.new (function : Fn) (name help : Option Text) : Target :=
  ⟨function, name.getD function.name, help.orElse fun _ => function.doc⟩

/-- `_targets` (target.py 16) -/
abbrev Targets := Dict Text Target

/-- a use of the decorator `@register(name=name, help=help)` -/
structure Use where
  function : Fn
  name : Option Text := none
  help : Option Text := none
  deriving DecidableEq, Repr

/-- `register(name=name, help=help)(function)` (target.py 18-26) -/
def register (ts : Targets) (u : Use) : Targets :=
  let t := Target.new u.function u.name u.help
  ts.set t.name t

/-- `find` (target.py 28-34); `none` is `fbuild.Error` -/
def find (ts : Targets) (name : Text) : Option Target := ts.get? name

/-- `fbuild.target.register(name=name)(getattr(fbuildroot, name))`, unless there is no such attribute (main.py 140-143) -/
def registerAttr (attr : Text → Option Fn) (ts : Targets) (name : Text) : Targets :=
  match attr name with
  | some f => register ts ⟨f, some name, none⟩
  | none => ts

/-- the loop of `main` (main.py 138-143) over `configure` and `build`; `attr` is `getattr(fbuildroot, name)` -/
def registerMain (attr : Text → Option Fn) (ts : Targets) : Targets :=
  ["configure".toList, "build".toList].foldl (registerAttr attr) ts

/-- the targets of a process: those of the build script, which is imported first, then those of `main` -/
def targets (uses : List Use) (attr : Text → Option Fn) : Targets := registerMain attr (uses.foldl register [])

/-- `s.ljust(n)` -/
def ljust (s : Text) (n : Nat) : Text := s ++ List.replicate (n - s.length) ' '

/-- `sep.join(ss)` -/
def join (sep : Text) : List Text → Text
  | [] => []
  | [s] => s
  | s :: s' :: ss => s ++ sep ++ join sep (s' :: ss)

/-- a target is put in front of the first one with a greater name -/
def insert (t : Target) : List Target → List Target
  | [] => [t]
  | u :: l => if u.name ≤ t.name then u :: insert t l else t :: u :: l

/-- `sorted(_targets.values(), key=operator.attrgetter('name'))` (target.py 39) -/
def sorted (ts : Targets) : List Target := (ts.map Prod.snd).foldl (fun l t => insert t l) []

/-- `help_string` (target.py 36-52) -/
def helpString (ts : Targets) : Text :=
  let l := sorted ts
  if l = [] then []
  else
    let width := (l.map fun t => t.name.length).foldl max 0
    join ['\n'] (l.map fun t => [' ', ' '] ++ ljust t.name width ++ ['\t'] ++ t.help.getD [])

end Verif.Main.Target
