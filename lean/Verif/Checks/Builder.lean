import Verif.Builders.Guess
/-!
# Model of the checks that make a C builder

The `tempfile_*` and `try_*` functions of lib/fbuild/builders/__init__.py, the constructor of `Builder` of lib/fbuild/builders/c/__init__.py
and `config_omp_h` of lib/fbuild/builders/c/openmp.py.  The tools are a parameter.  A temporary file is its text: its name, that it is
removed (see `Verif/Temp`), and the log are left out.
-/
namespace Verif.Checks.Builder
open Verif.Guess (Exc)

abbrev Text := String

/-- how running a tool can fail -/
inductive Err where
  /-- `ExecutionError`: the tool ran and failed, or could not be run -/
  | execution
  | other (n : Nat)
  deriving DecidableEq

/-- The tools of a builder: what compiling a text, linking objects and running a program gives.  The first argument of a tool is its flags. -/
structure Tools (Obj Lib Exe : Type) where
  compile : List Text → Text → Except Err Obj
  linkLib : List Text → List Obj → Except Err Lib
  linkExe : List Text → List Obj → List Lib → Except Err Exe
  run : Exe → Except Err Text

variable {Obj Lib Exe : Type} (t : Tools Obj Lib Exe)

/-- `tempfile_link_lib` (builders/__init__.py 221-225) -/
def tempLib (cflags flags : List Text) (code : Text) : Except Err Lib :=
  match t.compile cflags code with
  | .error e => .error e
  | .ok obj => t.linkLib flags [obj]

/-- `tempfile_link_exe` (293-297) -/
def tempExe (cflags flags : List Text) (code : Text) : Except Err Exe :=
  match t.compile cflags code with
  | .error e => .error e
  | .ok obj => t.linkExe flags [obj] []

/-- `tempfile_run` (c/__init__.py 179-190) -/
def tempRun (cflags flags : List Text) (code : Text) : Except Err Text :=
  match tempExe t cflags flags code with
  | .error e => .error e
  | .ok exe => t.run exe

/-- `try: ... except fbuild.ExecutionError: return False` (178-183, 227-232, 250-256, 300-305) -/
def attempt {α : Type} : Except Err α → Except Err Bool
  | .ok _ => .ok true
  | .error .execution => .ok false
  | .error (.other n) => .error (.other n)

/-- `try_compile` (178-183) -/
def tryCompile (flags : List Text) (code : Text) : Except Err Bool := attempt (t.compile flags code)
/-- `try_link_lib` (227-232) -/
def tryLinkLib (cflags flags : List Text) (code : Text) : Except Err Bool := attempt (tempLib t cflags flags code)
/-- `try_link_exe` (300-305) -/
def tryLinkExe (cflags flags : List Text) (code : Text) : Except Err Bool := attempt (tempExe t cflags flags code)
/-- `try_run` (250-256) -/
def tryRun (cflags flags : List Text) (code : Text) : Except Err Bool := attempt (tempRun t cflags flags code)

/-! ## The constructor -/

/-- The programs of the constructor: the first (c/__init__.py 43, 58, 60), the library (50), and those of the last check (70-85, 89-101).
What is in them does not matter here. -/
structure Programs where
  main : Text
  lib : Text
  libSrc : Text
  exeSrc : Text

/-- an exception that is not handled -/
def escape : Err → Exc
  | .execution => .other 0
  | .other n => .other (n + 1)

/-- `except fbuild.ExecutionError as e: raise fbuild.ConfigFailed(...)` (45-46, 52-53, 62-63) -/
def handled {α : Type} : Except Err α → Except Exc α
  | .ok x => .ok x
  | .error .execution => .error .configFailed
  | .error (.other n) => .error (escape (.other n))

/-- a part without a handler -/
def bare {α : Type} : Except Err α → Except Exc α
  | .ok x => .ok x
  | .error e => .error (escape e)

/-- the program of the last check, linked with the library (103-109) -/
def linked (p : Programs) : Except Err Exe :=
  match t.compile [] p.libSrc with
  | .error e => .error e
  | .ok obj =>
    match t.linkLib [] [obj] with
    | .error e => .error e
    | .ok lib =>
      match t.compile [] p.exeSrc with
      | .error e => .error e
      | .ok obj => t.linkExe [] [obj] [lib]

/-- whether the program of the last check is right (111-121) -/
def lastRun (cross : Bool) (exe : Exe) : Except Exc Unit :=
  if cross then .ok ()
  else
    match handled (t.run exe) with
    | .error e => .error e
    | .ok out => if out ≠ "5" then .error .configFailed else .ok ()

/-- the third check (56-65) -/
def thirdCheck (cross : Bool) (p : Programs) : Except Err Unit :=
  if cross then (tempExe t [] [] p.main).map fun _ => () else (tempRun t [] [] p.main).map fun _ => ()

/-- The constructor of `Builder` (29-121), after that of its base class. -/
def construct (cross : Bool) (p : Programs) : Except Exc Unit :=
  match handled (t.compile [] p.main) with
  | .error e => .error e
  | .ok _ =>
    match handled (tempLib t [] [] p.lib) with
    | .error e => .error e
    | .ok _ =>
      match handled (thirdCheck t cross p) with
      | .error e => .error e
      | .ok _ =>
        match bare (linked t p) with
        | .error e => .error e
        | .ok exe => lastRun t cross exe

/-! ## OpenMP -/

/-- the loop of `config_omp_h` (openmp.py 37-44) -/
def ompLoop (code : Text) : List (List Text) → Except Exc (List Text)
  | [] => .error .configFailed
  | flags :: rest =>
    match tryRun t [] flags code with
    | .error e => .error (escape e)
    | .ok true => .ok flags
    | .ok false => ompLoop code rest

/-- `config_omp_h` (openmp.py 8-44): the flags.  `header` is the program of `check_header_exists('omp.h')`, and `MissingHeader` is a
`ConfigFailed`. -/
def omp (header code : Text) : Except Exc (List Text) :=
  match tryCompile t [] header with
  | .error e => .error (escape e)
  | .ok false => .error .configFailed
  | .ok true => ompLoop t code [[], ["-openmp"], ["-fopenmp"], ["/openmp"]]

end Verif.Checks.Builder
