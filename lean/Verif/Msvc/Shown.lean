import Verif.Msvc.Core
import Verif.Posix
/-!
# What the tools of Visual C print and what of it is shown (lib/fbuild/builders/c/msvc.py 345-397, 420-476)

With the part of `Context.execute` that logs the standard output (lib/fbuild/context.py 217-242) and the level of messages
(lib/fbuild/console.py 148).  One thread, no colours, `/showIncludes` and the other options are left to the tools.
Left out: the standard error, the lines with the command and the exit code, and the log file, which gets everything.
-/
namespace Verif.Msvc.Shown

/-- The standard output of a tool: it can be decoded, or not, and then it is logged as `repr` writes it. -/
inductive Out where
  | text (s : Text)
  | bytes (repr : Text)

/-- how a call ends -/
inductive Result where
  | ok
  | executionError
  | decodeError
  deriving DecidableEq

/-- what appears on the screen, and how the call ends -/
structure Outcome where
  screen : Text
  result : Result

/-- `str.rstrip()` (context.py 224); white space that is not ASCII is left out -/
def rstrip (s : Text) : Text := (s.reverse.dropWhile (fun c => c ∈ [' ', '\t', '\n', '\r', '\x0b', '\x0c'])).reverse

/-- `logger.log(stdout.rstrip().decode(), verbose=stdout_quieter)` (context.py 222-227; console.py 148, 165-168) -/
def executeShows (verbose level : Nat) : Out → Text
  | .text s => if s = [] then [] else if level ≤ verbose then rstrip s ++ ['\n'] else []
  | .bytes r => if level ≤ verbose then r ++ ['\n'] else []

/-- `1 if stdout_quieter == 0 else stdout_quieter` (msvc.py 384, 436) -/
def outLevel (stdoutQuieter : Nat) : Nat := if stdoutQuieter = 0 then 1 else stdoutQuieter

/-- `Context.execute` with this level for the standard output (context.py 217-242): the screen, and whether it raises -/
def execute (verbose level code : Nat) (out : Out) : Outcome :=
  ⟨executeShows verbose level out, if code = 0 then .ok else .executionError⟩

/-- the lines that are written when the compiler fails (msvc.py 443-446) -/
def failLines (srcName s : Text) : Text :=
  ((lines s).filter (fun l => depLine l = none ∧ l ≠ (Posix.splitext srcName).1 ++ "\r\n".toList)).flatten

/-- `Builder.compile` (msvc.py 423-476), without what it reports to the database -/
def compile (relpath : Text → Option Text) (verbose quieter stdoutQuieter : Nat) (srcName : Text) (code : Nat) (out : Out) :
    Outcome :=
  let shown := executeShows verbose (outLevel stdoutQuieter) out
  let loud : Bool := quieter = 0 ∧ stdoutQuieter = 0
  if code = 0 then
    match out with
    | .text s => ⟨shown ++ (compileOutput relpath loud srcName s).2, .ok⟩
    | .bytes _ => ⟨shown, .decodeError⟩
  else if loud then
    match out with
    | .text s => ⟨shown ++ failLines srcName s, .executionError⟩
    | .bytes _ => ⟨shown, .decodeError⟩
  else ⟨shown, .executionError⟩

/-- what the linker says when it makes a shared library (msvc.py 391) -/
def creating (lib exp : Text) : Text :=
  "   Creating library ".toList ++ lib ++ " and object ".toList ++ exp ++ "\r\n".toList

/-- `DllLink.__call__` (msvc.py 375-397), for the names of the import library and of the export file -/
def dllLink (verbose stdoutQuieter : Nat) (lib exp : Text) (code : Nat) (out : Out) : Outcome :=
  let shown := executeShows verbose (outLevel stdoutQuieter) out
  if code = 0 then
    match out with
    | .text s => ⟨shown ++ ((lines s).filter (fun l => l ≠ creating lib exp)).flatten, .ok⟩
    | .bytes _ => ⟨shown, .decodeError⟩
  else ⟨shown, .executionError⟩

/-- `ExeLink.__call__` (msvc.py 355-360) and `Lib.__call__` (msvc.py 220-225): the output is left to `execute` -/
def plainLink (verbose quieter : Nat) (stdoutQuieter : Option Nat) (code : Nat) (out : Out) : Outcome :=
  execute verbose (stdoutQuieter.getD quieter) code out

end Verif.Msvc.Shown
