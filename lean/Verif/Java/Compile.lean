import Verif.Java.Core
import Verif.Path.Core
/-!
# Model of the compiler objects of lib/fbuild/builders/java.py and lib/fbuild/builders/scala.py

`AbstractCompiler._run` and `__call__` of `Javac`, `Scala` and `Scalac`, and `AbstractBuilder._run`, which `compile` of both builders
calls.  Paths are texts as in `Verif/Path/Core.lean`; files are a map from paths to contents, directories are left out (they are made where
they are missing).  Left out: `platform_options`, the checks in the constructors, the log, `jar`.
-/
namespace Verif.Java
open Verif.Posix (split)
open Verif.Path (addroot replaceext)

/-- what a compiler object keeps (java.py 130-137, scala.py 13-14); `optimize` and `optimizeFlags` are scala's -/
structure Compiler where
  exe : Text
  classpaths : List Text := []
  sourcepaths : List Text := []
  debug : Bool := false
  debugFlags : List Text := []
  target : Option Text := none
  flags : List Text := []
  optimize : Bool := false
  optimizeFlags : List Text := []

/-- the keyword arguments of a call (java.py 146-154) -/
structure Args where
  classpaths : List Text := []
  sourcepaths : List Text := []
  debug : Option Bool := none
  optimize : Option Bool := none
  target : Option Text := none
  flags : List Text := []

/-- `(x is None and own) or x` (java.py 164, scala.py 27) -/
def wanted (x : Option Bool) (own : Bool) : Bool := (x == none && own) || x == some true

/-- `AbstractCompiler._run` of java.py (146-181), the command; `none` if there are no sources (157) -/
def runJava (c : Compiler) (a : Args) (dst : Option Text) (srcs : List Text) : Option (List Text) :=
  if srcs.length > 0 then
    some (javac c.exe dst (wanted a.debug c.debug) c.debugFlags (if a.target = none then c.target else a.target)
      c.classpaths a.classpaths c.sourcepaths a.sourcepaths c.flags a.flags srcs)
  else none

/-- `AbstractCompiler._run` of scala.py (21-30) -/
def runScala (c : Compiler) (a : Args) (dst : Option Text) (srcs : List Text) : Option (List Text) :=
  runJava c { a with flags := if wanted a.optimize c.optimize then a.flags ++ c.optimizeFlags else a.flags } dst srcs

/-- `a or b` of texts -/
def orElse (a : Option Text) (b : Text) : Text :=
  match a with
  | some (c :: r) => c :: r
  | _ => b

/-- the directory that `Javac.__call__` (java.py 215-224) and `Scalac.__call__` (scala.py 66-73) write to and return -/
def classDir (root : Text) (buildroot : Option Text) (dst : Text) : Text := addroot dst (orElse buildroot root)

/-- `Javac.__call__` (java.py 215-224): the directory and the command -/
def javacCall (root : Text) (buildroot : Option Text) (c : Compiler) (a : Args) (dst : Text) (srcs : List Text) :
    Option (Text × List Text) :=
  (runJava c a (some (classDir root buildroot dst)) srcs).map fun cmd => (classDir root buildroot dst, cmd)

/-- `Scalac.__call__` (scala.py 66-73): the directory and the command -/
def scalacCall (root : Text) (buildroot : Option Text) (c : Compiler) (a : Args) (dst : Text) (srcs : List Text) :
    Option (Text × List Text) :=
  (runScala c a (some (classDir root buildroot dst)) srcs).map fun cmd => (classDir root buildroot dst, cmd)

/-- `-verbose` (java.py 254) -/
def verbose : Text := ['-', 'v', 'e', 'r', 'b', 'o', 's', 'e']

/-- `AbstractBuilder._run` (java.py 240-257) up to the run of the compiler `call`, which is `javacCall root none c` or
`scalacCall root none c`: the `buildroot` is an argument of `_run` and is not passed on -/
def compile (root : Text) (call : Args → Text → List Text → Option (Text × List Text)) (src : Text) (dst buildroot : Option Text)
    (a : Args) : Option (Text × List Text) :=
  call { a with flags := verbose :: a.flags } (addroot (orElse dst (split src).1) (orElse buildroot root)) [src]

/-- the lines of the output of the compiler that `_run` writes to the log: when it has failed (java.py 258-263) and when it has not
(266-274) -/
def shown (quieter stderrQuieter : Nat) (failed : Bool) (stderr : Text) : List Text :=
  if failed then
    if quieter = 0 ∧ stderrQuieter = 0 then (lines [] stderr).filter fun l => !['['].isPrefixOf l else []
  else
    (lines [] stderr).filter fun l =>
      wrote l == none && (decide (quieter = 0) && decide (stderrQuieter = 0)) && !['['].isPrefixOf l

/-! ## Scripts -/

/-- the files, by path -/
abbrev Files := Text → Option Text

def Files.set (f : Files) (p : Text) (c : Text) : Files := fun q => if q = p then some c else f q

/-- `-savecompiled` (scala.py 55) -/
def saveCompiled : Text := ['-', 's', 'a', 'v', 'e', 'c', 'o', 'm', 'p', 'i', 'l', 'e', 'd']

/-- `.jar` (scala.py 44) -/
def dotJar : Text := ['.', 'j', 'a', 'r']

/-- the file that scala runs (scala.py 43-51) and the files then; `none` if there is nothing to copy -/
def stage (root : Text) (src : Text) (fs : Files) : Option (Text × Files) :=
  if src ≠ addroot src root then (fs src).map fun c => (addroot src root, fs.set (addroot src root) c)
  else some (src, fs)

/-- `Scala.__call__` (scala.py 38-58): the path that it returns and the files afterwards.  `execute` is the run of a command: the files
afterwards, or `none` if it fails. -/
def script (root : Text) (buildroot : Option Text) (c : Compiler) (a : Args) (src : Text) (execute : List Text → Files → Option Files)
    (fs : Files) : Option (Text × Files) :=
  match stage (orElse buildroot root) src fs with
  | none => none
  | some (file, fs1) =>
    match runScala c { a with flags := a.flags ++ [saveCompiled] } none [file] with
    | none => none
    | some cmd => (execute cmd fs1).map fun fs2 => (replaceext src dotJar, fs2)

end Verif.Java
