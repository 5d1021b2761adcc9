import Verif.Builders.Small
import Verif.Java.Compile
import Verif.Msvc.Cl
/-!
# Model of the checks when the compilers besides gcc are made

The constructors with their `check_flags`: `Cl` and `Compiler` of lib/fbuild/builders/c/msvc.py, `Ghc` of lib/fbuild/builders/ghc.py, `Flx`
of lib/fbuild/builders/felix.py, and `AbstractCompiler` of lib/fbuild/builders/java.py and lib/fbuild/builders/scala.py.  What the program
does with a command is a parameter, as is the name of the temporary file, which is the same for all checks.  Left out: the search for the
program, the log, `platform_options`, and that the commands of `Cl` and `Ghc` run in the directory of the temporary file.
-/
namespace Verif.Made

abbrev Text := List Char

/-- how a command ends that does not succeed: by an exit status (`ExecutionError`), or otherwise -/
inductive Err where
  | status
  | other (n : Nat)
  deriving DecidableEq

/-- the exceptions -/
inductive Exc where
  | configFailed
  | assertion
  | other (n : Nat)
  deriving DecidableEq

variable (run : List Text → Except Err Unit) (src : Text)

/-- `check_flags` (msvc.py 105-122, ghc.py 53-72, felix.py 57-76, java.py 183-204) of the command with the flags; `none`: the command is
refused by an `assert` -/
def check (cmd : Option (List Text)) : Except Exc Bool :=
  match cmd with
  | none => .error .assertion
  | some cmd =>
    match run cmd with
    | .ok _ => .ok true
    | .error .status => .ok false
    | .error (.other n) => .error (.other n)

/-- `if asked and not self.check_flags(flags): raise ConfigFailed`, and what follows it -/
def require (asked : Bool) (cmd : Option (List Text)) (rest : Except Exc Unit) : Except Exc Unit :=
  if asked then
    match check run cmd with
    | .ok true => rest
    | .ok false => .error .configFailed
    | .error e => .error e
  else rest

/-- the command of `Cl.check_flags` (msvc.py 116) -/
def clCommand (b : Msvc.Cl) (flags : List Text) : Option (List Text) := some (b.command [src] none [] { flags := flags })

/-- `Cl.__init__` (msvc.py 38-45) -/
def makeCl (b : Msvc.Cl) : Except Exc Unit :=
  require run true (clCommand src b b.flags)
    (require run (b.debugFlags != []) (clCommand src b b.debugFlags)
      (require run (b.optimizeFlags != []) (clCommand src b b.optimizeFlags) (.ok ())))

/-- `Compiler.__init__` (msvc.py 137-139) -/
def makeClCompiler (b : Msvc.Cl) (flags : List Text) : Except Exc Unit :=
  require run (flags != []) (clCommand src b flags) (.ok ())

/-- `Ghc.__init__` (ghc.py 22-23); `check_flags` makes a program `test` (66) -/
def makeGhc (exe : Text) (own : List Text) : Except Exc Unit :=
  require run true (some (Small.ghc exe own [] own none none "test".toList [src])) (.ok ())

/-- `Flx.__init__` (felix.py 24-26): a check that fails has no effect -/
def makeFlx (ex : Text → Bool) (f : Small.Flx) : Except Exc Unit :=
  match check run (some (Small.flx ex f src [] none false none [])) with
  | .ok _ => .ok ()
  | .error e => .error e

/-- `AbstractCompiler.__init__` (java.py 139-143), and what follows it; `command` is `_run` of the class -/
def makeJava (command : Java.Compiler → Java.Args → Option Text → List Text → Option (List Text)) (c : Java.Compiler)
    (rest : Except Exc Unit) : Except Exc Unit :=
  require run true (command c {} none [src])
    (require run (c.debugFlags != []) (command c { flags := c.debugFlags } none [src]) rest)

/-- `Javac` -/
def makeJavac (c : Java.Compiler) : Except Exc Unit := makeJava run src Java.runJava c (.ok ())

/-- `AbstractCompiler.__init__` (scala.py 16-19), of `Scala` and `Scalac` -/
def makeScala (c : Java.Compiler) : Except Exc Unit :=
  makeJava run src Java.runScala c
    (require run (c.optimizeFlags != []) (Java.runScala c { flags := c.optimizeFlags } none [src]) (.ok ()))

end Verif.Made
