import Verif.Gcc.Command
/-!
# Model of the compiler in lib/fbuild/builders/c/msvc.py

The command line of `Cl.__call__` (47-103), `Compiler.__call__` (141-158), the flags that `Builder.compile` adds (433-437), and the
compiler that `static` and `shared` make (504-533, 552-584).  Texts are compared by code points, `Path(x)` is `x`.  Left out: the
checks that the compiler works, the options for the log.
-/
namespace Verif.Msvc
open Verif.Gcc (dedup sortedSet sorted leText asked objectFile)

/-- what a `Cl` is made with (15-36) -/
structure Cl where
  exe : List Char
  preFlags : List (List Char) := []
  flags : List (List Char) := []
  includes : List (List Char) := []
  macros : List (List Char) := []
  warnings : List (List Char) := []
  debug : Option Bool := none
  optimize : Option Bool := none
  debugFlags : List (List Char) := ["/Zi".toList]
  optimizeFlags : List (List Char) := ["/Ox".toList]

/-- the arguments of a call besides the sources, the destination and `pre_flags` (47-56) -/
structure Call where
  flags : List (List Char) := []
  includes : List (List Char) := []
  macros : List (List Char) := []
  warnings : List (List Char) := []
  debug : Option Bool := none
  optimize : Option Bool := none
  includeSourceDirs : Bool := true

/-- `Cl.__call__` (57-101) -/
def Cl.command (b : Cl) (srcs : List (List Char)) (dst : Option (List Char)) (preFlags : List (List Char)) (a : Call) :
    List (List Char) :=
  let includes := dedup (b.includes ++ a.includes ++
    (if a.includeSourceDirs then srcs.map (fun s => (Posix.split s).1) else [])) []          -- 57-63
  [b.exe, "/nologo".toList] ++ b.preFlags ++ preFlags
    ++ (if asked b.debug a.debug then b.debugFlags else [])                                  -- 83-84
    ++ (if asked b.optimize a.optimize then b.optimizeFlags else [])                         -- 86-87
    ++ ((sorted leText includes).filter (· ≠ [])).map ("/I".toList ++ ·)                     -- 90
    ++ (sortedSet a.macros b.macros).map ("/D".toList ++ ·)                                  -- 71-72, 91
    ++ (sortedSet a.warnings b.warnings).map ("/W".toList ++ ·)                              -- 74-75, 92
    ++ (match dst with | none => [] | some d => ["/Fo".toList ++ d])                         -- 94-98
    ++ dedup (b.flags ++ a.flags) []                                                         -- 65-69, 100
    ++ srcs

/-- The arguments of `static` and `shared` that the compiler depends on (504-519, 552-567).  `cl` is what is passed on to `Cl`; its
fields `exe` and `flags` are not used. -/
structure Options where
  exe : Option (List Char) := none
  flags : List (List Char) := []
  compileFlags : List (List Char) := []
  objSuffix : Option (List Char) := none
  cl : Cl := { exe := [] }

/-- `Compiler.__init__` (130-139) -/
structure Compiler where
  cl : Cl
  flags : List (List Char)
  suffix : List Char

/-- `Compiler(ctx, Cl(ctx, **kwargs), flags=list(chain(flags, compile_flags)), suffix=obj_suffix)` (521-522, 531-533, 569-570,
582-584) with `find_program(ctx, [exe])` (27).  `objSuffix` is the suffix of the platform for `static` or `shared`. -/
def makeCompiler (find : List Char → List Char) (objSuffix : List Char) (o : Options) : Compiler :=
  { cl := { o.cl with exe := find "cl".toList, flags := [] }
    flags := o.flags ++ o.compileFlags
    suffix := o.objSuffix.getD objSuffix }

/-- the object file of `Compiler.__call__` (145-149) -/
def Compiler.object (c : Compiler) (root src : List Char) (dst suffix : Option (List Char)) : List Char :=
  objectFile root (match suffix with | none => c.suffix | some s => if s = [] then c.suffix else s) src dst

/-- the command of `Compiler.__call__` (152-156) -/
def Compiler.command (c : Compiler) (root src : List Char) (dst suffix : Option (List Char)) (a : Call) : List (List Char) :=
  c.cl.command [src] (some (c.object root src dst suffix)) ("/c".toList :: c.flags) a

/-- the command of `Builder.compile` (433-437) -/
def Compiler.cached (c : Compiler) (root src : List Char) (dst suffix : Option (List Char)) (a : Call) : List (List Char) :=
  c.command root src dst suffix { a with flags := "/showIncludes".toList :: a.flags }

end Verif.Msvc
