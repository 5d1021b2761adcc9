import Verif.Gcc.Command
import Verif.Ocaml.Core
/-!
# Model of the command lines of the OCaml compilers

`Builder._run` of lib/fbuild/builders/ocaml/__init__.py (264-344) up to `ctx.execute`, with what `Ocamlcp` (692-697) and
`Ocamlopt` (762-770) add to it, and what `OcamlfindBuilderMixin` of ocaml/ocamlfind.py (73-129) adds.  `Path(x)` is `x` (POSIX).
Left out: the texts for the log, the making of directories, and the checks in the constructors.
-/
namespace Verif.Ocaml
open Verif.Gcc (leText sortedSet)
open Verif.Path (Text)

/-- Which compiler: `Ocamlc`, `Ocamlcp` or `Ocamlopt`. -/
inductive Tool where
  | ocamlc | ocamlcp | ocamlopt
  deriving DecidableEq

/-- What the constructors store (ocaml/__init__.py:159-194, 681-690, 702-736; ocamlfind.py:139-232).  The packages, syntaxes and
options of the preprocessor are for ocamlfind. -/
structure Caml where
  tool : Tool := .ocamlc
  exe : Text
  libSuffix : Text
  exeSuffix : Text := []
  includes : List Text := []
  libs : List Text := []
  cc : Option Text := none
  cLibs : List Text := []
  preFlags : List Text := []
  flags : List Text := []
  debug : Bool := false
  optimize : Bool := false
  debugFlags : List Text := ["-g".toList]
  optimizeFlags : List Text := []
  profile : Bool := false
  profileFlags : List Text := []
  packages : List Text := []
  syntaxes : List Text := []
  ppopts : List Text := []
  linkpkg : Bool := true

/-- the arguments of `_run` -/
structure RunArgs where
  dst : Text
  srcs : List Text
  includes : List Text := []
  libs : List Text := []
  external : List Text := []
  preFlags : List Text := []
  flags : List Text := []
  debug : Option Bool := none
  optimize : Option Bool := none
  custom : Bool := false
  cc : Option Text := none
  cLibs : List Text := []
  forPack : Option Text := none
  preprocessor : Option Text := none
  profile : Option Bool := none
  profileFlags : Option (List Text) := none
  packages : List Text := []
  syntaxes : List Text := []
  ppopts : List Text := []

/-- `(x is None and self.x) or x` as a condition (300-304) -/
def wanted (own : Bool) : Option Bool → Bool
  | none => own
  | some b => b

/-- an option with its argument, for each of the arguments -/
def pairs (option : Text) (xs : List Text) : List Text := xs.flatMap fun x => [option, x]

/-- an option with its argument, if there is one -/
def optional (option : Text) : Option Text → List Text
  | none => []
  | some x => [option, x]

/-- `cc = cc or self.cc` and `if cc` (318-320): an empty text counts as not given -/
def chosenCc (own given : Option Text) : Option Text :=
  match given with
  | some (c :: r) => some (c :: r)
  | _ => match own with
    | some (c :: r) => some (c :: r)
    | _ => none

/-- the words of the command of `Builder._run` (286-338).  `ex` is `Path.exists`. -/
def runWords (ex : Text → Bool) (buildroot : Text) (b : Caml) (a : RunArgs) : List Text :=
  let dst := Path.addroot a.dst buildroot                                                             -- 286
  [b.exe] ++ b.preFlags ++ a.preFlags                                                                 -- 296-298
    ++ (if wanted b.debug a.debug then b.debugFlags else [])                                          -- 300-301
    ++ (if wanted b.optimize a.optimize then b.optimizeFlags else [])                                 -- 303-304
    ++ pairs "-I".toList ((sortedSet (a.includes ++ b.includes) [(Posix.split dst).1]).filter ex)     -- 306-313
    ++ (if a.custom then ["-custom".toList] else [])                                                  -- 315-316
    ++ optional "-cc".toList (chosenCc b.cc a.cc)                                                     -- 318-320
    ++ pairs "-cclib".toList ((b.cLibs ++ a.cLibs).map fun l => if ex l then l else "-l".toList ++ l) -- 322-326
    ++ optional "-pp".toList a.preprocessor                                                           -- 328-329
    ++ optional "-for-pack".toList a.forPack                                                          -- 331-332
    ++ b.flags ++ a.flags                                                                             -- 334-335
    ++ ["-o".toList, dst]                                                                             -- 336
    ++ (b.libs ++ a.external ++ a.libs).map (fun l => if ex l then l else l ++ b.libSuffix)           -- 280, 289-294, 337
    ++ a.srcs                                                                                         -- 338

/-- `Builder._run` (264-344): the command; `none` is `AssertionError` (284). -/
def baseRun (ex : Text → Bool) (buildroot : Text) (b : Caml) (a : RunArgs) : Option (List Text) :=
  if a.srcs = [] ∧ b.libs ++ a.external ++ a.libs = [] then none else some (runWords ex buildroot b a)

/-- `_run` of `Ocamlcp` (692-697) and `Ocamlopt` (762-770): the flags for profiling -/
def profiled (b : Caml) (a : RunArgs) : RunArgs :=
  match b.tool with
  | .ocamlc => a
  | .ocamlcp => { a with flags := a.flags ++ a.profileFlags.getD b.profileFlags }
  | .ocamlopt => if wanted b.profile a.profile then { a with flags := a.flags ++ b.profileFlags } else a

/-- `_run` of ocamlfind's builders (ocamlfind.py:73-91) -/
def found (b : Caml) (a : RunArgs) : RunArgs :=
  { a with flags := a.flags ++ pairs "-package".toList (b.packages ++ a.packages)
                    ++ pairs "-syntax".toList (b.syntaxes ++ a.syntaxes) ++ pairs "-ppopt".toList (b.ppopts ++ a.ppopts) }

/-- `_run` of a builder, with ocamlfind or without -/
def run (ex : Text → Bool) (buildroot : Text) (b : Caml) (a : RunArgs) : Option (List Text) :=
  baseRun ex buildroot b (profiled b (found b a))

/-- `uncached_compile` (367-396) of a file in the build root, for `Ocamlc` and `Ocamlcp`: `dst` is the destination given or the
source, with the right suffix. -/
def compileArgs (a : RunArgs) (src dst : Text) : RunArgs :=
  { a with dst := dst, srcs := [src], preFlags := a.preFlags ++ ["-c".toList] }

/-- the compiler that `Ocamlopt` uses for interfaces, if none is given (714-718): it is made without any of the options of the
builder; ocamlfind (ocamlfind.py:227-231) adds the packages, syntaxes and options of the preprocessor -/
def ownOcamlc (exe libSuffix : Text) (b : Caml) : Caml :=
  { exe := exe, libSuffix := libSuffix, packages := b.packages, syntaxes := b.syntaxes, ppopts := b.ppopts, linkpkg := b.linkpkg }

/-- `uncached_compile` of `Ocamlopt` (784-790): interfaces are compiled by `self.ocamlc` -/
def nativeCompile (ex : Text → Bool) (buildroot : Text) (b ocamlc : Caml) (a : RunArgs) (src dst : Text) : Option (List Text) :=
  if endsWith src mli then run ex buildroot ocamlc (compileArgs a src dst)
  else run ex buildroot b (compileArgs a src dst)

/-- `uncached_link_lib` (443-452) and `_uncached_link` (459-465): libraries are ignored -/
def linkLibArgs (b : Caml) (a : RunArgs) (dst : Text) (srcs : List Text) : RunArgs :=
  { a with dst := dst ++ b.libSuffix, srcs := linked srcs, libs := [], external := [], preFlags := "-a".toList :: a.preFlags }

/-- `link_exe` of ocamlfind (ocamlfind.py:119-129), `uncached_link_exe` (454-457) and `_uncached_link` -/
def linkExeArgs (b : Caml) (find : Bool) (linkpkg : Option Bool) (a : RunArgs) (dst : Text) (srcs : List Text) : RunArgs :=
  { a with dst := dst ++ b.exeSuffix, srcs := linked srcs,
           flags := a.flags ++ (if find && wanted b.linkpkg linkpkg then ["-linkpkg".toList] else []) }

/-- What the constructor of `Ocamldep` stores (25-31, ocamlfind.py:13-30) -/
structure Dep where
  exe : Text
  preFlags : List Text := []
  flags : List Text := []
  packages : List Text := []
  syntaxes : List Text := []
  ppopts : List Text := []

/-- the command of `Ocamldep.modules` (34-49), with what ocamlfind adds (ocamlfind.py:32-52) -/
def depCommand (d : Dep) (preprocessor : Option Text) (flags packages syntaxes ppopts : List Text) (src : Text) : List Text :=
  [d.exe] ++ d.preFlags ++ ["-modules".toList] ++ optional "-pp".toList preprocessor ++ d.flags
    ++ (flags ++ pairs "-package".toList (d.packages ++ packages) ++ pairs "-syntax".toList (d.syntaxes ++ syntaxes)
      ++ pairs "-ppopt".toList (d.ppopts ++ ppopts))
    ++ [src]

/-- the flags that `build_objects` of ocamlfind passes to ocamldep (ocamlfind.py:93-117) -/
def depFlags (b : Caml) (flags packages syntaxes ppopts : List Text) : List Text :=
  flags ++ pairs "-package".toList (b.packages ++ packages) ++ pairs "-syntax".toList (b.syntaxes ++ syntaxes)
    ++ pairs "-ppopt".toList (b.ppopts ++ ppopts)

end Verif.Ocaml
