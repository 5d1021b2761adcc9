import Verif.Calls.Tools
import Verif.Gcc.Factory
/-!
# C projects: the builder of lib/fbuild/builders/c/gcc/__init__.py on top of the database

The cached methods `Builder.compile` (439-464), `AbstractCompiler.build_objects` (lib/fbuild/builders/__init__.py:140-165) and
`link_exe`, `link_lib` (lib/fbuild/builders/__init__.py:197-204, 269-276), with the names of files and the command lines of
`Verif/Gcc/Factory.lean` and the reading of the dependency file of `Verif/Gcc/Core.lean`, and `build_exe`, `build_lib` of
lib/fbuild/builders/__init__.py:209-214, 282-287.  The builder is one of `shared`: libraries are linked, not archived.

The programs that are run are a parameter: for the words of a command, what is done after certain files were read.  The builder,
`ckwargs` and `lkwargs` are the same for all calls of a project.  The objects are compiled before the dependency file is read; here
the files are reported just before the object is written, which is the same for the database.  Left out: makedirs, the log.
-/
namespace Verif.Gcc.Project
open Verif.DB Verif.Calls Verif.Gcc.Factory

/-- what is linked: a library or an executable, and the name that is given for it -/
structure Output where
  lib : Bool
  name : Text
  deriving DecidableEq

/-- the cached method that links it -/
def Output.method (d : Output) : FunName := if d.lib then "link_lib" else "link_exe"

/-- the arguments of one `build_exe(dst, srcs, libs=libs)` or `build_lib(dst, srcs, libs=libs)` -/
structure Target where
  dst : Output
  srcs : List Text
  libs : List Nat

structure Project where
  root : Text
  compiler : Compiler
  libLinker : Linker
  exeLinker : Linker
  /-- the libraries that there are -/
  libs : LibFiles
  limit : Nat
  ckwargs : Args := { srcs := [] }
  lkwargs : Args := { srcs := [] }
  /-- the temporary file for the dependencies -/
  dep : Text
  targets : List Target

/-- the calls of cached methods: `compile(src)`, `build_objects(srcs)`, `link_exe(dst, objs, libs=libs)` or `link_lib(...)` -/
inductive Call where
  | compile (src : Text)
  | objects (srcs : List Text)
  | link (dst : Output) (objs : List Text) (libs : List Nat)
  deriving DecidableEq

variable (P : Project)

/-- the object file of a source (363-367) -/
def Project.object (src : Text) : Text := objectFile P.root P.compiler.suffix src none

/-- the linker (487-494) -/
def Project.linker (dst : Output) : Linker := if dst.lib then P.libLinker else P.exeLinker

/-- the file that is linked (401-405) -/
def Project.file (dst : Output) : Text := linkedFile P.root (P.linker dst).pre (P.linker dst).suffix dst.name

/-- the command of `compile(src)` (444-450, 359-376) -/
def Project.compileCommand (src : Text) : Option (List Text) :=
  P.compiler.command P.libs P.limit P.root src none none
    { P.ckwargs with flags := ["-MMD".toList, "-MF".toList, P.dep] ++ P.ckwargs.flags }

/-- the command of `link_exe(dst, objs, libs=libs)` or `link_lib(...)` (396-412) -/
def Project.linkCommand (dst : Output) (objs : List Text) (libs : List Nat) : Option (List Text) :=
  (P.linker dst).command P.libs P.limit P.root dst.name none none { P.lkwargs with srcs := objs, libs := libs }

/-- the calls that the targets of a project lead to -/
def Project.calls : List Call :=
  P.targets.flatMap fun t => .objects t.srcs :: .link t.dst (t.srcs.map P.object) t.libs :: t.srcs.map .compile

/-- the calls of a project, as arguments for `Verif/Calls` -/
abbrev Project.Arg := { c : Call // c ∈ P.calls }

/-- a call as argument -/
def Project.arg? (c : Call) : Option P.Arg := if h : c ∈ P.calls then some ⟨c, h⟩ else none

/-- What the programs do: for the words of a command and the files read so far. -/
abbrev Programs := List Text → List (FileName × Content) → Next

/-- a command that cannot be made is an error -/
def runCommand (run : Programs) : Option (List Text) → List (FileName × Content) → Next
  | none, _ => .error
  | some cmd, seen => run cmd seen

/-- a name that no file has, for each function and call -/
def Project.nowhere (f : FunName) (c : Call) : FileName :=
  String.ofList (List.replicate (3 * P.calls.idxOf c + (if f = "compile" then 1 else if f = "link_exe" then 2 else 3)) '\x00')

/-- The cached methods as `Tools`: what they declare, the file they write, the program they run.  A method is called with its own
arguments only; for the others there is a name that no file has. -/
def Project.tools (run : Programs) (most : Nat) (text : Digest) : Tools P.Arg where
  srcs f b := match b.1 with
    | .compile src => if f = "compile" then [String.ofList src] else []
    | .objects srcs => if f = "build_objects" then srcs.map String.ofList else []
    | .link dst objs libs => if f = dst.method then (objs ++ libs.map P.libs.path).map String.ofList else []
  out f b := match b.1 with
    | .compile src => if f = "compile" then String.ofList (P.object src) else P.nowhere f b.1
    | .link dst _ _ => if f = dst.method then String.ofList (P.file dst) else P.nowhere f b.1
    | .objects _ => P.nowhere f b.1
  next f _ b seen := match b.1 with
    | .compile src => if f = "compile" then runCommand run (P.compileCommand src) seen else .error
    | .link dst objs libs => if f = dst.method then runCommand run (P.linkCommand dst objs libs) seen else .error
    | .objects _ => .error
  most _ _ := most
  reports f := f = "compile"
  group f := f ≠ "compile" ∧ f ≠ "link_exe" ∧ f ≠ "link_lib"
  parts f b := match b.1 with
    | .objects srcs => if f = "build_objects" then (srcs.filterMap fun s => P.arg? (.compile s)).map fun b => ("compile", b) else []
    | _ => []
  text f := if f = "compile" then some text else none

/-- `Builder.compile` (439-464): the compiler runs; then the dependency file, which is what `depText` says for the object and the
files that were read, is read and its files are reported.  `none` from `readDeps` is `ExecutionError`. -/
def compileProg {B : Type} (depText : Text → List Text → Text) (next : List (FileName × Content) → Next) (obj : Text) :
    Nat → List (FileName × Content) → Prog B (List FileName)
  | 0, _ => .raise
  | n + 1, seen =>
    match next seen with
    | .error => .raise
    | .more x => .read x fun
      | none => .raise
      | some c => compileProg depText next obj n (seen ++ [(x, c)])
    | .done o =>
      match readDeps (depText obj (seen.map fun q => q.1.toList)) with
      | none => .raise
      | some deps => .report (deps.map String.ofList) [] (.write (String.ofList obj) (some o) (.ret [String.ofList obj]))

/-- the bodies of the cached methods -/
def Project.script (run : Programs) (depText : Text → List Text → Text) (most : Nat) (text : Digest) : Script P.Arg (List FileName) :=
  fun f code b =>
    match b.1 with
    | .compile src =>
      if f = "compile" then compileProg depText (runCommand run (P.compileCommand src)) (P.object src) most []
      else (P.tools run most text).script f code b
    | _ => (P.tools run most text).script f code b

/-- `build_exe(dst, srcs, libs=libs)` or `build_lib(...)` (builders/__init__.py:209-214, 282-287) for a target, with the sources compiled in threads: `order` is
the order of the steps of the threads, `mine` are the tasks that the waiting thread executes.  The steps of `compile` are those of
`script`. -/
def Project.buildTarget (run : Programs) (depText : Text → List Text → Text) (most : Nat) (text : Digest) (clk : Nat → Nat) (limit : Nat)
    (mine : Nat → Bool) (order : List Nat) (t : Target) (m : Mach P.Arg (List FileName)) :
    Option (List FileName) × Mach P.Arg (List FileName) :=
  let sg := (P.tools run most text).sig
  let script := P.script run depText most text
  match P.arg? (.objects t.srcs) with
  | none => (none, m)
  | some b =>
    match groupCall sg script clk limit (fun _ => []) mine "compile" (t.srcs.filterMap fun s => P.arg? (.compile s)) List.flatten order
        "build_objects" b m with
    | (none, _, m1) => (none, m1)
    | (some objs, _, m1) =>
      -- a list of objects that is not that of the target does not occur; the call would raise
      build sg script clk limit (makeAll [(t.dst.method, fun _ => (P.arg? (.link t.dst (objs.map String.toList) t.libs)).getD b)] [objs]) m1

/-- how the threads of one build work: the clock, the tasks of the waiting thread, the order of the steps -/
structure Threads where
  clk : Nat → Nat
  mine : Nat → Bool
  order : List Nat

/-- A script that builds targets, one after the other, and stops at the first that raises. -/
def Project.buildAll (run : Programs) (depText : Text → List Text → Text) (most : Nat) (text : Digest) (limit : Nat) :
    List (Target × Threads) → Mach P.Arg (List FileName) → Bool × Mach P.Arg (List FileName)
  | [], m => (true, m)
  | (t, w) :: ts, m =>
    match P.buildTarget run depText most text w.clk limit w.mine w.order t m with
    | (some _, m1) => Project.buildAll run depText most text limit ts m1
    | (none, m1) => (false, m1)

end Verif.Gcc.Project
