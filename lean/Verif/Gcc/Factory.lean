import Verif.Gcc.Command
/-!
# Model of `static` and `shared` in lib/fbuild/builders/c/gcc/__init__.py

What a builder consists of that is made by `static` (499-547) or `shared` (551-601) with the default `make_...`, and the commands of
its compiler and linkers (347-417, 44-77).  The programs are found by a parameter.  Left out: the checks that the compiler works
and takes the flags, `ranlib`, the arguments `platform` (the names it leads to are a parameter) and `cross_compiler`.
-/
namespace Verif.Gcc.Factory
open Verif.Gcc

/-- the names of fbuild/builders/platform.py for the platform -/
structure Names where
  staticObj : Text
  sharedObj : Text
  sharedLibPrefix : Text
  sharedLibSuffix : Text
  exe : Text

/-- The arguments of `static` and `shared` (499-518, 551-570); `none` is an argument that is not given.  `exe` and `ar` are names
of programs; `cc` is what `make_cc` is given besides: `libpaths`, `libs` and the further arguments (its fields `exe` and `flags`
are not used). -/
structure Options where
  exe : Option Text := none
  ar : Option Text := none
  flags : List Text := []
  compileFlags : Option (List Text) := none
  linkFlags : List Text := []
  libLinkFlags : Option (List Text) := none
  exeLinkFlags : List Text := []
  objSuffix : Option Text := none
  libPrefix : Option Text := none
  libSuffix : Option Text := none
  exeSuffix : Option Text := none
  cc : Cc := { exe := [] }

/-- `Compiler.__init__` (348-357) -/
structure Compiler where
  cc : Cc
  flags : List Text
  suffix : Text

/-- `Linker.__init__` (384-394) -/
structure Linker where
  cc : Cc
  flags : List Text
  pre : Text
  suffix : Text

/-- `Ar.__init__` (17-41) -/
structure Ar where
  exe : Text
  flags : List Text
  pre : Text
  suffix : Text

structure Static where
  compiler : Compiler
  libLinker : Ar
  exeLinker : Linker

structure Shared where
  compiler : Compiler
  libLinker : Linker
  exeLinker : Linker

/-- Python's `x or y` for texts of which the first can be `None` -/
def orElse (x : Option Text) (y : Text) : Text :=
  match x with
  | none => y
  | some x => if x = [] then y else x

/-- `make_cc` (340-343): `find_program(ctx, [exe] if exe else ['gcc', 'cc'])` -/
def makeCc (find : List Text → Text) (o : Options) : Cc :=
  { o.cc with
    exe := find (match o.exe with
      | none => ["gcc".toList, "cc".toList]
      | some e => if e = [] then ["gcc".toList, "cc".toList] else [e])
    flags := [] }

/-- `static` (519-547); `ar` is not used -/
def static (find : List Text → Text) (names : Names) (o : Options) : Static :=
  let cc := makeCc find o
  { compiler := { cc, flags := o.flags ++ o.compileFlags.getD [], suffix := o.objSuffix.getD names.staticObj }
    libLinker := { exe := find ["ar".toList], flags := ["-rcs".toList], pre := orElse (some (orElse o.libPrefix "lib".toList)) "lib".toList,
                   suffix := orElse (some (orElse o.libSuffix ".a".toList)) ".a".toList }
    exeLinker := { cc, flags := o.flags ++ o.linkFlags ++ o.exeLinkFlags, pre := [], suffix := o.exeSuffix.getD names.exe } }

/-- `shared` (571-601) -/
def shared (find : List Text → Text) (names : Names) (o : Options) : Shared :=
  let cc := makeCc find o
  { compiler := { cc, flags := o.flags ++ o.compileFlags.getD ["-fPIC".toList], suffix := o.objSuffix.getD names.sharedObj }
    libLinker := { cc, flags := o.flags ++ o.linkFlags ++ o.libLinkFlags.getD ["-fPIC".toList, "-shared".toList],
                   pre := o.libPrefix.getD names.sharedLibPrefix, suffix := o.libSuffix.getD names.sharedLibSuffix }
    exeLinker := { cc, flags := o.flags ++ o.linkFlags ++ o.exeLinkFlags, pre := [], suffix := o.exeSuffix.getD names.exe } }

/-- The command of `Compiler.__call__` (359-376) for `src` with the arguments `a` of the call, of which `srcs`, `dst` and `preFlags`
are not used; `dst`, `suffix` are arguments too, `root` is the build directory. -/
def Compiler.command (g : LibFiles) (limit : Nat) (c : Compiler) (root src : Text) (dst suffix : Option Text) (a : Args) :
    Option (List Text) :=
  Gcc.command g limit c.cc { a with
    srcs := [src]
    dst := some (objectFile root (orElse suffix c.suffix) src dst)
    preFlags := "-c".toList :: c.flags }

/-- The command of `Linker.__call__` (396-412). -/
def Linker.command (g : LibFiles) (limit : Nat) (l : Linker) (root dst : Text) (pre suffix : Option Text) (a : Args) :
    Option (List Text) :=
  Gcc.command g limit l.cc { a with
    dst := some (linkedFile root (orElse pre l.pre) (orElse suffix l.suffix) dst)
    preFlags := l.flags }

/-- The command of `Ar.__call__` (62-77); `glob` is `Path.globall` of one pattern. -/
def Ar.command (glob : Text → List Text) (r : Ar) (root dst : Text) (srcs flags : List Text) (pre suffix : Option Text) : List Text :=
  [r.exe] ++ r.flags ++ flags ++ [linkedFile root (orElse pre r.pre) (orElse suffix r.suffix) dst] ++ srcs.flatMap glob

end Verif.Gcc.Factory
