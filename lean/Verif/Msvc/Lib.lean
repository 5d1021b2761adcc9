import Verif.Msvc.Core
import Verif.Gcc.Factory
/-!
# Model of the linkers in lib/fbuild/builders/c/msvc.py

`Lib` (165-229), `ExeLink` and `DllLink` (334-398), and the linkers that `static` (504-548) and `shared` (552-599) make.
The command line of `Link._run` is in `Msvc/Core.lean`, the compiler in `Msvc/Cl.lean`.  Programs are found by a parameter; the names
of the platform that is asked for, and of the machine that fbuild runs on, are parameters.  Left out: the messages of the log.
-/
namespace Verif.Msvc
open Gcc.Factory (Names orElse)
open Library (Obj)

/-- what a `Lib` keeps (178-187) -/
structure Lib where
  exe : Text
  pre : Text
  suffix : Text
  preFlags : List Text
  flags : List Text
  libpaths : List Obj
  libs : List Obj
  ldlibs : List Text
  external : List Obj

/-- `Lib.__init__` (166-187); `_pre` and `_suffix` are the arguments `prefix` and `suffix` -/
def makeLib (exe : Text) (_pre _suffix : Option Text) (preFlags flags : List Text) (libpaths libs : List Obj) (ldlibs : List Text)
    (external : List Obj) : Lib :=
  { exe, pre := [], suffix := ".lib".toList, preFlags, flags, libpaths, libs, ldlibs, external }

/-- the file of `Lib.__call__` (198-200), also of `Link._make_dst` (334-339); `root` is `buildroot or self.ctx.buildroot` -/
def Lib.file (l : Lib) (root dst : Text) : Text := Gcc.linkedFile root l.pre l.suffix dst

/-- the command of `Lib.__call__` (203-210); `a.dst` is the destination that is asked for -/
def Lib.command (l : Lib) (root : Text) (a : Args) : List Text :=
  [l.exe, "/nologo".toList] ++ l.preFlags ++ a.preFlags ++ ["/OUT:".toList ++ l.file root a.dst] ++ l.flags ++ a.flags ++
    a.srcs ++ (l.ldlibs ++ a.ldlibs)

/-- an `ExeLink` or `DllLink`: a `Link` with its names (232-252) -/
structure Named where
  linker : Linker
  pre : Text
  suffix : Text

/-- `ExeLink.__init__` (345-354); `host` are the names for `platform=None` -/
def exeLink (host : Names) (b : Linker) (pre suffix : Option Text) : Named :=
  { linker := b, pre := orElse pre [], suffix := orElse suffix host.exe }

/-- `DllLink.__init__` (364-374) -/
def dllLink (host : Names) (b : Linker) (pre suffix : Option Text) : Named :=
  { linker := b, pre := orElse pre host.sharedLibPrefix, suffix := orElse suffix host.sharedLibSuffix }

/-- `Link._make_dst` (334-339) -/
def Named.file (n : Named) (root dst : Text) : Text := Gcc.linkedFile root n.pre n.suffix dst

/-- `ExeLink.__call__` (356-361) -/
def Named.exeCommand (n : Named) (root : Text) (a : Args) : List Text :=
  Msvc.command n.linker { a with dst := n.file root a.dst }

/-- `DllLink.__call__` (376-387) -/
def Named.dllCommand (n : Named) (root : Text) (a : Args) : List Text :=
  Msvc.command n.linker { a with dst := n.file root a.dst, flags := a.flags ++ ["/DLL".toList] }

/-- The arguments of `static` and `shared` that the linkers depend on, and `exe` (504-519, 552-567). -/
structure LinkOptions where
  exe : Option Text := none
  libpaths : List Obj := []
  libs : List Obj := []
  external : List Obj := []
  linkFlags : List Text := []
  libLinkFlags : List Text := []
  exeLinkFlags : List Text := []
  libPrefix : Option Text := none
  libSuffix : Option Text := none
  exeSuffix : Option Text := none

/-- the `Link` of `static` and `shared` (541-546, 585-597): `find_program(ctx, ['link'])` and the arguments -/
def makeLink (find : Text → Text) (o : LinkOptions) (preFlags : List Text) : Linker :=
  { exe := find "link".toList, preFlags, flags := [], libpaths := o.libpaths, libs := o.libs, ldlibs := [], external := o.external }

/-- `lib_linker` of `static` (524-525, 534-540) -/
def staticLib (find : Text → Text) (o : LinkOptions) : Lib :=
  makeLib (find "lib".toList) (some []) (some ".lib".toList) (o.linkFlags ++ o.libLinkFlags) [] o.libpaths o.libs [] o.external

/-- `exe_linker` of `static` and `shared` (527-528, 541-546, 578-579, 592-597); `names` are those of the platform asked for -/
def exeLinker (find : Text → Text) (names host : Names) (o : LinkOptions) : Named :=
  exeLink host (makeLink find o (o.linkFlags ++ o.exeLinkFlags)) none (some (o.exeSuffix.getD names.exe))

/-- `lib_linker` of `shared` (572-576, 585-591) -/
def sharedLib (find : Text → Text) (names host : Names) (o : LinkOptions) : Named :=
  dllLink host (makeLink find o (o.linkFlags ++ o.libLinkFlags)) (some (o.libPrefix.getD names.sharedLibPrefix))
    (some (o.libSuffix.getD names.sharedLibSuffix))

end Verif.Msvc
