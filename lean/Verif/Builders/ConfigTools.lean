import Verif.Posix
import Verif.Builders.Small
/-!
# Model of the tools that are asked for flags and directories

`LlvmConfig` of lib/fbuild/builders/llvm.py (9-108), `SDLConfig` of lib/fbuild/builders/sdl.py (9-54) and `PkgConfig` of
lib/fbuild/builders/pkg_config.py (9-50).  The program is a parameter: what it prints for its arguments, or that it fails.  `LlvmConfig.__call__`
and `PkgConfig.__call__` are cached methods without files (for the database see `Verif/DB`): here the database is the list of the answers so
far.  Left out: how the program is found and the check of its version (see `Verif/Builders`), further arguments of the methods, which become
part of the key, and `PkgConfig.cflags` and `libs`, which split the text (see `Verif/Builders/Small.lean`).
-/
namespace Verif.ConfigTools

abbrev Text := List Char

/-- what a program prints for its arguments; `none`: it fails (`ExecutionError`) -/
abbrev Tool := List Text → Option Text

/-- the answers in the database, for the arguments -/
abbrev Memo := List (List Text × Text)

/-- `SDLConfig.__call__` (sdl.py:24-27): the program is run each time -/
def ask (tool : Tool) (cmd : List Text) : Option Text := (tool cmd).map Small.strip

/-- `LlvmConfig.__call__` (llvm.py:24-27) and `PkgConfig.__call__` (pkg_config.py:16-20): cached -/
def askCached (tool : Tool) (memo : Memo) (cmd : List Text) : Option Text × Memo :=
  match memo.lookup cmd with
  | some r => (some r, memo)
  | none =>
    match ask tool cmd with
    | none => (none, memo)
    | some r => (some r, (cmd, r) :: memo)

/-- the methods of `LlvmConfig` -/
inductive Llvm where
  | version | prefix | srcRoot | objRoot | bindir | includedir | libdir | ocamlLibdir
  | cppflags | cflags | cxxflags | ldflags | libs | libnames | libfiles
  | components | targetsBuilt | hostTarget | buildMode
  deriving DecidableEq

/-- the arguments of the program for a method (llvm.py:29-105) -/
def Llvm.words (components : List Text) : Llvm → List Text
  | .version => ["--version".toList]
  | .prefix => ["--prefix".toList]
  | .srcRoot => ["--src-root".toList]
  | .objRoot => ["--src-root".toList]                              -- 41-43
  | .bindir => ["--bindir".toList]
  | .includedir => ["--includedir".toList]
  | .libdir | .ocamlLibdir => ["--libdir".toList]
  | .cppflags => "--cppflags".toList :: components
  | .cflags => "--cflags".toList :: components
  | .cxxflags => "--cxxflags".toList :: components
  | .ldflags => "--ldflags".toList :: components
  | .libs => "--libs".toList :: components
  | .libnames => "--libnames".toList :: components
  | .libfiles => "--libfiles".toList :: components
  | .components => ["--components".toList]
  | .targetsBuilt => ["--targets-built".toList]
  | .hostTarget => ["--host-target".toList]
  | .buildMode => ["--build-mode".toList]

/-- a method of `LlvmConfig`; `ocaml_libdir` is `libdir / 'ocaml'` (57-59) -/
def llvm (tool : Tool) (memo : Memo) (m : Llvm) (components : List Text) : Option Text × Memo :=
  let (r, memo) := askCached tool memo (m.words components)
  (if m = .ocamlLibdir then r.map fun d => Posix.join d "ocaml".toList else r, memo)

/-- the methods of `SDLConfig` -/
inductive Sdl where
  | version | prefix | execPrefix | cflags | libs | staticLibs
  deriving DecidableEq

/-- a method of `SDLConfig` (sdl.py:29-50) -/
def sdl (tool : Tool) : Sdl → Option Text
  | .version => ask tool ["--version".toList]
  | .prefix => ask tool ["--prefix".toList]
  | .execPrefix => ask tool ["--exec-prefix".toList]
  | .cflags => ask tool ["--cflags".toList]
  | .libs => ask tool ["--libs".toList]
  | .staticLibs => ask tool ["--static-libs".toList]

/-- `PkgConfig.modversion` (pkg_config.py:26-28) -/
def modversion (tool : Tool) (pkg : Text) (memo : Memo) : Option Text × Memo := askCached tool memo [pkg, "--modversion".toList]

end Verif.ConfigTools
