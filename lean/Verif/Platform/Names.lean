import Verif.Platform.Guess
import Verif.Gcc.Command
import Verif.Gcc.Link
/-!
# Model of the functions of lib/fbuild/builders/platform.py that are given a platform (103-175)

The suffixes and prefixes themselves are in `Gcc/Link.lean`; here is which platform they are asked for, and
`runtime_env_libpath`.
-/
namespace Verif.Platform.Names
open Verif.Gcc

/-- `platform if platform else guess_platform(ctx)` (104, 113, 120, ...): `None` and the empty set are no platform -/
def chosen (guessed : List Text) : Option (List Text) → List Text
  | some (x :: xs) => x :: xs
  | _ => guessed

/-- `name in platform` -/
def has (p : List Text) : Platform := fun name => p.contains name.toList

/-- the file of a static library that is named by `static_lib_prefix` and `static_lib_suffix` (119-131) -/
def staticLib (guessed : List Text) (platform : Option (List Text)) (root dst : Text) : Text :=
  linkedFile root (staticLibPrefix (has (chosen guessed platform))) (staticLibSuffix (has (chosen guessed platform))) dst

/-- the file of a shared library, with `shared_lib_prefix` and `shared_lib_suffix` (142-156) -/
def sharedLib (guessed : List Text) (platform : Option (List Text)) (root dst : Text) : Text :=
  linkedFile root (sharedLibPrefix (has (chosen guessed platform))) (sharedLibSuffix (has (chosen guessed platform))) dst

/-- the file of a program, with `exe_suffix` (160-165) -/
def program (guessed : List Text) (platform : Option (List Text)) (root dst : Text) : Text :=
  linkedFile root [] (exeSuffix (has (chosen guessed platform))) dst

/-- `runtime_env_libpath` (169-176) -/
def runtimeEnvLibpath (guessed : List Text) (platform : Option (List Text)) : Text :=
  let p := has (chosen guessed platform)
  if p "windows" && !p "cygwin" then "PATH".toList
  else if p "darwin" then "DYLD_LIBRARY_PATH".toList
  else "LD_LIBRARY_PATH".toList

end Verif.Platform.Names
