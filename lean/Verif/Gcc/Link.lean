import Verif.Gcc.Command
/-!
# Objects of programs and libraries

Model of `Builder._build_link` of `lib/fbuild/builders/c/__init__.py` (139-171), as far as the names of files are concerned, and of
the suffixes and prefixes of `lib/fbuild/builders/platform.py` (103-164).
-/
namespace Verif.Gcc

/-- `self.ctx.buildroot / 'obj' / dst` (c/__init__.py 162): where the objects of the program or library `dst` go -/
def objDir (root dst : Text) : Text := Posix.join (Posix.join root "obj".toList) dst

/-- The object file of a source of the program or library `dst` (c/__init__.py 155-163, then gcc/__init__.py 367). -/
def targetObject (root suffix dst src : Text) : Text := objectFile (objDir root dst) suffix src none

/-- A platform is a set of names; `windows` and so on are asked for. -/
abbrev Platform := String → Bool

/-- `static_obj_suffix` (platform.py 112-117) -/
def staticObjSuffix (p : Platform) : Text := if p "windows" then "_static.obj".toList else ".o".toList

/-- `shared_obj_suffix` (platform.py 135-140) -/
def sharedObjSuffix (p : Platform) : Text := if p "windows" then "_shared.obj".toList else ".os".toList

/-- `static_lib_prefix` (platform.py 119-124) -/
def staticLibPrefix (p : Platform) : Text := if p "windows" && !p "mingw" then [] else "lib".toList

/-- `static_lib_suffix` (platform.py 126-131) -/
def staticLibSuffix (p : Platform) : Text := if p "windows" && !p "mingw" then ".lib".toList else ".a".toList

/-- `shared_lib_prefix` (platform.py 142-147) -/
def sharedLibPrefix (p : Platform) : Text := if p "windows" || p "mingw" || p "cygwin" then [] else "lib".toList

/-- `shared_lib_suffix` (platform.py 149-156) -/
def sharedLibSuffix (p : Platform) : Text :=
  if p "windows" || p "mingw" || p "cygwin" then ".dll".toList
  else if p "darwin" then ".dylib".toList
  else ".so".toList

/-- `exe_suffix` (platform.py 160-165) -/
def exeSuffix (p : Platform) : Text := if p "windows" then ".exe".toList else []

end Verif.Gcc
