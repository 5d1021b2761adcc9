import Verif.Gcc.Command
import Verif.Path.Core
/-!
# Model of the command lines of the small builders

`Ghc` of lib/fbuild/builders/ghc.py, `Bison` of bison.py, `Llc` and `Llvm_as` of llvm.py, `Flx` and `Felix` of felix.py, and the flags
that `PkgConfig` of pkg_config.py returns.  `Path(x)` is `x` (POSIX).  Left out: the texts for the log, the making of directories and
the checks in the constructors.
-/
namespace Verif.Small
open Verif.Gcc (sorted leText)
open Verif.Path (Text)

/-- an option with its argument, if there is one (`if x is not None`) -/
def optional (option : Text) : Option Text → List Text
  | none => []
  | some x => [option, x]

/-- `a or b` of texts: an empty text counts as not given -/
def orText (a : Option Text) (b : Text) : Text :=
  match a with
  | some (c :: r) => c :: r
  | _ => b

/-! ## ghc -/

/-- the loop "Make sure we don't repeat flags" (ghc.py:39-44) -/
def newFlags : List Text → List Text → List Text
  | [], new => new
  | f :: rest, new => newFlags rest (if f ∈ new then new else new ++ [f])

/-- `Ghc.__call__` (25-51): the command -/
def ghc (exe : Text) (own preFlags flags : List Text) (odir hidir : Option Text) (dst : Text) (srcs : List Text) : List Text :=
  [exe] ++ preFlags ++ ["-o".toList, dst] ++ optional "-odir".toList odir ++ optional "-hidir".toList hidir
    ++ newFlags (own ++ flags) [] ++ srcs

/-- where `Builder.uncached_compile` puts the object (105-109) -/
def ghcObject (root objSuffix src : Text) (dst : Option Text) : Text :=
  Path.addroot (Path.replaceext (orText dst src) objSuffix) root

/-- `Builder.uncached_compile` (95-122): the command -/
def ghcCompile (exe root objSuffix : Text) (own preFlags flags : List Text) (odir hidir : Option Text) (src : Text)
    (dst : Option Text) : List Text :=
  let dst := ghcObject root objSuffix src dst
  ghc exe own (preFlags ++ ["-c".toList]) flags (some (orText odir (Posix.split dst).1)) (some (orText hidir (Posix.split dst).1)) dst [src]

/-- `Builder.uncached_link_exe` (132-140): the command -/
def ghcLink (exe root : Text) (own preFlags flags : List Text) (dst : Text) (objs : List Text) : List Text :=
  ghc exe own preFlags flags none none (Path.addroot dst root) objs

/-! ## bison -/

/-- the destination (bison.py:26-28): that given, or the source -/
def bisonDst (root ownSuffix src : Text) (suffix dst : Option Text) : Text :=
  Path.replaceext (Path.addroot (orText dst src) root) (orText suffix ownSuffix)

/-- `Bison.__call__` (17-47): the command.  The keywords of the call are parameters with the same names. -/
def bison (exe root ownSuffix : Text) (own : List Text) (src : Text) (dst suffix : Option Text) (verbose : Bool)
    (namePrefix : Option Text) (defines : Bool) (flags : List Text) : List Text :=
  [exe] ++ (if verbose then ["-v".toList] else []) ++ optional "-p".toList namePrefix ++ (if defines then ["-d".toList] else [])
    ++ own ++ flags ++ ["-o".toList, bisonDst root ownSuffix src suffix dst] ++ [src]

/-! ## llvm -/

/-- an option that is one word with its value -/
def joined (option : Text) : Option Text → List Text
  | none => []
  | some x => [option ++ x]

/-- `Llc.__call__` (llvm.py:121-148): the command.  `own` is `self.flags`. -/
def llc (exe : Text) (_own preFlags flags : List Text) (dst arch relocation filetype : Option Text) (args : List Text) : List Text :=
  [exe] ++ preFlags ++ optional "-o".toList dst ++ joined "-march=".toList arch ++ joined "-relocation-model=".toList relocation
    ++ joined "-filetype=".toList filetype ++ flags ++ args

/-- `Llvm_as.__call__` (173-188): the command -/
def llvmAs (exe : Text) (_own preFlags flags : List Text) (src : Text) (dst : Option Text) : List Text :=
  [exe] ++ preFlags ++ ["-o".toList, Path.replaceext (orText dst src) ".bc".toList] ++ flags ++ [src]

/-! ## felix -/

/-- What the constructor of `Flx` stores (felix.py:15-22) -/
structure Flx where
  exe : Text
  includes : List Text := []
  debug : Bool := false
  flags : List Text := []

/-- `if stdout` (46-47) -/
def stdoutWords : Option Text → List Text
  | some (c :: r) => ["--stdout=".toList ++ c :: r]
  | _ => []

/-- `Flx.__call__` (28-57): the command -/
def flx (ex : Text → Bool) (f : Flx) (src : Text) (includes : List Text) (debug : Option Bool) (static : Bool) (stdout : Option Text)
    (flags : List Text) : List Text :=
  [f.exe] ++ (if debug.getD f.debug then ["--debug".toList] else []) ++ (if static then ["--static".toList] else [])
    ++ stdoutWords stdout
    ++ ((sorted leText includes).filter ex).map (fun i => "-I".toList ++ i) ++ f.flags ++ flags ++ [src]

/-- What the constructor of `Felix` stores (87-104).  The flags are given to `Flx` as well, the includes are not (96). -/
structure Felix where
  exe : Text
  exeSuffix : Text
  libSuffix : Text
  static : Bool := false
  debug : Bool := false
  includes : List Text := []
  flags : List Text := []

def Felix.flx (f : Felix) : Flx := { exe := f.exe, debug := f.debug, flags := f.flags }

/-- `Felix.uncached_compile` (111-153): the command, and the file that is returned -/
def felixCompile (ex : Text → Bool) (root : Text) (f : Felix) (src : Text) (static : Option Bool) (includes flags : List Text)
    (debug : Option Bool) : List Text × Text :=
  let moved := Path.addroot src root
  let static := static.getD f.static
  (Small.flx ex f.flx moved (Gcc.dedup (includes ++ f.includes ++ [(Posix.split moved).1]) []) debug static none
      (["-c".toList] ++ f.flags ++ flags),
    Path.replaceext moved (if static then f.exeSuffix else f.libSuffix))

/-! ## pkg-config -/

/-- `c.isspace()` for the characters that matter here: blank, tab, newline and so on -/
def blank (c : Char) : Bool := c = ' ' || ('\t' ≤ c && c ≤ '\r') || ('\x1c' ≤ c && c ≤ '\x1f')

/-- `s.strip()` -/
def strip (s : Text) : Text := ((s.dropWhile blank).reverse.dropWhile blank).reverse

/-- `s.split(' ')`: `cur` is the word so far -/
def splitBlank : Text → Text → List Text
  | [], cur => [cur]
  | c :: r, cur => if c = ' ' then cur :: splitBlank r [] else splitBlank r (cur ++ [c])

/-- `PkgConfig.cflags` and `libs` (pkg_config.py:19-38): the list that is returned if the tool prints `out` -/
def pkgFlags (out : Text) : List Text := splitBlank (strip out) []

end Verif.Small
