/-!
# Model of `guess_platform` in lib/fbuild/builders/platform.py

Sets are lists.  What the system says is a parameter.  The cache of `guess_platform` is not part of this model (see `DB/`), nor
what is logged.  `lower` and `strip` are those of Python for the characters of ASCII; `uname` is assumed to print UTF-8.
-/
namespace Verif.Platform.Guess

abbrev Text := List Char

/-- `archmap` (22-50) -/
def archmap : List (Text × List Text) :=
  [("irix", ["posix", "irix"]),
   ("irix64", ["posix", "irix", "irix64"]),
   ("unix", ["posix"]),
   ("posix", ["posix"]),
   ("linux", ["posix", "linux"]),
   ("gnu/linux", ["posix", "linux"]),
   ("solaris", ["posix", "solaris"]),
   ("sunos", ["posix", "solaris", "sunos"]),
   ("cygwin", ["posix", "cygwin", "windows"]),
   ("nocygwin", ["posix", "cygwin", "nocygwin", "windows"]),
   ("mingw", ["posix", "mingw", "windows"]),
   ("windows", ["windows", "win32"]),
   ("nt", ["windows", "win32", "nt"]),
   ("win32", ["windows", "win32"]),
   ("win64", ["windows", "win64"]),
   ("windows32", ["windows", "win32"]),
   ("windows64", ["windows", "win64"]),
   ("freebsd", ["posix", "bsd", "freebsd"]),
   ("netbsd", ["posix", "bsd", "netbsd"]),
   ("openbsd", ["posix", "bsd", "openbsd"]),
   ("darwin", ["posix", "bsd", "darwin", "macosx"]),
   ("osx", ["posix", "bsd", "darwin", "macosx"]),
   ("iphone", ["posix", "bsd", "darwin", "iphone"]),
   ("iphone-sim", ["posix", "bsd", "darwin", "iphone", "simulator"]),
   ("iphone-simulator", ["posix", "bsd", "darwin", "iphone", "simulator"])].map fun x => (x.1.toList, x.2.map String.toList)

/-- what comes of the program `uname` -/
inductive Uname where
  /-- `find_program` raises `MissingProgram` -/
  | missing
  /-- `execute` raises `ExecutionError` -/
  | fails
  | prints (out : Text)

structure System where
  /-- `os.name == 'nt'` -/
  nt : Bool
  /-- `platform.system()` -/
  system : Text
  uname : Uname

inductive Outcome where
  | platform (p : List Text)
  | unknownPlatform (arch : Text)
  | keyError
  deriving DecidableEq

/-- `s.lower()` -/
def lower (s : Text) : Text := s.map Char.toLower

/-- the characters that `strip` takes away -/
def blank (c : Char) : Bool := c = ' ' || ('\t' ≤ c && c ≤ '\r') || ('\x1c' ≤ c && c ≤ '\x1f')

/-- `s.strip()` -/
def strip (s : Text) : Text := ((s.dropWhile blank).reverse.dropWhile blank).reverse

/-- the name that the system gives itself (70-86) -/
def System.arch (s : System) : Text :=
  match s.uname with
  | .missing | .fails => lower s.system
  | .prints out => lower (strip out)

/-- lines 88-99 -/
def ofArch (arch : Text) : Outcome :=
  let arch := if "mingw32".toList.isPrefixOf arch then "mingw".toList
    else if "cygwin".toList.isPrefixOf arch then "cygwin".toList else arch
  match archmap.lookup arch with
  | none => .unknownPlatform arch
  | some p => .platform p

/-- `guess_platform` (54-99) -/
def guess (s : System) (arch : Option Text) : Outcome :=
  match arch with
  | some a => ofArch a
  | none =>
    if s.nt then
      match archmap.lookup (lower s.system) with
      | none => .keyError
      | some p => .platform p
    else ofArch s.arch

end Verif.Platform.Guess
