import Verif.Path.Core
/-!
# Model of `Ocamllex` and `Ocamlyacc` (lib/fbuild/builders/ocaml/__init__.py 973-1048)

Files are texts by path.  The tool is a parameter: it gets the words of the command and the files, and gives the files as they are
afterwards, or fails.  Left out: how the program is found, the cache, the directories (they are made, 989 and 1030), and what is
logged.
-/
namespace Verif.Ocaml.Lex
open Verif.Path (Text)

abbrev Files := Text → Option Text

def Files.put (fs : Files) (p : Text) (t : Text) : Files := fun q => if q = p then some t else fs q

/-- a tool that is executed -/
abbrev Execute := List Text → Files → Option Files

/-- `exe` and `flags` of the object (974-979, 1008-1013) -/
structure Tool where
  exe : Text
  flags : List Text

/-- `buildroot or self.ctx.buildroot` (985, 1019) -/
def rootOf (own : Text) : Option Text → Text
  | some (c :: r) => c :: r
  | _ => own

/-- `Ocamllex.__call__` (981-1000): the file that is returned -/
def ocamllex (run : Execute) (t : Tool) (own : Text) (buildroot : Option Text) (flags : List Text) (src : Text) (fs : Files) :
    Option (Text × Files) :=
  let dst := Path.addroot (Path.replaceext src ".ml".toList) (rootOf own buildroot)                  -- 986
  (run ([t.exe] ++ ["-o".toList, dst] ++ t.flags ++ flags ++ [src]) fs).map fun fs => (dst, fs)      -- 989-1000

/-- `Ocamlyacc.__call__` (1015-1041): the files that are returned.  `Path.copy` raises if there is no source. -/
def ocamlyacc (run : Execute) (t : Tool) (own : Text) (buildroot : Option Text) (flags : List Text) (src : Text) (fs : Files) :
    Option ((Text × Text) × Files) :=
  let copy := Path.addroot src (rootOf own buildroot)                                                -- 1021
  let dsts := (Path.replaceext copy ".ml".toList, Path.replaceext copy ".mli".toList)                -- 1022-1025
  match (if src ≠ copy then (fs src).map fun t => fs.put copy t else some fs) with                   -- 1027-1030
  | none => none
  | some fs => (run ([t.exe] ++ t.flags ++ flags ++ [copy]) fs).map fun fs => (dsts, fs)             -- 1032-1041

end Verif.Ocaml.Lex
