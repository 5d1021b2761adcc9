import Verif.Path.Core
/-!
# Model of the building of libraries and programs with the OCaml builders

`build_objects` (470-522), `build_pack` (527-562), `_build_link` (582-628) and `_link` (429-435) of `Builder`, and the builder `Ocaml` that makes
bytecode and native code (824-969), lib/fbuild/builders/ocaml/__init__.py.  A path stands for the file that is there (`File`); that different
sources have different objects is not part of it.  The compilers are a parameter (`Tools`).  `None` results are failures: a command that failed
or an exception.  Left out: options, include directories, the database; the libraries of the builder itself (`self.libs`) are none.
-/
namespace Verif.Ocaml.Both
open Verif.Path (addroot)

abbrev Text := List Char

/-- bytecode (`Ocamlc`) or native code (`Ocamlopt`) -/
inductive Kind where
  | byte | native
  deriving DecidableEq

/-- what the linker makes -/
inductive Mode where
  | lib | exe
  deriving DecidableEq

/-- A file that was made: the interface of a source, or objects, packed objects, libraries and programs with the sources that are in them. -/
inductive File where
  | cmi (src : Text)
  | obj (k : Kind) (srcs : List Text)
  | linked (k : Kind) (m : Mode) (srcs : List Text)
  deriving DecidableEq

/-- the commands: `-c`, `-pack`, and linking (the objects, then the libraries); `none` if the command fails -/
structure Tools where
  compile : Kind → Text → Option File
  pack : Kind → List File → Option File
  link : Kind → Mode → List File → List File → Option File

/-- `src.endswith('.mli')` -/
def isMli (src : Text) : Bool := ['.', 'm', 'l', 'i'].isSuffixOf src

/-- `obj.endswith('.cmi')`: the objects of interfaces -/
def isCmi : File → Bool
  | .cmi _ => true
  | _ => false

/-- `compile` of `Builder` (349-396) and of `Ocamlopt` (774-790), where interfaces are compiled by ocamlc -/
def compile (t : Tools) (k : Kind) (src : Text) : Option File :=
  if k = .native ∧ isMli src then t.compile .byte src else t.compile k src

/-- all or none -/
def every {A B : Type} (f : A → Option B) : List A → Option (List B)
  | [] => some []
  | x :: xs =>
    match f x with
    | none => none
    | some y => (every f xs).map (y :: ·)

/-- `build_objects` (470-522); `order` is the order in which `map_with_dependencies` returns the results -/
def buildObjects (t : Tools) (order : List Text → List Text) (k : Kind) (srcs : List Text) : Option (List File) :=
  every (compile t k) (order srcs)

/-- `build_pack` (527-562): the objects given are replaced by those of the sources (541-545) -/
def buildPack (t : Tools) (order : List Text → List Text) (k : Kind) (_objs : List File) (srcs : List Text) : Option File :=
  match buildObjects t order k srcs with
  | none => none
  | some objs => t.pack k (objs.filter fun o => !isCmi o)

/-- `link_lib` and `link_exe` (412-465): libraries are ignored for libraries (450), and the objects of interfaces are not linked (463).
`includes` is needed by `_link` (429): without it there is a `TypeError`. -/
def link (t : Tools) (k : Kind) (m : Mode) (includes : Bool) (objs libs : List File) : Option File :=
  if includes then
    t.link k m (objs.filter fun o => !isCmi o) (if m = .lib then [] else libs)
  else none

/-- `_build_link` (582-628) -/
def buildLink (t : Tools) (order : List Text → List Text) (k : Kind) (m : Mode) (pack : Bool) (objs : List File) (srcs : List Text)
    (libs : List File) : Option File :=
  if pack then
    match buildPack t order k objs srcs with
    | none => none
    | some o => link t k m true [o] libs
  else
    match buildObjects t order k srcs with
    | none => none
    | some os => link t k m true (objs ++ os) libs

/-- what a list of objects, sources or libraries of `Ocaml` consists of: `self.Tuple` or something else (955-960) -/
inductive Arg (A : Type) where
  | one (x : A)
  | both (b n : A)

def Arg.byte {A : Type} : Arg A → A
  | .one x => x
  | .both b _ => b

def Arg.native {A : Type} : Arg A → A
  | .one x => x
  | .both _ n => n

/-- `Ocaml._link` (949-969): the pair of the bytecode and the native result -/
def both {A : Type} (blink nlink : List A → List File → Option File) (srcs : List (Arg A)) (libs : List (Arg File)) : Option (File × File) :=
  match blink (srcs.map Arg.byte) (libs.map Arg.byte) with
  | none => none
  | some b => (nlink (srcs.map Arg.native) (libs.map Arg.native)).map fun n => (b, n)

/-- `Ocaml.build_lib` and `build_exe` (920-932); further arguments, such as `pack` and `objs`, go to both -/
def bothBuild (t : Tools) (order : List Text → List Text) (m : Mode) (pack : Bool) (objs : List File) (srcs : List (Arg Text))
    (libs : List (Arg File)) : Option (File × File) :=
  both (fun s l => buildLink t order .byte m pack objs s l) (fun s l => buildLink t order .native m pack objs s l) srcs libs

/-- `Ocaml.link_lib` and `link_exe` (883-902) -/
def bothLink (t : Tools) (m : Mode) (includes : Bool) (objs : List (Arg File)) (libs : List (Arg File)) : Option (File × File) :=
  both (fun s l => link t .byte m includes s l) (fun s l => link t .native m includes s l) objs libs

/-- `Ocaml.build_objects` (914-918): two lists, one after the other -/
def bothObjects (t : Tools) (order : List Text → List Text) (srcs : List Text) : Option (List File) :=
  match buildObjects t order .byte srcs with
  | none => none
  | some b => (buildObjects t order .native srcs).map (b ++ ·)

/-- what `Ocaml.compile` does: the result, or the exception -/
inductive Outcome where
  | pair (b n : File)
  | failed
  | nameError
  deriving DecidableEq

/-- `Ocaml._compile` (936-947): `src` is not a name of the function (941) -/
def bothCompile (t : Tools) (src : Text) : Outcome :=
  match compile t .byte src with
  | none => .failed
  | some _ => .nameError

/-! ## Where a packed object is put -/

/-- `x or y` of texts -/
def orElse (x : Option Text) (y : Text) : Text :=
  match x with
  | some (c :: r) => c :: r
  | _ => y

/-- the packed object: `build_pack` (534-535) puts `dst` below the buildroot and calls `_run`, without the buildroot, which puts it below
that of the context (279, 286) -/
def packDst (root : Text) (buildroot : Option Text) (dst suffix : Text) : Text :=
  addroot (addroot dst (orElse buildroot root) ++ suffix) root

end Verif.Ocaml.Both
