import Verif.Ocaml.Core

/-!
What a cached compilation or linking of OCaml tells the database besides its arguments and its result
(ocaml/__init__.py:346-364,398-407,428-440,794-820).
-/

namespace Verif.Ocaml.Rebuild

open Verif.Posix Verif.Path

def cmi : Text := ".cmi".toList
def cmx : Text := ".cmx".toList
def cmxa : Text := ".cmxa".toList

/-- `Builder._add_compile_dependencies` (ocaml/__init__.py:398-403): the further results that are reported -/
def compileDsts (exist : Text → Bool) (dst src : Text) : List Text :=
  if endsWith src ml && !exist (replaceext src mli) then [replaceext dst cmi] else []

/-- `Ocamlopt._add_compile_dependencies` (ocaml/__init__.py:794-798) -/
def nativeCompileDsts (exist : Text → Bool) (objSuffix dst src : Text) : List Text :=
  compileDsts exist dst src ++ [replaceext dst objSuffix]

/-- `Builder._add_compile_dependencies` (ocaml/__init__.py:405-406) in `BytecodeBuilder`: the further sources that are
reported, those of `scan`.  `none` is an exception. -/
def compileSrcs (w : World) (includes : List Text) (buildroot : Text) (limit : Nat) (src : Text) : Option (List Text) :=
  scanByte (sourceDeps w includes buildroot) limit src

/-- The same in `Ocamlopt`, whose `compile` leaves interfaces to the bytecode compiler (ocaml/__init__.py:772-780). -/
def nativeCompileSrcs (w : World) (includes : List Text) (buildroot : Text) (limit : Nat) (src : Text) :
    Option (List Text) :=
  if endsWith src mli then compileSrcs w includes buildroot limit src
  else scanNative (sourceDeps w includes buildroot) limit src

/-- `Ocamlopt._add_link_dependencies` (ocaml/__init__.py:805-808): the further sources -/
def linkSrcs (objSuffix libSuffix : Text) (srcs libs : List Text) : List Text :=
  (srcs.filter (fun s => endsWith s cmx)).map (replaceext · objSuffix) ++ libs.map (replaceext · libSuffix)

/-- `Ocamlopt._add_link_dependencies` (ocaml/__init__.py:810-815): the further results -/
def linkDsts (libSuffix dst : Text) : List Text :=
  if endsWith dst cmxa then [replaceext dst libSuffix] else []

end Verif.Ocaml.Rebuild
