import Verif.Path.Core
import Verif.Dict
import Verif.Gcc.Core
/-!
# Model of `lib/fbuild/builders/ocaml/__init__.py` and `lib/fbuild/builders/nm.py`

What a source file depends on, the closure of this, the order in which objects are linked, and the order in which
`nm` puts object files.
-/
namespace Verif.Ocaml
open Verif.Posix Verif.Path

/-! ## `Ocamldep` -/

/-- `stdout.strip()` for bytes -/
def strip (s : Text) : Text :=
  ((s.dropWhile Gcc.isBlank).reverse.dropWhile Gcc.isBlank).reverse

/-- `Ocamldep.modules` after `ocamldep -modules` was run (ocaml/__init__.py:52-65): the modules in its output.  The regular
expression is `\S+:(?: (.*))?$`; `none` is `ExecutionError`.  The output is characters here, not bytes. -/
def parseModules (stdout : Text) : Option (List Text) :=
  let s := strip stdout
  let word := s.takeWhile (fun c => !Gcc.isBlank c)
  if word.getLast? = some ':' ∧ 2 ≤ word.length then
    match s.dropWhile (fun c => !Gcc.isBlank c) with
    | [] => some []
    | ' ' :: t => if '\n' ∈ t then none else some (Gcc.splitBlank [] t)
    | _ => none
  else none

/-- What `source_dependencies` looks at.  `lower` and `upper` are Python's for the first letter of a module, assumed to
give one character.  Not modelled: include directories that are no directories or cannot be read. -/
structure World where
  /-- the names in the current directory -/
  cwd : List Text
  /-- the names in a directory; `none` if it does not exist -/
  dirs : Text → Option (List Text)
  /-- `Path.exists` -/
  exist : Text → Bool
  /-- `Ocamldep.modules`: the modules that a file refers to; `none` if this raises -/
  modules : Text → Option (List Text)
  lower : Char → Char
  upper : Char → Char

def mli : Text := ".mli".toList
def ml : Text := ".ml".toList

/-- `module[0].lower() + module[1:] + suffix`, and the same with `upper` (ocaml/__init__.py:99,102); an empty name raises
in Python, and is not returned by `split()`. -/
def fileName (f : Char → Char) (m suffix : Text) : Text :=
  match m with
  | [] => suffix
  | c :: rest => f c :: rest ++ suffix

/-- one round of the loop over the suffixes (ocaml/__init__.py:97-105) -/
def moduleFile (w : World) (names : List Text) (m suffix : Text) : Option Text :=
  if fileName w.lower m suffix ∈ names then some (fileName w.lower m suffix)
  else if fileName w.upper m suffix ∈ names then some (fileName w.upper m suffix)
  else none

/-- the inner function `f` (ocaml/__init__.py:74-114): the files appended to `deps` -/
def inNames (w : World) (names : List Text) (m : Text) : List Text := [mli, ml].filterMap (moduleFile w names m)

/-- `f(module, include)` for an include directory -/
def inInclude (w : World) (m inc : Text) : List Text :=
  match w.dirs inc with
  | none => []
  | some names => (inNames w names m).map (join inc)

/-- the loop over the modules (ocaml/__init__.py:116-120) -/
def moduleDeps (w : World) (includes : List Text) (m : Text) : List Text :=
  if inNames w w.cwd m ≠ [] then inNames w w.cwd m else includes.flatMap (inInclude w m)

/-- `src.endswith(suffix)` -/
def endsWith (src suffix : Text) : Bool := suffix.isSuffixOf src

/-- the interface of the file itself (ocaml/__init__.py:122-142); the loop over the includes is left in the first round -/
def interface (w : World) (includes : List Text) (buildroot src : Text) : List Text :=
  if endsWith src ml then
    let m := replaceext src mli
    if w.exist m then [m]
    else
      let m := removeroot m (buildroot ++ ['/'])
      if w.exist m then [m]
      else
        match includes with
        | [] => []
        | inc :: _ =>
          let p := join inc (split m).2
          if w.exist p then [p] else []
  else []

/-- `Ocamldep.source_dependencies` (ocaml/__init__.py:67-144) -/
def sourceDeps (w : World) (includes : List Text) (buildroot src : Text) : Option (List Text) :=
  (w.modules src).map (fun ms => ms.flatMap (moduleDeps w includes) ++ interface w includes buildroot src)

/-! ## `scan` -/

/-- `for dep in …: if dep not in deps: deps.add(dep); f(dep)` (ocaml/__init__.py:748-754) -/
def eachNew (f : Text → List Text → Option (List Text)) : List Text → List Text → Option (List Text)
  | [], deps => some deps
  | d :: ds, deps =>
    if d ∈ deps then eachNew f ds deps
    else
      match f d (deps ++ [d]) with
      | none => none
      | some deps' => eachNew f ds deps'

/-- the inner function of `Ocamlopt.scan` (ocaml/__init__.py:747-754), given what `source_dependencies` returns (`none`: it
raises).  The number is how many nested calls the recursion limit permits; `none` is an exception. -/
def visit (D : Text → Option (List Text)) : Nat → Text → List Text → Option (List Text)
  | 0, _, _ => none
  | n + 1, src, deps =>
    match D src with
    | none => none
    | some ds => eachNew (visit D n) ds deps

/-- `Ocamlopt.scan` (ocaml/__init__.py:740-758), executed -/
def scanNative (D : Text → Option (List Text)) (limit : Nat) (src : Text) : Option (List Text) := visit D limit src []

/-- `lookup` (ocaml/__init__.py:656-662): one file for each module, the interface if there is one -/
def lookup (ds : List Text) : Dict Text Text :=
  ds.foldl (fun t dep =>
    if (splitext dep).2 = mli ∨ (t.get? (splitext dep).1).isNone then t.set (splitext dep).1 dep else t) []

/-- `for dep in lookup.values(): deps.add(dep); deps.update(self.scan(dep))` (ocaml/__init__.py:665-668) -/
def eachDep (f : Text → Option (List Text)) : List Text → List Text → Option (List Text)
  | [], deps => some deps
  | d :: ds, deps =>
    match f d with
    | none => none
    | some s => eachDep f ds (deps ++ d :: s)

/-- `BytecodeBuilder.scan` (ocaml/__init__.py:650-670), executed -/
def scanByte (D : Text → Option (List Text)) : Nat → Text → Option (List Text)
  | 0, _ => none
  | n + 1, src =>
    match D src with
    | none => none
    | some ds => eachDep (scanByte D n) ((lookup ds).map Prod.snd) []

/-! ## Linking -/

/-- The object of a source file: `uncached_compile` and `_run` (ocaml/__init__.py:368-396,286). -/
def objectOf (buildroot objSuffix src : Text) : Text :=
  addroot (replaceext (addroot src buildroot) (if endsWith src mli then ".cmi".toList else objSuffix)) buildroot

/-- `_uncached_link` (ocaml/__init__.py:459-465): the objects on the command line -/
def linked (objs : List Text) : List Text := objs.filter (fun o => !endsWith o ".cmi".toList)

/-- `build_pack` (ocaml/__init__.py:527-556): the objects on the command line, from the objects that the caller gives and the
ones that `build_objects` returns -/
def packed (_given built : List Text) : List Text := linked built

/-- `_build_link` (ocaml/__init__.py:602-627): what is linked; with `pack` the given objects are passed to `build_pack`, and
the pack is linked -/
def linkObjects (pack : Option Text) (given built : List Text) : List Text :=
  match pack with
  | none => given ++ built
  | some p => [p]

/-! ## `Nm` -/

/-- the regular expression `^(\S+) ([ABCDGRSTU])` (nm.py:63) on a line: the symbol, and whether it is undefined -/
def nmLine (line : Text) : Option (Text × Bool) :=
  let word := line.takeWhile (fun c => !Gcc.isBlank c)
  if word = [] then none
  else
    match line.dropWhile (fun c => !Gcc.isBlank c) with
    | ' ' :: c :: _ => if c ∈ "ABCDGRSTU".toList then some (word, c = 'U') else none
    | _ => none

/-- `_run` (nm.py:50-74): the defined and the undefined symbols of an object.  They are sets in Python; in which order
they are gone through is left open by the theorems. -/
def nmSymbols (stdout : List Text) : List Text × List Text :=
  (stdout.filterMap (fun l => match nmLine l with | some (s, false) => some s | _ => none),
   stdout.filterMap (fun l => match nmLine l with | some (s, true) => some s | _ => none))

/-- `defined_symbols_lookup` (nm.py:20-28): the last object that defines a symbol -/
def definedBy (defined : Text → List Text) (objs : List Text) (symbol : Text) : Option Text :=
  objs.reverse.find? (fun o => symbol ∈ defined o)

/-- the loop over the undefined symbols (nm.py:35-42) -/
def eachSymbol (f : Text → List Text → Option (List Text)) (find : Text → Option Text) (obj : Text) :
    List Text → List Text → Option (List Text)
  | [], new => some new
  | s :: ss, new =>
    match find s with
    | none => eachSymbol f find obj ss new
    | some o =>
      if obj = o then eachSymbol f find obj ss new
      else
        match f o new with
        | none => none
        | some new' => eachSymbol f find obj ss new'

/-- the inner function `f` (nm.py:31-43); the number is the recursion limit -/
def place (undefined : Text → List Text) (find : Text → Option Text) : Nat → Text → List Text → Option (List Text)
  | 0, _, _ => none
  | n + 1, obj, new =>
    if obj ∈ new then some new
    else
      match eachSymbol (place undefined find n) find obj (undefined obj) new with
      | none => none
      | some new' => some (new' ++ [obj])

/-- `for obj in objs: f(obj)` (nm.py:45-46) -/
def placeAll (f : Text → List Text → Option (List Text)) : List Text → List Text → Option (List Text)
  | [], new => some new
  | o :: os, new =>
    match f o new with
    | none => none
    | some new' => placeAll f os new'

/-- `Nm.object_dependencies` (nm.py:18-48): the elements of the iterator that it returns -/
def objectDependencies (defined undefined : Text → List Text) (limit : Nat) (objs : List Text) : Option (List Text) :=
  (placeAll (place undefined (definedBy defined objs) limit) objs []).map List.reverse

end Verif.Ocaml
