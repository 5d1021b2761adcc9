/-!
# Model of lib/fbuild/builders/c/gcc/__init__.py

The libraries (225-264) and include directories (186-193, 286) on the command line of `Gcc.__call__`, and the dependency
file read by `Builder.compile` (440-464).
-/
namespace Verif.Gcc

abbrev Text := List Char

/-! ## Libraries -/

/-- what the command line depends on for a library -/
structure Libs where
  /-- the libraries of a `fbuild.builders.c.Library`; none for a plain path -/
  deps : Nat → List Nat
  /-- it is a `Library`.  A `Library` is equal to no plain text (builders/c/__init__.py:282-292), so `lib in new_libs` is
  false for it. -/
  isLib : Nat → Bool
  /-- the library as a text, its path -/
  path : Nat → Text
  /-- the name of the library on the command line (248-254) -/
  name : Nat → Text

/-- `for l in lib.libs: f(l)` (245-246) -/
def each (f : Nat → List Text → Option (List Text)) : List Nat → List Text → Option (List Text)
  | [], new => some new
  | l :: ls, new =>
    match f l new with
    | none => none
    | some new => each f ls new

/-- The function `f` (230-257).  The number is the recursion limit; `none` is `RecursionError`. -/
def walk (g : Libs) : Nat → Nat → List Text → Option (List Text)
  | 0, _, _ => none
  | n + 1, lib, new =>
    if g.isLib lib = false ∧ g.path lib ∈ new then some new
    else match each (walk g n) (g.deps lib) new with
      | none => none
      | some new => some (if g.name lib ∈ new then new else new ++ [g.name lib])

/-- The names behind `-l`, in order (229-264). -/
def linkNames (g : Libs) (limit : Nat) (roots : List Nat) : Option (List Text) :=
  (each (walk g limit) roots []).map List.reverse

/-- `Path(lib).split()[1].name[len('lib'):].rsplit('.', 1)[0]` (248-254) for a file name without directory -/
def libName (file : Text) : Text :=
  let s := file.drop 3
  if '.' ∈ s then ((s.reverse.dropWhile (· ≠ '.')).drop 1).reverse else s

/-! ## Include directories -/

/-- the includes without repetitions (187-193) -/
def dedup : List Text → List Text → List Text
  | [], new => new
  | i :: is, new => dedup is (if i ∈ new then new else new ++ [i])

/-- insertion into a sorted list -/
def insertSorted (le : Text → Text → Bool) (x : Text) : List Text → List Text
  | [] => [x]
  | y :: ys => if le x y then x :: y :: ys else y :: insertSorted le x ys

/-- `sorted` -/
def sorted (le : Text → Text → Bool) : List Text → List Text
  | [] => []
  | x :: xs => insertSorted le x (sorted le xs)

/-- the arguments for the include directories (186-193, 286); `le` is the order of `sorted` -/
def includeArgs (le : Text → Text → Bool) (own given sourceDirs : List Text) : List Text :=
  ((sorted le (dedup (own ++ given ++ sourceDirs) [])).filter (· ≠ [])).map ("-I".toList ++ ·)

/-! ## The dependency file -/

/-! The contents of the file are characters here; the bytes that are no UTF-8, which raise an exception, are left out. -/

/-- the white space that `\s` matches in bytes -/
def isBlank (c : Char) : Bool :=
  c = ' ' || c = '\t' || c = '\n' || c = '\r' || c = '\x0b' || c = '\x0c'

/-- `replace(b'\\\n', b'')` (452) -/
def unfoldLines : Text → Text
  | '\\' :: '\n' :: s => unfoldLines s
  | c :: s => c :: unfoldLines s
  | [] => []

/-- the white space that `split()` splits at in texts -/
def isSpace (c : Char) : Bool :=
  isBlank c || (0x1c ≤ c.toNat && c.toNat ≤ 0x1f) || c.toNat = 0x85 || c.toNat = 0xa0 || c.toNat = 0x1680 ||
    (0x2000 ≤ c.toNat && c.toNat ≤ 0x200a) || c.toNat = 0x2028 || c.toNat = 0x2029 || c.toNat = 0x202f ||
    c.toNat = 0x205f || c.toNat = 0x3000

/-- `split()` -/
def splitBlank : Text → Text → List Text
  | cur, [] => if cur = [] then [] else [cur]
  | cur, c :: s =>
    if isSpace c then (if cur = [] then splitBlank [] s else cur :: splitBlank [] s)
    else splitBlank (cur ++ [c]) s

/-- `re.match(b'\s*\S+:(?: (.*))?$', s)` (455): `none` if it does not match, else the group 1. -/
def matchRule (s : Text) : Option (Option Text) :=
  let s := s.dropWhile isBlank
  let word := s.takeWhile (fun c => !isBlank c)
  let rest := s.dropWhile (fun c => !isBlank c)
  if word.getLast? = some ':' ∧ 2 ≤ word.length then
    match rest with
    | [] => some none
    | ['\n'] => some none
    | ' ' :: t =>
      let line := t.takeWhile (· ≠ '\n')
      match t.dropWhile (· ≠ '\n') with
      | [] => some (some line)
      | ['\n'] => some (some line)
      | _ => none
    | _ => none
  else none

/-- The files `compile` reports as external dependencies (452-462); `none` is `ExecutionError`. -/
def readDeps (contents : Text) : Option (List Text) :=
  match matchRule (unfoldLines contents) with
  | none => none
  | some none => some []
  | some (some s) => some (splitBlank [] s)

end Verif.Gcc
