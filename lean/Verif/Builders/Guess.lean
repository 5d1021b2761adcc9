/-!
# Model of lib/fbuild/builders/c/__init__.py: `identify_compiler` and `Guesser`

Sets are lists; a set object that the caller passes can be changed, so it lives on a heap.  What a builder function makes,
and the options it is called with, are parameters.
-/
namespace Verif.Guess

abbrev Text := String

/-! ## identify_compiler -/

/-- what running a program gives: its output, or `ExecutionError` -/
structure Ran where
  out : Text
  err : Text

/-- `x in s` for texts -/
def has (x s : Text) : Bool :=
  let rec go : List Char → Bool
    | [] => x.toList = []
    | c :: l => x.toList.isPrefixOf (c :: l) || go l
  go s.toList

/-- `identify_compiler` (c/__init__.py 336-372).  `version` is the outcome of `exe --version`, `plain` that of `exe`.  `none` if it
cannot be identified.  The dictionary `ccmap` is gone through in its order, and the last hit counts. -/
def identify (exe : Text) (version plain : Option Ran) : Option (List Text) :=
  if exe = "clang" ∨ exe = "clang++" then some ["clang", "clang++"]
  else if exe = "gcc" ∨ exe = "g++" ∨ exe = "colorgcc" then some ["gcc", "g++"]
  else if exe = "icc" ∨ exe = "icpc" then some ["icc", "icpc"]
  else if exe = "cl" ∨ exe = "cl.exe" then some ["msvc", "msvc++"]
  else match version with
    | none =>
      match plain with
      | none => none
      | some r => if has "Microsoft" r.out || has "Microsoft" r.err then some ["msvc", "msvc++"] else none
    | some r =>
      [("Free Software Foundation", ["gcc", "g++"]), ("clang", ["clang", "clang++"]), ("ICC", ["icc", "icpc"])].foldl
        (fun res cc => if has cc.1 r.out then some cc.2 else res) none

/-! ## Guesser -/

/-- an entry of `self.functions`: the platform it is for, and the names of the two functions -/
structure Entry where
  needs : List Text
  static : Text
  shared : Text

structure Guesser where
  compilers : List Text
  functions : List Entry

inductive Exc where
  | configFailed
  | nameError
  /-- whatever else a builder function or the parsing of the options raises -/
  | other (n : Nat)
  deriving DecidableEq

/-- The argument `platform`: not given, a frozenset, or a set object. -/
inductive Platform where
  | none
  | frozen (xs : List Text)
  | set (ref : Nat)

abbrev Heap := List (List Text)

/-- `subplatform <= platform` -/
def subset (a b : List Text) : Bool := a.all fun x => b.contains x

/-- `a | b` -/
def union (a b : List Text) : List Text := a ++ b.filter fun x => !a.contains x

/-- which builder is asked for: not at all (`None`), or with these arguments -/
structure Wanted (K : Type) where
  static : Option K
  shared : Option K

variable {K β : Type}

/-- what comes of one requested builder: nothing was asked for or it was made, the entry is given up (435-440), or an exception
ends the guess -/
inductive Outcome (β : Type) where
  | done (b : Option β)
  | givenUp
  | raised (x : Exc)

/-- One requested builder of one entry (413-440).  `opts` are the lines 423-432: copying and merging the arguments, and
`parse_platform_options` for the simplified platform; `make` is the call of the builder function. -/
def one (g : Guesser) (opts : List Text → K → Except Exc K) (make : Text → List Text → K → Except Exc β)
    (platform : List Text) (e : Entry) (function : Text) : Option K → Outcome β
  | none => .done none
  | some k =>
    match opts (union (platform.filter fun x => !g.compilers.contains x) e.needs) k with
    | .error x => .raised x
    | .ok k =>
      match make function platform k with
      | .error x => if x = .configFailed then .givenUp else .raised x
      | .ok b => .done (some b)

/-- The loop over the entries (408-448): the first entry for which nothing fails.  The two builders are
gone through in the order of the dictionary `builders` (406). -/
def search (g : Guesser) (opts : List Text → K → Except Exc K) (make : Text → List Text → K → Except Exc β)
    (platform : List Text) (w : Wanted K) : List Entry → Except Exc (Entry × Option β × Option β)
  | [] => .error .configFailed
  | e :: rest =>
    if subset e.needs platform then
      match one g opts make platform e e.static w.static with
      | .givenUp => search g opts make platform w rest
      | .raised x => .error x
      | .done a =>
        match one g opts make platform e e.shared w.shared with
        | .givenUp => search g opts make platform w rest
        | .raised x => .error x
        | .done b => .ok (e, a, b)
    else search g opts make platform w rest

/-- `platform |= xs` (401, 404): a set object is changed, a frozenset is replaced. -/
def update (host : List Text) (p : Platform) (xs : List Text) (h : Heap) : List Text × Heap :=
  match p with
  | .none => (union host xs, h)
  | .frozen ys => (union ys xs, h)
  | .set r => (union (h.getD r []) xs, h.set r (union (h.getD r []) xs))

/-- `Guesser.__call__` (387-448).  `host` is what `guess_platform` returns, a frozenset; `exe` comes with what `identify_compiler` says
of it.  If it cannot be identified, the message needs `name`, which does not exist (399).  The entry used is
returned with the two builders. -/
def Guesser.call (g : Guesser) (opts : List Text → K → Except Exc K)
    (make : Option Text → Text → List Text → K → Except Exc β) (host : List Text) (p : Platform)
    (exe : Option (Text × Option (List Text))) (w : Wanted K) (h : Heap) :
    Except Exc (Entry × Option β × Option β) × Heap :=
  match exe with
  | some (_, none) => (.error .nameError, h)
  | some (x, some tp) =>
    let (platform, h) := update host p (tp.filter fun c => g.compilers.contains c) h
    (search g opts (make (some x)) platform w g.functions, h)
  | none =>
    let (platform, h) := update host p g.compilers h
    (search g opts (make none) platform w g.functions, h)

/-- `guess` for C (c/__init__.py 451-472) -/
def guessC : Guesser where
  compilers := ["msvc", "gcc", "clang", "icc"]
  functions := [
    ⟨["windows", "msvc"], "fbuild.builders.c.msvc.static", "fbuild.builders.c.msvc.shared"⟩,
    ⟨["avr", "gcc"], "fbuild.builders.c.gcc.avr.static", "fbuild.builders.c.gcc.avr.shared"⟩,
    ⟨["iphone", "simulator", "gcc"], "fbuild.builders.c.gcc.iphone.static_simulator",
      "fbuild.builders.c.gcc.iphone.shared_simulator"⟩,
    ⟨["iphone", "gcc"], "fbuild.builders.c.gcc.iphone.static", "fbuild.builders.c.gcc.iphone.shared"⟩,
    ⟨["darwin", "clang"], "fbuild.builders.c.clang.darwin.static", "fbuild.builders.c.clang.darwin.shared"⟩,
    ⟨["darwin", "gcc"], "fbuild.builders.c.gcc.darwin.static", "fbuild.builders.c.gcc.darwin.shared"⟩,
    ⟨["clang"], "fbuild.builders.c.clang.static", "fbuild.builders.c.clang.shared"⟩,
    ⟨["gcc"], "fbuild.builders.c.gcc.static", "fbuild.builders.c.gcc.shared"⟩,
    ⟨["icc"], "fbuild.builders.c.intel.static", "fbuild.builders.c.intel.shared"⟩]

/-- `guess` for C++ (cxx/__init__.py 6-25) -/
def guessCxx : Guesser where
  compilers := ["msvc++", "g++", "clang++", "icpc"]
  functions := [
    ⟨["windows", "msvc++"], "fbuild.builders.cxx.msvc.static", "fbuild.builders.cxx.msvc.shared"⟩,
    ⟨["iphone", "simulator", "g++"], "fbuild.builders.cxx.gxx.iphone.static_simulator",
      "fbuild.builders.cxx.gxx.iphone.shared_simulator"⟩,
    ⟨["iphone", "g++"], "fbuild.builders.cxx.gxx.iphone.static", "fbuild.builders.cxx.gxx.iphone.shared"⟩,
    ⟨["darwin", "clang++"], "fbuild.builders.cxx.clangxx.darwin.static", "fbuild.builders.cxx.clangxx.darwin.shared"⟩,
    ⟨["darwin", "g++"], "fbuild.builders.cxx.gxx.darwin.static", "fbuild.builders.cxx.gxx.darwin.shared"⟩,
    ⟨["clang++"], "fbuild.builders.cxx.clangxx.static", "fbuild.builders.cxx.clangxx.shared"⟩,
    ⟨["g++"], "fbuild.builders.cxx.gxx.static", "fbuild.builders.cxx.gxx.static"⟩,
    ⟨["icpc"], "fbuild.builders.cxx.intelxx.static", "fbuild.builders.cxx.intelxx.shared"⟩]

end Verif.Guess
