import Verif.Calls.Clean
/-!
# Builds in which cached functions run tools

`Builder.compile` (lib/fbuild/builders/c/gcc/__init__.py:439-464), `AbstractLibLinker.link_lib` and
`AbstractExeLinker.link_exe` (lib/fbuild/builders/__init__.py:197-204, 269-276): each runs a program that reads files and
writes one file.  `compile` reports what the compiler read (`-MMD`); the linkers report nothing.
`AbstractCompiler.build_objects` (lib/fbuild/builders/__init__.py:140-165) calls `compile` for each source and reports the files
of these calls.  `build_lib` and `build_exe` (lib/fbuild/builders/__init__.py:209-214, 282-287) are not cached: they call
`build_objects` and then a linker with the object files.

`scheduler.map` may make the calls of `compile` at the same time: `buildThreads`.  In the other definitions they are made one after
the other, and the files of a call are reported when it returns, not when all have returned.
-/
namespace Verif.Calls
open Verif.DB

/-- What a tool does when it has read these files: it opens another one, writes its output, or fails. -/
inductive Next where
  | more (x : FileName)
  | done (out : Content)
  | error

/-- The cached functions of a project: for a function, its text and its arguments. -/
structure Tools (B : Type) where
  /-- the declared sources: the files given for parameters annotated with `SRC` and `SRCS` -/
  srcs : FunName → B → List FileName
  /-- the file that is written and returned (`-> DST`) -/
  out : FunName → B → FileName
  next : FunName → Digest → B → List (FileName × Content) → Next
  /-- how many files it may read -/
  most : FunName → B → Nat
  /-- the files read are reported with `add_external_dependencies_to_call` -/
  reports : FunName → Bool
  /-- this function runs no tool: it is `build_objects` -/
  group : FunName → Bool := fun _ => false
  /-- the calls of `compile` that it makes -/
  parts : FunName → B → List (FunName × B) := fun _ _ => []
  /-- the texts of the functions that it calls -/
  text : FunName → Option Digest := fun _ => none

variable {B : Type}

/-- The tool runs.  A file that cannot be opened is an error, and then nothing is written. -/
def toolProg (next : List (FileName × Content) → Next) (reports : Bool) (out : FileName) :
    Nat → List (FileName × Content) → Prog B (List FileName)
  | 0, _ => .raise
  | n + 1, seen =>
    match next seen with
    | .error => .raise
    | .more x => .read x fun
      | none => .raise
      | some c => toolProg next reports out n (seen ++ [(x, c)])
    | .done o => .report (if reports then seen.map (·.1) else []) [] (.write out (some o) (.ret [out]))

/-- `build_objects` (builders/__init__.py:140-165): `compile.call` for each source; the results are collected. -/
def groupProg : List (FunName × B) → List FileName → Prog B (List FileName)
  | [], objs => .ret objs
  | c :: cs, objs => .callD true c.1 c.2 fun
    | none => .raise
    | some o => groupProg cs (objs ++ o)

def Tools.script (T : Tools B) : Script B (List FileName) := fun f code b =>
  if T.group f then groupProg (T.parts f b) []
  else toolProg (T.next f code b) (T.reports f) (T.out f b) (T.most f b) []

/-- all results are destinations: `-> DST`, and `-> DSTS` for `build_objects` -/
def Tools.sig (T : Tools B) : Sig B (List FileName) where
  srcs f _ b := T.srcs f b
  dsts _ _ _ := []
  returnDsts _ _ r := r

/-- A call that a script makes; the arguments may depend on the values that earlier calls returned. -/
abbrev Step (B : Type) := FunName × (List (List FileName) → B)

/-- A script that makes these calls, one after the other, and stops at the first that raises. -/
def makeAll : List (Step B) → List (List FileName) → Prog B (List FileName)
  | [], rs => .ret rs.flatten
  | c :: cs, rs => .call c.1 (c.2 rs) fun
    | none => .raise
    | some r => makeAll cs (rs ++ [r])

/-- `build_exe`, `build_lib` (builders/__init__.py:209-214, 282-287): `objects` is `build_objects`, called with `b`; the linker gets
the object files (and those given by the caller, the name of the file, the libraries). -/
def buildSteps (objects : FunName) (b : B) (link : FunName) (arg : List FileName → B) : List (Step B) :=
  [(objects, fun _ => b), (link, fun rs => arg (rs.getLast?.getD []))]

/-- The same, if the calls of `compile`, for the arguments `srcs`, are made in threads (builders/__init__.py:153, sched.py); the
threads make their steps in the order given, and `mine` are the tasks that the waiting thread executes. -/
def Tools.buildThreads [DecidableEq B] (T : Tools B) (clk : Nat → Nat) (limit : Nat) (mine : Nat → Bool) (order : List Nat)
    (objects : FunName) (b : B) (compile : FunName) (srcs : List B) (link : FunName) (arg : List FileName → B)
    (m : Mach B (List FileName)) : Option (List FileName) × Mach B (List FileName) :=
  match groupCall T.sig T.script clk limit (fun _ => []) mine compile srcs List.flatten order objects b m with
  | (some objs, _, m1) => build T.sig T.script clk limit (makeAll [(link, fun _ => arg objs)] [objs]) m1
  | (none, _, m1) => (none, m1)

/-! ## The tool alone -/

/-- the files that a tool reads, and its output; `none` if it fails -/
def toolRun (next : List (FileName × Content) → Next) (fs : Files) : Nat → List (FileName × Content) →
    Option (List (FileName × Content) × Content)
  | 0, _ => none
  | n + 1, seen =>
    match next seen with
    | .error => none
    | .more x =>
      match fs x with
      | none => none
      | some c => toolRun next fs n (seen ++ [(x, c)])
    | .done o => some (seen, o)

/-- The call runs its tool: the files after that, `none` if it raises. -/
def Tools.make (T : Tools B) (ds : FunName → Option Digest) (c : FunName × B) (fs : Files) : Option Files :=
  match ds c.1 with
  | none => none
  | some code =>
    if (T.srcs c.1 c.2).all (fun x => (fs x).isSome) then
      (toolRun (T.next c.1 code c.2) fs (T.most c.1 c.2) []).map fun q => setFile (T.out c.1 c.2) (some q.2) fs
    else none

/-- the tools that a call runs -/
def Tools.jobs (T : Tools B) (c : FunName × B) : List (FunName × B) := if T.group c.1 then T.parts c.1 c.2 else [c]

/-- what a call returns: the files that its tools write -/
def Tools.result (T : Tools B) (c : FunName × B) : List FileName := (T.jobs c).map fun c => T.out c.1 c.2

/-- the calls of a script, if none raises -/
def Tools.plan (T : Tools B) : List (Step B) → List (List FileName) → List (FunName × B)
  | [], _ => []
  | c :: cs, rs => (c.1, c.2 rs) :: T.plan cs (rs ++ [T.result (c.1, c.2 rs)])

end Verif.Calls
