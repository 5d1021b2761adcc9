import Verif.Checks.Builder
import Verif.Builders.Versions
/-!
# Model of how the OCaml builders are made

The constructors of lib/fbuild/builders/ocaml/__init__.py: `Ocamldep` (25-31), `Builder` (159-249), `Ocamlc` (675-679), `Ocamlcp` (684-690),
`Ocamlopt` (702-737) and `Ocaml` (827-862).  The tools are those of `Verif/Checks/Builder.lean`, for each program; `find_program` is a
parameter (see `Verif/Builders/Core.lean`).  An `Ocamldep` is the program it runs.  Left out: the flags and other options that a builder
keeps, the log, and that the objects are kept in the database.
-/
namespace Verif.Ocaml.Made
open Verif.Checks.Builder (Tools Err tryCompile tryLinkLib tryLinkExe linked Programs)
open Verif.Builders (Requires)

abbrev Text := List Char

inductive Exc where
  | configFailed
  /-- `ExecutionError` -/
  | execution
  /-- the exceptions of `check_version` -/
  | version (o : Versions.Outcome)
  | other (n : Nat)
  deriving DecidableEq

variable {Obj Lib Exe : Type}

/-- the system -/
structure World (Obj Lib Exe : Type) where
  /-- `find_program`; `none`: `MissingProgram`, which is a `ConfigFailed` -/
  find : List Text → Option Text
  tools : Text → Tools Obj Lib Exe
  /-- what `exe -version` prints -/
  version : Text → Except Err Text
  space : Char → Bool
  int : Text → Option Int
  less : Text → Text → Bool

variable (w : World Obj Lib Exe)

/-- an exception that is not handled -/
def escape : Err → Exc
  | .execution => .execution
  | .other n => .other n

/-- `check_version` with `version` (199-202, 257-260) -/
def checkVersion (r : Requires) (exe : Text) : Except Exc Unit :=
  if r.exactly.isNone && r.atLeast.isNone && r.atMost.isNone then .ok ()
  else
    match w.version exe with
    | .error e => .error (escape e)
    | .ok out =>
      match Versions.check w.int w.less r (Versions.plain w.space out) with
      | .ok => .ok ()
      | .configFailed => .error .configFailed
      | o => .error (.version o)

/-- `if self.try_...(): ... else: raise fbuild.ConfigFailed(...)` (207-225) -/
def demand : Except Err Bool → Except Exc Unit
  | .ok true => .ok ()
  | .ok false => .error .configFailed
  | .error e => .error (escape e)

/-- the programs of the checks (207-235) -/
def programs : Programs := ⟨"", "", "let x = 5;;\n", "print_int Lib.x;;\n"⟩

/-- the last check (227-249): only the execution of the program is in a `try` -/
def lastCheck (t : Tools Obj Lib Exe) : Except Exc Unit :=
  match linked t programs with
  | .error e => .error (escape e)
  | .ok exe =>
    match t.run exe with
    | .error .execution => .error .configFailed
    | .error e => .error (escape e)
    | .ok out => if out ≠ "5" then .error .configFailed else .ok ()

/-- one after the other, unless there is an exception -/
def after {A B : Type} (x : Except Exc A) (f : A → Except Exc B) : Except Exc B :=
  match x with
  | .error e => .error e
  | .ok a => f a

/-- the checks of the constructor of `Builder` (198-249) -/
def checks (r : Requires) (exe : Text) : Except Exc Unit :=
  after (checkVersion w r exe) fun _ =>
  after (demand (tryCompile (w.tools exe) [] programs.main)) fun _ =>
  after (demand (tryLinkLib (w.tools exe) [] [] programs.lib)) fun _ =>
  after (demand (tryLinkExe (w.tools exe) [] [] programs.main)) fun _ =>
  lastCheck (w.tools exe)

/-- `find_program(ctx, [exe] if exe else names)` -/
def lookFor (exe : Option Text) (names : List Text) : Except Exc Text :=
  match w.find (match exe with | some (c :: r) => [c :: r] | _ => names) with
  | none => .error .configFailed
  | some e => .ok e

/-- `ocamldep or make_ocamldep(ctx)` (182, 839) and the constructor of `Ocamldep` (25-31) -/
def depOf : Option Text → Except Exc Text
  | some d => .ok d
  | none => lookFor w none ["ocamldep.opt".toList, "ocamldep".toList]

/-- a builder: the compiler, and its `ocamldep` -/
structure Compiler where
  exe : Text
  dep : Text
  deriving DecidableEq

/-- the program is found, then the constructor of `Builder` (182-249) -/
def builder (names : List Text) (r : Requires) (exe dep : Option Text) : Except Exc Compiler :=
  after (lookFor w exe names) fun e =>
  after (depOf w dep) fun d =>
  after (checks w r e) fun _ => .ok ⟨e, d⟩

/-- the constructor of `Ocamlc` (675-679) -/
def ocamlc (r : Requires) (exe dep : Option Text) : Except Exc Compiler :=
  builder w ["ocamlc.opt".toList, "ocamlc".toList] r exe dep

/-- the constructor of `Ocamlcp` (684-690) -/
def ocamlcp (r : Requires) (exe dep : Option Text) : Except Exc Compiler :=
  builder w ["ocamlcp.opt".toList, "ocamlcp".toList] r exe dep

/-- a builder for native code, and its compiler for interfaces -/
structure Native where
  own : Compiler
  ocamlc : Compiler
  deriving DecidableEq

/-- the constructor of `Ocamlopt` (702-737): what is required is not passed on to an `Ocamlc` that is made here (715-717) -/
def ocamlopt (r : Requires) (exe dep : Option Text) (c : Option Compiler) : Except Exc Native :=
  after (match c with | some c => .ok c | none => ocamlc w ⟨none, none, none⟩ none dep) fun c =>
  after (builder w ["ocamlopt.opt".toList, "ocamlopt".toList] r exe dep) fun o => .ok ⟨o, c⟩

/-- a builder for both -/
structure Both where
  dep : Text
  ocamlc : Compiler
  ocamlcp : Compiler
  ocamlopt : Native
  deriving DecidableEq

/-- the names of programs that are given (827-838) -/
structure Given where
  ocamlc : Option Text := none
  ocamlcp : Option Text := none
  ocamlopt : Option Text := none

/-- the constructor of `Ocaml` (827-862): the `ocamldep` that is given is passed on to the bytecode compilers, not the one that was made -/
def ocaml (r : Requires) (g : Given) (dep : Option Text) : Except Exc Both :=
  after (depOf w dep) fun d =>
  after (ocamlc w r g.ocamlc dep) fun c =>
  after (ocamlcp w r g.ocamlcp dep) fun cp =>
  after (ocamlopt w r g.ocamlopt (some d) (some c)) fun o => .ok ⟨d, c, cp, o⟩

end Verif.Ocaml.Made
