import Verif.Gcc.Command
/-!
# Model of the checks when a compiler of gcc is made (lib/fbuild/builders/c/gcc/__init__.py)

`Gcc.__init__` (149-165), `check_flags` (318-335), and the checks in the constructors of `Compiler` (355-357) and `Linker`
(392-394).  What the compiler does with a command is a parameter.  Simplified: the temporary files of all checks have one name, and
their directory is the working directory.  `check_version` is in `Builders/Core.lean`; its outcome is a parameter.  Left out: the log.
-/
namespace Verif.Gcc.Made

/-- how a command ends that does not succeed: by an exit status (`ExecutionError`), or otherwise -/
inductive Err where
  | status
  | other (n : Nat)
  deriving DecidableEq

/-- the exceptions -/
inductive Exc where
  | configFailed
  | recursion
  | other (n : Nat)
  deriving DecidableEq

variable (g : LibFiles) (limit : Nat) (run : List Text → Except Err Unit) (src : Text)

/-- `check_flags` (318-335) -/
def checkFlags (b : Cc) (flags : List Text) : Except Exc Bool :=
  match command g limit b { srcs := [src], flags := flags } with
  | none => .error .recursion
  | some cmd =>
    match run cmd with
    | .ok _ => .ok true
    | .error .status => .ok false
    | .error (.other n) => .error (.other n)

/-- `if asked and flags and not self.check_flags(flags): raise ConfigFailed` (149-159, 355-357, 392-394) -/
def require (asked : Bool) (b : Cc) (flags : List Text) : Except Exc Unit :=
  if asked then
    match checkFlags g limit run src b flags with
    | .ok true => .ok ()
    | .ok false => .error .configFailed
    | .error e => .error e
  else .ok ()

/-- `Gcc.__init__` (149-165) -/
def construct (b : Cc) (version : Except Exc Unit) : Except Exc Unit :=
  match require g limit run src true b b.flags with
  | .error e => .error e
  | .ok _ =>
    match require g limit run src (b.debug.getD false && b.debugFlags != []) b b.debugFlags with
    | .error e => .error e
    | .ok _ =>
      match require g limit run src (b.profile.getD false && b.profileFlags != []) b b.profileFlags with
      | .error e => .error e
      | .ok _ =>
        match require g limit run src (b.optimize.getD false && b.optimizeFlags != []) b b.optimizeFlags with
        | .error e => .error e
        | .ok _ => version

/-- `Compiler.__init__` (355-357) and `Linker.__init__` (392-394) with flags of their own -/
def constructWith (b : Cc) (flags : List Text) : Except Exc Unit :=
  require g limit run src (flags != []) b flags

end Verif.Gcc.Made
