import Verif.Options.Core
import Verif.Posix
/-!
# Model of `Context.__init__` (context.py:32-61) and of the check of `--no-warnings` in `main` (main.py:147-149)
-/
namespace Verif.Options
open Verif.Posix

/-- `STATE_FILE_DEFAULTS` (context.py:21-25) -/
def stateFileDefault (engine : Str) : Option Str :=
  if engine = "pickle".toList then some "fbuild-state.db".toList
  else if engine = "cache".toList then some "fbuild-state.db".toList
  else if engine = "sqlite".toList then some "fbuild-state.sqldb".toList
  else none

structure Settings where
  buildroot : Str
  engine : Str
  stateFile : Str
  logFile : Str
  tmpdir : Str
  nocolor : Bool
  /-- `force_rebuild or force_configuration` (context.py:84): the state file is removed first -/
  fresh : Bool
  threadcount : Int
  verbose : Nat
  deriving DecidableEq

def NS.str (ns : NS) (d : String) : Option Str :=
  match ns.vals.get? d.toList with
  | some (.str s) => some s
  | _ => none

def NS.flag (ns : NS) (d : String) : Bool :=
  match ns.vals.get? d.toList with
  | some (.bool b) => b
  | _ => false

def NS.int (ns : NS) (d : String) : Option Int :=
  match ns.vals.get? d.toList with
  | some (.int i) => some i
  | _ => none

def NS.num (ns : NS) (d : String) : Option Nat :=
  match ns.vals.get? d.toList with
  | some (.num n) => some n
  | _ => none

/-- context.py:37-38 -/
def stateName (given : Option Str) (engine : Str) : Option Str :=
  match given with
  | none => stateFileDefault engine
  | some s => some s

/-- `Context(options)`; `none`: an exception -/
def context (ns : NS) : Option Settings := do
  let root ← ns.str "buildroot"
  let engine ← ns.str "database_engine"
  let state ← stateName (ns.str "state_file") engine
  let log ← ns.str "log_file"
  let threads ← ns.int "threadcount"
  let verbose ← ns.num "verbose"
  return ⟨root, engine, join root state, join root log, join root ".tmp".toList,
    ns.flag "nocolor" || ns.flag "no_color", ns.flag "force_rebuild" || ns.flag "force_configuration", threads, verbose⟩

/-- `'--no-warnings' not in sys.argv` (main.py:148): are the warnings shown? -/
def warns (argv : List Str) : Bool := decide ("--no-warnings".toList ∉ argv)

end Verif.Options
