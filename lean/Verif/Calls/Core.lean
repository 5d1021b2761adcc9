import Verif.DB.Trace
/-!
# Model of nested cached calls: `Database.call` in lib/fbuild/db/database.py

One thread, engines `cache` and `pickle`.  The body of a cached function is a program that calls cached functions, reports
external dependencies, reads and writes files.  The interpreter below runs such programs as `Database.call` does; every step
that acts on the database is an event of `Verif/DB/History.lean`.
-/
namespace Verif.Calls
open Verif.DB

/-- What a Python function does.  Everything else it does (computing, catching exceptions) is in the continuations. -/
inductive Prog (B R : Type) where
  | ret (r : R)
  | raise
  /-- Call a cached function; the continuation gets `none` if the call raised.  With `deep` this is
  `o, s, d = f.call(...)` followed by `add_external_dependencies_to_call(srcs=s, dsts=d)` (builders/__init__.py:155-163). -/
  | callD (deep : Bool) (f : FunName) (b : B) (k : Option R → Prog B R)
  /-- `ctx.db.add_external_dependencies_to_call(srcs=..., dsts=...)` -/
  | report (srcs dsts : List FileName) (k : Prog B R)
  /-- read a file; `none` if this raises -/
  | read (x : FileName) (k : Option Content → Prog B R)
  /-- write a file, or remove it (`none`) -/
  | write (x : FileName) (c : Option Content) (k : Prog B R)

/-- call a cached function: `f(...)` -/
@[match_pattern] abbrev Prog.call {B R : Type} (f : FunName) (b : B) (k : Option R → Prog B R) : Prog B R := .callD false f b k

/-- The text (digest) of a function determines its body. -/
abbrev Script (B R : Type) := FunName → Digest → B → Prog B R

/-- The state of a process: the database, `Database._callstack` (innermost list first), and the number of the next call.
`trace` is a history variable. -/
structure Mach (B R : Type) where
  sys : Sys B R
  trace : Trace B R
  stack : List (List FunName)
  next : Nat

/-- The files reported to a frame: `external_srcs` and `external_dsts` (database.py:180-181). -/
structure Reports where
  srcs : List FileName
  dsts : List FileName
  deriving DecidableEq

def Reports.none : Reports := ⟨[], []⟩
def Reports.add (a b : Reports) : Reports := ⟨a.srcs ++ b.srcs, a.dsts ++ b.dsts⟩

/-- What a call or a body leaves behind: the value (`none`: an exception), the files reported while it ran, and the state.
`add_external_dependencies_to_call` walks up the frames and adds the files to every enclosing `Database.call`
(database.py:313-332); so a frame gets what is reported to the frames inside it, also if these raise. -/
abbrev Outcome (B R : Type) := Option R × Reports × Mach B R

variable {B R : Type} [DecidableEq B]

/-- an event happens -/
def Mach.event (sg : Sig B R) (ev : Event B R) (m : Mach B R) : Out R × Mach B R :=
  ((step sg m.sys ev).1, { m with sys := (step sg m.sys ev).2, trace := (m.sys, ev) :: m.trace })

/-- `if self._callstack: self._callstack[-1].append(fun_name)` (database.py:99-100) -/
def noteCall (f : FunName) : List (List FunName) → List (List FunName)
  | [] => []
  | top :: rest => (top ++ [f]) :: rest

/-- A file is written, or removed: its modification time is the time. -/
def Mach.writeFile (sg : Sig B R) (clk : Nat → Nat) (x : FileName) (c : Option Content) (m : Mach B R) : Mach B R :=
  let m1 := (({ m with next := m.next + 1 } : Mach B R).event sg (.tick (clk m.next))).2
  (m1.event sg (.edit x (c.map fun c => ⟨clk m.next, some c⟩))).2

/-- The source and destination files that `Database.call` returns with the result (database.py:141-149,203-207): the declared
files, and the reported files.  These are the files stored with the call: `prepare` has just read them, or `cache` has just
stored them. -/
def callFiles (sg : Sig B R) (f : FunName) (b : B) (r : R) (m : Mach B R) : Reports :=
  match m.sys.env.funDigest f with
  | none => .none
  | some code =>
    match CDB.findCall f b m.sys.db with
    | none => ⟨sg.srcs f code b, sg.returnDsts f code r ++ sg.dsts f code b⟩
    | some (cid, _) =>
      ⟨sg.srcs f code b ++ CDB.findExt m.sys.db.externalSrcs cid,
        sg.returnDsts f code r ++ sg.dsts f code b ++ CDB.findExt m.sys.db.externalDsts cid⟩

/-- what a caller reports after a call: with `deep`, the files of the call.  (`build_objects` reports after all its calls; that is
the same unless one of them raises and a caller of `build_objects` catches the exception.) -/
def deepFiles (sg : Sig B R) (deep : Bool) (f : FunName) (b : B) (o : Option R) (m : Mach B R) : Reports :=
  match deep, o with
  | true, some r => callFiles sg f b r m
  | _, _ => .none

/-- the body of a function, given how cached functions are called -/
def runProg (sg : Sig B R) (clk : Nat → Nat) (callF : FunName → B → Mach B R → Outcome B R) : Prog B R → Mach B R → Outcome B R
  | .ret r, m => (some r, .none, m)
  | .raise, m => (none, .none, m)
  | .callD d f b k, m =>
    let (o, rep, m1) := callF f b m
    let (o2, rep2, m2) := runProg sg clk callF (k o) m1
    (o2, rep.add ((deepFiles sg d f b o m1).add rep2), m2)
  | .report srcs dsts k, m =>
    let (o, rep, m1) := runProg sg clk callF k m
    (o, Reports.add ⟨srcs, dsts⟩ rep, m1)
  | .read x k, m => runProg sg clk callF (k (m.sys.env.fs.content x)) m
  | .write x c k, m => runProg sg clk callF k (m.writeFile sg clk x c)

/-- `Database.call` after `prepare` has decided to run the function (database.py:176-207).  If the function raises, the list
pushed on the call stack stays there. -/
def runCall (sg : Sig B R) (run : Mach B R → Outcome B R) (id : Nat) (m : Mach B R) : Outcome B R :=
  match run { m with stack := [] :: m.stack } with                        -- lines 176-184
  | (none, rep, m1) => (none, rep, (m1.event sg (.fail id)).2)
  | (some r, rep, m1) =>
    match m1.stack with
    | [] => (none, rep, (m1.event sg (.fail id)).2)                         -- `IndexError`; does not happen
    | deps :: rest =>                                                       -- line 185
      match ({ m1 with stack := rest } : Mach B R).event sg (.complete id r deps rep.srcs rep.dsts) with
      | (.done, m2) => (some r, rep, m2)
      | (_, m2) => (none, rep, m2)                                          -- `cache` raised

/-- `Database.call` (database.py:97-149): note the call, ask the database, and run the function if necessary.  The time at
which call number `i` is prepared, or write number `i` happens, is `clk i`. -/
def askCall (sg : Sig B R) (clk : Nat → Nat) (run : Mach B R → Outcome B R) (f : FunName) (b : B) (m : Mach B R) :
    Outcome B R :=
  let m0 := { m with stack := noteCall f m.stack, next := m.next + 1 }
  let m1 := (m0.event sg (.tick (clk m.next))).2
  match m1.event sg (.prepare m.next f b) with
  | (.hit r, m2) => (some r, .none, m2)
  | (.run, m2) => runCall sg run m.next m2
  | (_, m2) => (none, .none, m2)

/-- A call of a cached function.  The number is how many nested calls Python's recursion limit still permits. -/
def callFn (sg : Sig B R) (script : Script B R) (clk : Nat → Nat) : Nat → FunName → B → Mach B R → Outcome B R
  | 0, f, b, m => askCall sg clk (fun m => (none, .none, m)) f b m
  | n + 1, f, b, m =>
    askCall sg clk (fun m => runProg sg clk (callFn sg script clk n) (script f ((m.sys.env.funDigest f).getD "") b) m) f b m

/-- A build: the functions called by `fbuild` itself are not cached, so files reported there go to no frame. -/
def build (sg : Sig B R) (script : Script B R) (clk : Nat → Nat) (limit : Nat) (main : Prog B R) (m : Mach B R) :
    Option R × Mach B R :=
  let (o, _, m1) := runProg sg clk (callFn sg script clk limit) main m
  (o, m1)

end Verif.Calls
