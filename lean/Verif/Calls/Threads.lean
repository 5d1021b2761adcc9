import Verif.Calls.Core
/-!
# Cached calls in several threads

Model of `Database.call` (lib/fbuild/db/database.py 69-207) when `scheduler.map` or `scheduler.map_with_dependencies`
(lib/fbuild/sched.py) runs several tasks: the threads share the database and `Database._callstack` (database.py 29, 99-100, 176,
185): there is one for the database, not one per thread.

A task is a program of `Verif/Calls/Core.lean`.  Here it is executed in small steps, so that the steps of several tasks can be
interleaved.  One step is: one cached call up to its decision (database.py 97-149), one report, one file read or written, one
result stored.  In the real program a thread gives way only in `interruptible` (see `Verif/Sched`), that is while it waits for a
process; so every real order of steps is an order here.  Not modelled: a task that waits in `map` for other tasks may execute one
of them itself, on top of its own frames.
-/
namespace Verif.Calls
open Verif.DB

/-- A cached function that is running: the frame of `Database.call`. -/
structure Frame (B R : Type) where
  id : Nat
  deep : Bool
  fn : FunName
  bound : B
  /-- what its caller does with the result -/
  k : Option R → Prog B R
  /-- `external_srcs` and `external_dsts` (database.py 180-181) -/
  rep : Reports

/-- A thread: what it does next, and its frames, the innermost first. -/
structure Task (B R : Type) where
  cur : Prog B R
  frames : List (Frame B R)
  started : Bool

def Task.new {B R : Type} (p : Prog B R) : Task B R := ⟨p, [], false⟩

/-- `add_external_dependencies_to_call` (database.py 313-332) looks for the frames of its own thread. -/
def reportTo {B R : Type} (r : Reports) (fs : List (Frame B R)) : List (Frame B R) := fs.map fun f => { f with rep := f.rep.add r }

/-- what the task has returned (`some none`: it raised); `none` if it has not finished -/
def Task.result {B R : Type} (t : Task B R) : Option (Option R) :=
  match t.cur, t.frames with
  | .ret r, [] => some (some r)
  | .raise, [] => some none
  | _, _ => none

section
variable {B R : Type} [DecidableEq B]

/-- `Database.call` up to the decision (database.py 97-149), by a thread with the frames `fs` -/
def Task.call (sg : Sig B R) (script : Script B R) (clk : Nat → Nat) (limit : Nat) (d : Bool) (f : FunName) (b : B)
    (k : Option R → Prog B R) (fs : List (Frame B R)) (m : Mach B R) : Task B R × Mach B R :=
  let m0 := { m with stack := noteCall f m.stack, next := m.next + 1 }                       -- lines 99-100
  let m1 := (m0.event sg (.tick (clk m.next))).2
  match m1.event sg (.prepare m.next f b) with                                                 -- lines 102-127
  | (.hit r, m2) => (⟨k (some r), reportTo (deepFiles sg d f b (some r) m2) fs, true⟩, m2)     -- line 149
  | (.run, m2) =>                                                                              -- lines 176-184
    (⟨if fs.length < limit then script f ((m2.sys.env.funDigest f).getD "") b else .raise,
      ⟨m.next, d, f, b, k, .none⟩ :: fs, true⟩, { m2 with stack := [] :: m2.stack })
  | (_, m2) => (⟨k none, fs, true⟩, m2)

/-- the innermost function returned (database.py 185-207) -/
def Task.done (sg : Sig B R) (r : R) (fr : Frame B R) (fs : List (Frame B R)) (m : Mach B R) : Task B R × Mach B R :=
  match m.stack with
  | [] => (⟨fr.k none, fs, true⟩, (m.event sg (.fail fr.id)).2)                                -- `IndexError`
  | deps :: rest =>                                                                            -- line 185
    match ({ m with stack := rest } : Mach B R).event sg (.complete fr.id r deps fr.rep.srcs fr.rep.dsts) with
    | (.done, m2) => (⟨fr.k (some r), reportTo (deepFiles sg fr.deep fr.fn fr.bound (some r) m2) fs, true⟩, m2)
    | (_, m2) => (⟨fr.k none, fs, true⟩, m2)

/-- one step of a thread -/
def Task.step (sg : Sig B R) (script : Script B R) (clk : Nat → Nat) (limit : Nat) (t : Task B R) (m : Mach B R) :
    Task B R × Mach B R :=
  match t.cur with
  | .ret r =>
    match t.frames with
    | [] => (t, m)
    | fr :: fs => Task.done sg r fr fs m
  | .raise =>
    match t.frames with
    | [] => (t, m)
    | fr :: fs => (⟨fr.k none, fs, true⟩, (m.event sg (.fail fr.id)).2)                         -- the list stays on the stack
  | .callD d f b k => Task.call sg script clk limit d f b k t.frames m
  | .report srcs dsts k => (⟨k, reportTo ⟨srcs, dsts⟩ t.frames, true⟩, m)
  | .read x k => (⟨k (m.sys.env.fs.content x), t.frames, true⟩, m)
  | .write x c k => (⟨k, t.frames, true⟩, m.writeFile sg clk x c)

/-- The tasks that the scheduler was given, and the state. -/
structure Pool (B R : Type) where
  mach : Mach B R
  tasks : List (Task B R)

/-- `map_with_dependencies` starts a task when the tasks it depends on are finished; `after i` are the numbers of those of task
`i`.  For `map` there are none. -/
def Pool.ready (after : Nat → List Nat) (P : Pool B R) (i : Nat) : Bool :=
  (after i).all fun j => match P.tasks[j]? with
    | some t => t.result.isSome
    | none => false

/-- task `i` makes one step; nothing happens if it has finished or may not be started yet -/
def Pool.step (sg : Sig B R) (script : Script B R) (clk : Nat → Nat) (limit : Nat) (after : Nat → List Nat) (P : Pool B R)
    (i : Nat) : Pool B R :=
  match P.tasks[i]? with
  | none => P
  | some t =>
    if t.started ∨ P.ready after i then
      ⟨(t.step sg script clk limit P.mach).2, P.tasks.set i (t.step sg script clk limit P.mach).1⟩
    else P

/-- the tasks make steps in the order given -/
def Pool.run (sg : Sig B R) (script : Script B R) (clk : Nat → Nat) (limit : Nat) (after : Nat → List Nat) (P : Pool B R)
    (order : List Nat) : Pool B R := order.foldl (Pool.step sg script clk limit after) P

/-- the scheduler is given some programs -/
def Pool.start (m : Mach B R) (ps : List (Prog B R)) : Pool B R := ⟨m, ps.map Task.new⟩

/-! ### A cached function that calls `scheduler.map`

`AbstractCompiler.build_objects` (lib/fbuild/builders/__init__.py 139-165): it is cached itself, calls
`scheduler.map(partial(self.compile.call, ...), srcs)`, and reports the files of these calls when all have returned. -/

/-- a task of `scheduler.map(f, bs)`: call `f`, return what it returns -/
def back : Option R → Prog B R
  | some r => .ret r
  | none => .raise

def callTask (f : FunName) (b : B) : Prog B R := .call f b back

/-- The tasks of a map, and for each task that has returned the files that its caller reports. -/
structure Crew (B R : Type) where
  pool : Pool B R
  got : Nat → Reports

/-- what the functions of a thread have reported so far: all reports go to the outermost frame too -/
def Task.reported (t : Task B R) : Reports :=
  match t.frames.getLast? with
  | some fr => fr.rep
  | none => .none

/-- The files that are reported because of a task that made a step: if it returned just now, the source and destination files
that `compile.call` returned (builders/__init__.py 153-163, database.py 141-149, 203-207).  If the task was executed by the thread
that waits in `map` (`mine`; sched.py), the frame of `build_objects` was on the stack of the thread, so it got the files that
the function reported too (database.py 313-332). -/
def crewFiles (sg : Sig B R) (f : FunName) (b : B) (mine : Bool) (t t' : Task B R) (m : Mach B R) : Option Reports :=
  match t.result, t'.result with
  | none, some (some r) => some ((if mine then t.reported else .none).add (callFiles sg f b r m))
  | _, _ => none

/-- task `i` makes one step -/
def Crew.step (sg : Sig B R) (script : Script B R) (clk : Nat → Nat) (limit : Nat) (after : Nat → List Nat) (mine : Nat → Bool)
    (f : FunName) (bs : List B) (C : Crew B R) (i : Nat) : Crew B R :=
  let P := C.pool.step sg script clk limit after i
  match C.pool.tasks[i]?, P.tasks[i]?, bs[i]? with
  | some t, some t', some b =>
    ⟨P, fun j => if j = i then (crewFiles sg f b (mine i) t t' P.mach).getD (C.got i) else C.got j⟩
  | _, _, _ => ⟨P, C.got⟩

/-- what the tasks returned; `none` if one of them raised or has not finished -/
def returned : List (Task B R) → Option (List R)
  | [] => some []
  | t :: ts =>
    match t.result, returned ts with
    | some (some r), some rs => some (r :: rs)
    | _, _ => none

/-- The body of a cached function that calls `f` for the arguments `bs` in threads, reports their files, and makes its result of
their results.  The tasks make steps in the order given.  If it ends before all tasks have returned then one of them has raised,
and so does the function (sched.py: the exception is raised in the thread that waits).  Left out: in this case the other tasks
go on while the exception is propagated. -/
def mapRun (sg : Sig B R) (script : Script B R) (clk : Nat → Nat) (limit : Nat) (after : Nat → List Nat) (mine : Nat → Bool)
    (f : FunName) (bs : List B) (fin : List R → R) (order : List Nat) (m : Mach B R) : Outcome B R :=
  let C := order.foldl (Crew.step sg script clk limit after mine f bs) ⟨Pool.start m (bs.map (callTask f)), fun _ => .none⟩
  match returned C.pool.tasks with
  | some rs => (some (fin rs), ⟨(List.range bs.length).flatMap fun i => (C.got i).srcs,
      (List.range bs.length).flatMap fun i => (C.got i).dsts⟩, C.pool.mach)
  | none => (none, .none, C.pool.mach)

/-- a call of such a function (`Database.call`) -/
def groupCall (sg : Sig B R) (script : Script B R) (clk : Nat → Nat) (limit : Nat) (after : Nat → List Nat) (mine : Nat → Bool)
    (f : FunName) (bs : List B) (fin : List R → R) (order : List Nat) (g : FunName) (c : B) (m : Mach B R) : Outcome B R :=
  askCall sg clk (mapRun sg script clk limit after mine f bs fin order) g c m

/-- the same function, if the calls are made one after the other -/
def mapProg (f : FunName) (fin : List R → R) : List B → List R → Prog B R
  | [], rs => .ret (fin rs)
  | b :: bs, rs => .callD true f b fun
    | some r => mapProg f fin bs (rs ++ [r])
    | none => .raise

end
end Verif.Calls
