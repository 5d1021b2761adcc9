/-!
# Model of `lib/fbuild/sched.py`

The scheduler as a machine of threads: one main thread and `nw` worker threads.  In every state each
thread has at most one next step (`step`), so a schedule is just the list of the threads that move.

Each numbered phase of a thread is a piece of the code between two operations on something shared (the
ready queue, a done queue, the controlling lock).

Not modelled: exceptions that are not an `Exception` (`KeyboardInterrupt`), `interruptible` called by
the main thread, and effects of tasks other than their result and their use of the scheduler.
-/
namespace Verif.Sched

/-- How `_evaluate` (sched.py:197-299) ends. -/
inductive EvalOut (V E : Type) where
  /-- the finished tasks in the order they were taken from the done queue, with their results -/
  | done (rs : List (Nat × V))
  /-- `raise task.exc` (line 271) -/
  | raised (e : E)
  /-- `raise DependencyLoop(recursive_srcs)` (line 297), as pairs of tasks -/
  | loop (named : List (Nat × Nat))

/-- The code of a task (or of the main thread) as far as the scheduler is concerned: it returns or
raises, contains sections in `with interruptible()` (lines 104-137), and calls `_evaluate` on `n`
tasks, which continue with `k` applied to the outcome.  `deps i` are the tasks that task `i`
depends on (numbers `≥ n` are not tasks of this evaluation: sources that were not given,
lines 172-174). -/
inductive Prog (V E : Type) where
  | ret (v : V)
  | raise (e : E)
  | pause (k : Prog V E)
  | eval (n : Nat) (deps : Nat → List Nat) (body : Nat → Prog V E) (k : EvalOut V E → Prog V E)

/-- Where a task is.  `Task.running` (line 393) is `status ≠ new`, `Task.done` (line 394) is
`processed`.  (After a failure lines 267-268 set `done` for all tasks of the evaluation; nobody reads it
any more.)  The worker that holds or runs the task is recorded here as well; no step reads it. -/
inductive Status where
  | new | queued | held (w : Nat) | active (w : Nat) | finished | processed
  deriving DecidableEq

/-- number of an evaluation and index of the task in it -/
abbrev TaskId := Nat × Nat

/-- The variables of one activation of `_evaluate`, and its tasks. -/
structure Ev (V E : Type) where
  n : Nat
  deps : Nat → List Nat
  body : Nat → Prog V E
  status : Nat → Status
  /-- `Task.result` / `Task.exc` -/
  res : Nat → Option (Except E V)
  /-- `done_queue` -/
  doneQ : List Nat
  count : Nat
  results : List (Nat × V)
  /-- not left yet (no step reads this) -/
  live : Bool
  /-- the thread that called `_evaluate`, `none` for the main thread (no step reads this) -/
  owner : Option Nat

variable {V E : Type}

/-- the dependencies among the given tasks -/
def Ev.depsOf (ev : Ev V E) (i : Nat) : List Nat := (ev.deps i).filter (· < ev.n)

/-- `Task.can_run` (sched.py:398-408) -/
def Ev.canRun (ev : Ev V E) (i : Nat) : Bool :=
  ev.status i = .new && (ev.depsOf i).all (fun d => ev.status d = .processed)

def upd {α : Type} (f : Nat → α) (i : Nat) (v : α) : Nat → α := fun j => if j = i then v else f j

/-- An entry of the ready queue: a task, or the `None` put by `shutdown`. -/
abbrev Item := Option TaskId

/-- Put those of the tasks that can run into the ready queue (sched.py:215-218 and 278-281).  The queue
is a `LifoQueue`: the head of the list is taken first. -/
def enqueue (e : Nat) : List Nat → Ev V E → List Item → Ev V E × List Item
  | [], ev, q => (ev, q)
  | i :: is, ev, q =>
    if ev.canRun i then
      enqueue e is { ev with status := upd ev.status i .queued, count := ev.count + 1 }
        (some (e, i) :: q)
    else enqueue e is ev q

/-- `children[d]` (sched.py:205, 212-213): the tasks that depend on `d`, in the order of the tasks -/
def Ev.children (ev : Ev V E) (d : Nat) : List Nat :=
  (List.range ev.n).flatMap (fun i => ((ev.depsOf i).filter (· = d)).map (fun _ => i))

/-- One task of an evaluation that is being run.  `wait = some e`:
the program is inside `_evaluate`, activation `e`. -/
structure Frame (V E : Type) where
  task : TaskId
  prog : Prog V E
  wait : Option Nat

/-- Phases of a worker (`WorkerThread.run`, sched.py:340-351, and the loop of `_evaluate`,
lines 238-281). -/
inductive Phase where
  /-- `while not self.__finished` -/
  | top
  /-- `read_task()`, blocking -/
  | reading
  /-- has an item, `with self.__controlling_lock` -/
  | took (it : Item)
  /-- holds the lock: runs the code of the top frame, or is at `while count != 0` (line 238) -/
  | code
  /-- inside an interruptible section of a task -/
  | paused
  /-- in `_evaluate`, lock released, before `read_task(block=False)` (line 244) -/
  | poll
  /-- in `_evaluate`, after it; the lock is to be acquired again (`none`: `queue.Empty`) -/
  | polled (it : Option Item)
  /-- in `_evaluate`, holds the lock, before `done_queue.get(block=False)` (line 252) -/
  | check
  | ended
  deriving DecidableEq

structure Worker (V E : Type) where
  phase : Phase
  /-- the tasks this thread is running, innermost first -/
  stack : List (Frame V E)
  finished : Bool

inductive MainPhase where
  | code
  /-- in `shutdown` (lines 305-317): worker `i` is to be ended and joined -/
  | joining (i : Nat)
  | ended
  deriving DecidableEq

/-- What is recorded about an execution. -/
inductive Note (V E : Type) where
  | start (t : TaskId)
  | finish (t : TaskId) (r : Except E V)
  /-- `_evaluate`, activation `e`, returned or raised -/
  | left (e : Nat) (out : EvalOut V E)

structure State (V E : Type) where
  nw : Nat
  ready : List Item
  lock : Option Nat
  evs : Nat → Ev V E
  next : Nat
  workers : Nat → Worker V E
  main : Prog V E
  mainWait : Option Nat
  mainPhase : MainPhase
  /-- history, newest first; nothing reads it -/
  log : List (Note V E)

/-- The beginning of `_evaluate` (sched.py:197-218). -/
def spawn (s : State V E) (owner : Option Nat) (n : Nat) (deps : Nat → List Nat) (body : Nat → Prog V E) : State V E :=
  let ev0 : Ev V E := ⟨n, deps, body, fun _ => .new, fun _ => none, [], 0, [], true, owner⟩
  let (ev, q) := enqueue s.next (List.range n) ev0 s.ready
  { s with evs := upd s.evs s.next ev, ready := q, next := s.next + 1 }

/-- The end of `_evaluate` (sched.py:283-299): all tasks done, or a loop.  The pairs named in the
exception are those of lines 289-295. -/
def Ev.outcome (ev : Ev V E) : EvalOut V E :=
  if ev.results.length = ev.n then .done ev.results
  else .loop ((List.range ev.n).flatMap (fun i =>
    if ev.status i = .processed then []
    else ((ev.children i).filter (fun j => j ∈ ev.depsOf i)).map (fun j => (i, j))))

/-- A finished task is taken from the done queue (sched.py:259-281).  Returns the exception if the
task raised one. -/
def takeDone (s : State V E) (e : Nat) (i : Nat) (rest : List Nat) : Option (Option E × State V E) :=
  let ev := s.evs e
  let ev1 := { ev with doneQ := rest, count := ev.count - 1, status := upd ev.status i .processed }
  match ev.res i with
  | none => none                       -- only after an exception that is not an `Exception`
  | some (.error x) => some (some x, { s with evs := upd s.evs e ev1 })
  | some (.ok v) =>
    let ev2 := { ev1 with results := ev1.results ++ [(i, v)] }
    let (ev3, q) := enqueue e (ev2.children i) ev2 s.ready
    some (none, { s with evs := upd s.evs e ev3, ready := q })

/-- `_evaluate` is left. -/
def State.leave (s : State V E) (e : Nat) (out : EvalOut V E) : State V E :=
  { s with evs := upd s.evs e { s.evs e with live := false }, log := .left e out :: s.log }

/-- What the program does with the outcome of its evaluation. -/
def Prog.resume (p : Prog V E) (out : EvalOut V E) : Prog V E :=
  match p with
  | .eval _ _ _ k => k out
  | p => p

/-- One step of the main thread. -/
def stepMain (s : State V E) : Option (State V E) :=
  match s.mainPhase with
  | .ended => none
  | .joining i =>
    if i < s.nw then
      if (s.workers i).finished then
        if (s.workers i).phase = .ended then some { s with mainPhase := .joining (i + 1) } else none
      else some { s with workers := upd s.workers i { s.workers i with finished := true } }
    else some { s with mainPhase := .ended }
  | .code =>
    match s.mainWait with
    | some e =>
      if (s.evs e).count = 0 then
        some { s.leave e (s.evs e).outcome with
          main := s.main.resume (s.evs e).outcome, mainWait := none }
      else
        match (s.evs e).doneQ with
        | [] => none
        | i :: rest =>
          match takeDone s e i rest with
          | none => none
          | some (none, s1) => some s1
          | some (some x, s1) => some { s1.leave e (.raised x) with
              main := s1.main.resume (.raised x), mainWait := none }
    | none =>
      match s.main with
      | .ret _ | .raise _ =>
        some { s with mainPhase := .joining 0, ready := List.replicate s.nw none ++ s.ready }
      | .pause k => some { s with main := k }
      | .eval n deps body _ => some { spawn s none n deps body with mainWait := some s.next }

/-- `run_one` (sched.py:360-380) and `Task.run` (410-416) begin with a task. -/
def startTask (s : State V E) (w : Nat) (t : TaskId) : State V E :=
  let ev := s.evs t.1
  { s with
    lock := some w
    evs := upd s.evs t.1 { ev with status := upd ev.status t.2 (.active w) }
    workers := upd s.workers w { s.workers w with
      phase := .code, stack := ⟨t, ev.body t.2, none⟩ :: (s.workers w).stack }
    log := .start t :: s.log }

/-- `run_one` ends: the task is put into its done queue (sched.py:376).  The thread goes on with the
evaluation in which it took the task, or releases the lock and reads the next item. -/
def endTask (s : State V E) (w : Nat) (t : TaskId) (r : Except E V) (rest : List (Frame V E)) :
    State V E :=
  let ev := s.evs t.1
  { s with
    lock := if rest = [] then none else s.lock
    evs := upd s.evs t.1 { ev with
      status := upd ev.status t.2 .finished, res := upd ev.res t.2 (some r), doneQ := ev.doneQ ++ [t.2] }
    workers := upd s.workers w { s.workers w with
      phase := if rest = [] then .top else .check, stack := rest }
    log := .finish t r :: s.log }

/-- set the phase of a worker -/
def State.phase (s : State V E) (w : Nat) (p : Phase) : State V E :=
  { s with workers := upd s.workers w { s.workers w with phase := p } }

/-- replace the top frame of a worker and set its phase -/
def State.frame (s : State V E) (w : Nat) (p : Phase) (f : Frame V E) (rest : List (Frame V E)) :
    State V E :=
  { s with workers := upd s.workers w { s.workers w with phase := p, stack := f :: rest } }

/-- take an item from the ready queue -/
def State.take (s : State V E) (w : Nat) (it : Item) (q : List Item) : State V E :=
  match it with
  | none => { s with ready := q }
  | some t => { s with ready := q, evs := upd s.evs t.1 { s.evs t.1 with
      status := upd (s.evs t.1).status t.2 (.held w) } }

/-- One step of worker `w`. -/
def stepWorker (s : State V E) (w : Nat) : Option (State V E) :=
  match (s.workers w).phase with
  | .ended => none
  | .top => some (if (s.workers w).finished then s.phase w .ended else s.phase w .reading)
  | .reading =>
    match s.ready with
    | [] => none
    | it :: q => some ((s.take w it q).phase w (.took it))
  | .took it =>
    if s.lock = none then
      match it with
      | none => some (s.phase w .ended)
      | some t => some (startTask s w t)
    else none
  | .paused => if s.lock = none then some { s.phase w .code with lock := some w } else none
  | .poll =>
    match s.ready with
    | [] => some (s.phase w (.polled none))
    | it :: q => some ((s.take w it q).phase w (.polled (some it)))
  | .polled it =>
    if s.lock = none then
      match it with
      | some (some t) => some (startTask s w t)
      | _ => some { s.phase w .check with lock := some w }
    else none
  | .check =>
    match (s.workers w).stack with
    | [] => none
    | f :: rest =>
      match f.wait with
      | none => none
      | some e =>
        match (s.evs e).doneQ with
        | [] => some (s.phase w .code)
        | i :: dq =>
          match takeDone s e i dq with
          | none => none
          | some (none, s1) => some (s1.phase w .code)
          | some (some x, s1) =>
            some ((s1.leave e (.raised x)).frame w .code
              { f with prog := f.prog.resume (.raised x), wait := none } rest)
  | .code =>
    match (s.workers w).stack with
    | [] => none
    | f :: rest =>
      match f.wait with
      | some e =>
        if (s.evs e).count = 0 then
          some ((s.leave e (s.evs e).outcome).frame w .code
            { f with prog := f.prog.resume (s.evs e).outcome, wait := none } rest)
        else some { s.phase w .poll with lock := none }
      | none =>
        match f.prog with
        | .ret v => some (endTask s w f.task (.ok v) rest)
        | .raise x => some (endTask s w f.task (.error x) rest)
        | .pause k => some { s.frame w .paused { f with prog := k } rest with lock := none }
        | .eval n deps body _ =>
          some ((spawn s (some w) n deps body).frame w .code { f with wait := some s.next } rest)

/-- A thread: the main thread or a worker. -/
inductive Thread where
  | main | worker (w : Nat)
  deriving DecidableEq

/-- One step of a thread, `none` if it cannot move. -/
def step (s : State V E) : Thread → Option (State V E)
  | .main => stepMain s
  | .worker w => if w < s.nw then stepWorker s w else none

/-- `Scheduler(nw)` (sched.py:71-98; `nw` is at least 1 there) and a main program that uses it. -/
def State.init (nw : Nat) (p : Prog V E) : State V E where
  nw := nw
  ready := []
  lock := none
  evs := fun _ => ⟨0, fun _ => [], fun _ => p, fun _ => .new, fun _ => none, [], 0, [], false, none⟩
  next := 0
  workers := fun _ => ⟨.top, [], false⟩
  main := p
  mainWait := none
  mainPhase := .code
  log := []

/-- the states that occur under some schedule -/
inductive Reach (nw : Nat) (p : Prog V E) : State V E → Prop
  | init : Reach nw p (State.init nw p)
  | step {s s' : State V E} (th : Thread) : Reach nw p s → step s th = some s' → Reach nw p s'

/-- run a schedule; threads that cannot move are passed over -/
def run (s : State V E) : List Thread → State V E
  | [] => s
  | th :: ths => run ((step s th).getD s) ths

theorem run_reach {nw : Nat} {p : Prog V E} {s : State V E} (h : Reach nw p s) (ths : List Thread) :
    Reach nw p (run s ths) := by
  induction ths generalizing s with
  | nil => exact h
  | cons th ths ih =>
    apply ih
    cases hs : step s th with
    | none => exact h
    | some s' => exact .step th h hs

end Verif.Sched
