/-!
# Model of the processes that `kill` of lib/fbuild/subprocess/killableprocess.py reaches

The processes of a POSIX machine while `Context.execute` (lib/fbuild/context.py 183-227) runs a command with a time limit.  A
step is something that a process does, that the thread of `execute` does (`wait`, `cancel`), or that the thread of the timer does
(`over`, `ask`, `kill`); they come in any order.

Trusted here: how `fork`, `setsid`, `setpgid`, `getpgid`, `killpg`, `waitpid` work (a number is given to a new process just if no
process has it as its own, its group's or its session's number; a process joins only groups of its session; the leader of a session
stays in its group and session; a process that ended keeps its number until it is waited for).

Simplified: `fork`, `setsid` and `exec` of the child are one step, as `Popen` returns only after `exec`; a process may be waited for
at any time after its end (by its parent or by init); `setpgid` changes a process whoever called it; the permission to send signals
(`killpg` passes over processes of other users).  Not modelled: `kill(sigint=True)` after Ctrl-C, Windows.
-/

namespace Verif.Execute.Procs

structure Proc where
  pid : Nat
  pgid : Nat
  sid : Nat
  /-- has not ended; a process that has ended and has not been waited for is kept with `false` -/
  running : Bool
  /-- for the specification only: it is the command, or was started by the command or by a process started by it, and so on -/
  mine : Bool
  /-- for the specification only: neither it nor one of the processes between it and the command has changed its group -/
  stayed : Bool
deriving DecidableEq, Repr

/-- the timer (context.py 185-193, 206-207, 225-226) and the call of `kill` in its thread -/
inductive Timer
  | waiting
  | cancelled
  /-- `timeout_function` was called -/
  | over
  /-- `os.getpgid(self.pid)` has returned this -/
  | asked (g : Nat)
  | finished
deriving DecidableEq, Repr

structure State where
  procs : List Proc
  /-- `p.pid` -/
  cmd : Nat
  /-- the command was waited for -/
  reaped : Bool
  timer : Timer
deriving DecidableEq, Repr

def find (procs : List Proc) (p : Nat) : Option Proc := procs.find? fun x => x.pid == p

/-- a number that a new process cannot get -/
def used (procs : List Proc) (q : Nat) : Bool := procs.any fun x => x.pid == q || x.pgid == q || x.sid == q

/-- change the process `p` -/
def update (procs : List Proc) (p : Nat) (f : Proc → Proc) : List Proc := procs.map fun x => if x.pid == p then f x else x

inductive Op
  | fork (p q : Nat)
  | exit (p : Nat)
  | reap (p : Nat)
  | setpgid (p g : Nat)
  | setsid (p : Nat)
  | over
  | ask
  | kill
  | wait
  | cancel
deriving DecidableEq, Repr

/-- `Popen(cmd, ...)` (context.py 197-202, killableprocess.py 99-111): the command is the leader of a new session -/
def start (before : List Proc) (q : Nat) : Option State :=
  if used before q then none else
    some { procs := { pid := q, pgid := q, sid := q, running := true, mine := true, stayed := true } ::
             before.map fun x => { x with mine := false, stayed := false }
           cmd := q, reaped := false, timer := .waiting }

/-- one step; `none` if it is not possible -/
def step (s : State) : Op → Option State
  | .fork p q =>
    match find s.procs p with
    | some x => if x.running && !used s.procs q then some { s with procs := { x with pid := q } :: s.procs } else none
    | none => none
  | .exit p =>
    match find s.procs p with
    | some x => if x.running then some { s with procs := update s.procs p fun y => { y with running := false } } else none
    | none => none
  | .reap p =>
    match find s.procs p with
    | some x => if !x.running && (p != s.cmd || s.reaped) then some { s with procs := s.procs.filter fun y => y.pid != p } else none
    | none => none
  | .setpgid p g =>
    match find s.procs p with
    | some x =>
      if x.running && x.sid != p && (g == p || s.procs.any fun y => y.pgid == g && y.sid == x.sid) then
        some { s with procs := update s.procs p fun y => { y with pgid := g, stayed := false } }
      else none
    | none => none
  | .setsid p =>
    match find s.procs p with
    | some x =>
      if x.running && !(s.procs.any fun y => y.pgid == p) then
        some { s with procs := update s.procs p fun y => { y with pgid := p, sid := p, stayed := false } }
      else none
    | none => none
  -- the timer calls `timeout_function` (context.py 187-190)
  | .over => if s.timer = .waiting then some { s with timer := .over } else none
  -- `os.getpgid(self.pid)` (killableprocess.py 200); ESRCH is passed over (203-205)
  | .ask =>
    if s.timer = .over then
      some { s with timer := match find s.procs s.cmd with | some x => .asked x.pgid | none => .finished }
    else none
  -- `os.killpg(..., signal.SIGKILL)` (killableprocess.py 197-205)
  | .kill =>
    match s.timer with
    | .asked g =>
      some { s with procs := s.procs.map fun y => if y.pgid == g then { y with running := false } else y, timer := .finished }
    | _ => none
  -- `p.communicate(input)`, `p.wait()` (context.py 210-211)
  | .wait =>
    match find s.procs s.cmd with
    | some x =>
      if !x.running && !s.reaped then some { s with procs := s.procs.filter fun y => y.pid != s.cmd, reaped := true } else none
    | none => none
  -- `timer.cancel()` (context.py 225-226)
  | .cancel => if s.reaped && s.timer = .waiting then some { s with timer := .cancelled } else none

def run (s : State) : List Op → Option State
  | [] => some s
  | o :: os => match step s o with
    | some s' => run s' os
    | none => none

end Verif.Execute.Procs
