/-!
# Model of `Context.execute` in lib/fbuild/context.py

The calling thread, the child process and the timer thread of `execute` (106-257) as a transition system.  Left out:
what is logged, the environment of the child, the captured output, and interrupts outside of the call to `communicate`.
A child killed by a signal `n` has the return code `-n`.  The system is not Windows, and children are not stopped
(`wait` in killableprocess.py would also return for a stopped child).
-/
namespace Verif.Execute

inductive Outcome where
  | returned
  | executionError
  | timedOut
  | keyboardInterrupt
  | osError
  deriving DecidableEq, Repr

/-- where the calling thread is -/
inductive Phase where
  /-- before `Popen` (196) -/
  | start
  /-- in `communicate` or `wait` (208-210) -/
  | waiting
  /-- behind `wait`, before the `finally` (215-225) -/
  | reaped (code : Int)
  /-- an exception is on its way to the `finally` (211-223) -/
  | raising (o : Outcome)
  /-- behind the `finally` (226-250) -/
  | cancelled (code : Int)
  | done (o : Outcome)
  deriving DecidableEq, Repr

inductive Child where
  | absent | running
  /-- ended with this return code -/
  | ended (code : Int)
  deriving DecidableEq, Repr

/-- the timer thread (182-189, 204-206) -/
inductive Timer where
  | absent | waiting
  /-- the time is over, `timed_out = True` is about to be run -/
  | fired
  /-- `timed_out` is set, `p.kill` is about to be run -/
  | flagged
  | over | cancelled
  deriving DecidableEq, Repr

structure Config where
  /-- is a `timeout` given (and not 0)? -/
  timeout : Bool
  ignoreError : Bool

structure State where
  phase : Phase := .start
  child : Child := .absent
  timer : Timer := .absent
  /-- the variable `timed_out` -/
  timedOut : Bool := false
  /-- `p.returncode`, as far as `kill` sets it -/
  returncode : Option Int := none
  /-- history: the child was killed because of the timeout -/
  killed : Bool := false
  /-- history: `KeyboardInterrupt` came while the child ran -/
  interrupted : Bool := false
  /-- history: the operating system reported an error -/
  failed : Bool := false

/-- `kill` (killableprocess.py 187-206): the child ends by the signal 9 if it is still running -/
def Child.kill : Child → Child
  | .running => .ended (-9)
  | c => c

/-- `timer.cancel()` (224-225): no effect on a timer whose time is over -/
def Timer.cancel : Timer → Timer
  | .waiting => .cancelled
  | t => t

/-- The outcome (252-257). -/
def decideOutcome (c : Config) (timedOut : Bool) (code : Int) : Outcome :=
  if c.timeout && timedOut then .timedOut
  else if code ≠ 0 ∧ ¬ c.ignoreError then .executionError
  else .returned

/-- One step. -/
inductive Step (c : Config) : State → State → Prop
  /-- `Popen` and the start of the timer (195-206) -/
  | popen (s : State) : s.phase = .start →
      Step c s { s with phase := .waiting, child := .running, timer := if c.timeout then .waiting else .absent }
  /-- `Popen` raises (195-201, 220-223) -/
  | popenFails (s : State) : s.phase = .start → Step c s { s with phase := .raising .osError, failed := true }
  /-- the child ends by itself or by a signal from elsewhere -/
  | childEnds (s : State) (code : Int) : s.child = .running → Step c s { s with child := .ended code }
  /-- the time is over -/
  | timerFires (s : State) : s.timer = .waiting → Step c s { s with timer := .fired }
  /-- `timed_out = True` (185-186) -/
  | timerFlags (s : State) : s.timer = .fired → Step c s { s with timer := .flagged, timedOut := true }
  /-- `p.kill(group=True)` (187) -/
  | timerKills (s : State) : s.timer = .flagged →
      Step c s { s with timer := .over, child := s.child.kill, returncode := some (-9),
                        killed := s.killed || s.child = .running }
  /-- `communicate` and `wait` return (208-210); `wait` prefers what `kill` has set (killableprocess.py 219-220) -/
  | reap (s : State) (code : Int) : s.phase = .waiting → s.child = .ended code →
      Step c s { s with phase := .reaped (s.returncode.getD code) }
  /-- `KeyboardInterrupt` in `communicate`; the child gets a signal 2 and may end (211-214) -/
  | interrupt (s : State) : s.phase = .waiting →
      Step c s { s with phase := .raising .keyboardInterrupt, returncode := some (-9), interrupted := true }
  /-- `communicate` raises (208-210, 220-223) -/
  | communicateFails (s : State) : s.phase = .waiting → Step c s { s with phase := .raising .osError, failed := true }
  /-- the child died of ctrl-c (215-218) -/
  | ctrlC (s : State) : s.phase = .reaped (-2) → Step c s { s with phase := .raising .keyboardInterrupt }
  /-- the `finally` (224-225) on the way out -/
  | cancel (s : State) (code : Int) : s.phase = .reaped code → code ≠ -2 →
      Step c s { s with phase := .cancelled code, timer := s.timer.cancel }
  /-- the `finally` (224-225) with an exception -/
  | cancelRaising (s : State) (o : Outcome) : s.phase = .raising o →
      Step c s { s with phase := .done o, timer := s.timer.cancel }
  /-- the end (252-257) -/
  | finish (s : State) (code : Int) : s.phase = .cancelled code →
      Step c s { s with phase := .done (decideOutcome c s.timedOut code) }

inductive Reach (c : Config) : State → Prop
  | init : Reach c {}
  | step {s t : State} : Reach c s → Step c s t → Reach c t

end Verif.Execute
