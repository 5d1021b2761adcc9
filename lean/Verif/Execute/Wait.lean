/-!
# Model of waiting for a process with a time limit (lib/fbuild/subprocess/killableprocess.py)

`Popen.wait` (213-259) on POSIX, `call` (74-79) and `check_call` (81-90).  Times are in hundredths of a second.  A process has the
time at which it ends by itself, with its status, and possibly a time before at which it is stopped by a signal.  Every look at the clock
or at the process takes a time that is a parameter.  Whether the signal of a child that ends makes `time.sleep` return early is a
parameter too: it does up to Python 3.4, and from 3.5 on (PEP 475) it does not, as the handler `DoNothing` (92-94) returns.
Left out: signals of other children, and errors of the system calls.
-/
namespace Verif.Execute.Wait

/-- the life of a process -/
structure Proc where
  /-- when it ends if nobody kills it -/
  ends : Option Nat
  status : Int
  /-- when it is stopped, and by which signal -/
  stops : Option (Nat × Nat) := none

/-- what comes of a call -/
inductive Result where
  /-- a code is returned, at a time -/
  | returned (code : Int) (time : Nat)
  /-- `time.sleep` raises `ValueError` -/
  | valueError
  /-- the call does not return -/
  | never
  deriving DecidableEq

/-- the result, when the group of the process was killed, and whether the handler of SIGCHLD is that from before -/
structure Out where
  result : Result
  killed : Option Nat
  restored : Bool
  deriving DecidableEq

/-- `os.waitpid(self.pid, os.WNOHANG)` (240) finds the process ended -/
def endedBy (p : Proc) (t : Nat) : Bool :=
  match p.ends with
  | some e => decide (e ≤ t)
  | none => false

/-- `time.sleep` (247-248): the time at which it is over -/
def sleep (intr : Bool) (p : Proc) (t dur : Nat) : Nat :=
  match p.ends with
  | some e => if intr && decide (t < e) && decide (e < t + dur) then e else t + dur
  | none => t + dur

/-- the loop of `wait` (239-252): `d` are the times that the looks at the clock and at the process take; `i` counts the rounds -/
def loop (intr : Bool) (p : Proc) (d : Nat → Nat) (start limit : Nat) : (fuel i now : Nat) → Out
  | 0, _, _ => ⟨.never, none, false⟩
  | fuel + 1, i, now =>
    -- `time.time() < starttime + timeout - 0.01` (239)
    let t1 := now + d (3 * i)
    if t1 + 1 < start + limit then
      let t2 := t1 + d (3 * i + 1)
      if endedBy p t2 then ⟨.returned p.status t2, none, true⟩
      else
        let t3 := t2 + d (3 * i + 2)
        -- the argument of `sleep` is negative (246-247)
        if start + limit < t3 then ⟨.valueError, none, false⟩
        else loop intr p d start limit fuel (i + 1) (sleep intr p (sleep intr p t3 (start + limit - t3)) 10)
    else
      -- `self.kill(group)` sets the return code -9 (250, 206), and `Popen.wait` then returns at once (252)
      ⟨.returned (-9) t1, some t1, true⟩

/-- `subprocess.Popen.wait(self)` (231-233) with `WUNTRACED` (208-211): a process that is stopped counts as ended -/
def waitForever (p : Proc) (start : Nat) : Out :=
  match p.stops with
  | some (t, sig) => ⟨.returned (-(sig : Int)) (max start t), none, true⟩
  | none =>
    match p.ends with
    | some e => ⟨.returned p.status (max start e), none, true⟩
    | none => ⟨.never, none, true⟩

/-- `wait` (213-254); no limit is `-1` or `None` -/
def wait (intr : Bool) (p : Proc) (d : Nat → Nat) (fuel start : Nat) : Option Nat → Out
  | none => waitForever p start
  | some limit => loop intr p d start limit fuel 0 start

/-- the outcomes of `check_call` -/
inductive Checked where
  | returns
  | calledProcessError (code : Int)
  | valueError
  | never
  deriving DecidableEq

/-- `check_call` (81-90) -/
def checkCall (intr : Bool) (p : Proc) (d : Nat → Nat) (fuel start : Nat) (limit : Option Nat) : Checked :=
  match (wait intr p d fuel start limit).result with
  | .returned code _ => if code ≠ 0 then .calledProcessError code else .returns
  | .valueError => .valueError
  | .never => .never

end Verif.Execute.Wait
