/-!
# Model of `Log` in lib/fbuild/console.py

What goes into the log file.  First what one thread does, with its own stack of buffers (`_ThreadStack`, 97-100, is local to
the thread), then several threads with the lock.  The terminal, colours and verbosity are in `Console/Terminal.lean`.
Left out: messages that are no texts, and errors of the file.
-/
namespace Verif.Console

/-- a piece of text passed to `write` -/
abbrev Msg := List Char

/-- the buffers of a thread, the innermost first -/
abbrev Stack := List (List Msg)

def newline : Msg := ['\n']

/-- The messages of a buffer are written one by one, and `_write` flushes after each (142-152, 155-159). -/
def writes (flush : Stack → List Msg × Stack) : List Msg → Stack → List Msg × Stack
  | [], st => ([], st)
  | m :: ms, st =>
    let (o1, st1) := flush st
    let (o2, st2) := writes flush ms st1
    (m :: o1 ++ o2, st2)

/-- `flush` (154-163).  It takes off a buffer, so the number of buffers bounds the recursion. -/
def flushN : Nat → Stack → List Msg × Stack
  | 0, st => ([], st)
  | _ + 1, [] => ([], [])
  | n + 1, top :: rest => writes (flushN n) top rest

def flush (st : Stack) : List Msg × Stack := flushN st.length st

/-- `write` (130-140): what is written now, and the buffers after it -/
def write (threadcount : Nat) (m : Msg) (buffer : Bool) (st : Stack) : List Msg × Stack :=
  if !buffer || threadcount = 1 then
    let (o, st) := flush st
    (m :: o, st)
  else match st with
    | [] => ([m], [])
    | top :: rest =>
      if m.getLast? = some '\n' then flush ((top ++ [m]) :: rest)
      else ([], (top ++ [m]) :: rest)

inductive Op where
  /-- the begin of `with log_from_thread()` (121-126) -/
  | enter
  /-- the end of `with log_from_thread()` (127-128) -/
  | exit
  | write (m : Msg) (buffer : Bool)
  /-- `log` (165-168) -/
  | log (m : Msg)
  deriving DecidableEq

/-- what one operation of a thread writes, and the buffers after it -/
def op (threadcount : Nat) : Op → Stack → List Msg × Stack
  | .enter, st => ([], [] :: st)
  | .exit, st => flush st
  | .write m b, st => write threadcount m b st
  | .log m, st =>
    let (o1, st1) := write threadcount m true st
    let (o2, st2) := write threadcount newline true st1
    (o1 ++ o2, st2)

/-- the operations of one thread -/
def run (threadcount : Nat) : List Op → Stack → List Msg × Stack
  | [], st => ([], st)
  | o :: os, st =>
    let (o1, st1) := op threadcount o st
    let (o2, st2) := run threadcount os st1
    (o1 ++ o2, st2)

/-- Is the lock held while this operation writes?  Only a `write` without a buffer in a build with several threads goes
without it (140). -/
def locked (threadcount : Nat) : Op → Stack → Bool
  | .write _ true, [] => threadcount = 1
  | _, _ => true

/-! ## Several threads -/

structure Thread where
  todo : List Op
  stack : Stack := []
  /-- what the operation in progress still has to write -/
  pending : List Msg := []
  /-- does it hold the lock? -/
  holds : Bool := false

structure State where
  threads : Nat → Thread
  lock : Option Nat := none
  /-- the log file: the messages, with the thread that wrote them -/
  out : List (Nat × Msg) := []

def State.set (s : State) (t : Nat) (x : Thread) : State :=
  { s with threads := fun u => if u = t then x else s.threads u }

inductive Step (threadcount : Nat) : State → State → Prop
  /-- an operation begins, with the lock -/
  | beginLocked (s : State) (t : Nat) (o : Op) (os : List Op) :
      (s.threads t).todo = o :: os → (s.threads t).pending = [] → (s.threads t).holds = false → s.lock = none →
      locked threadcount o (s.threads t).stack = true →
      Step threadcount s { s.set t ⟨os, (op threadcount o (s.threads t).stack).2,
        (op threadcount o (s.threads t).stack).1, true⟩ with lock := some t }
  /-- an operation begins, without the lock -/
  | beginUnlocked (s : State) (t : Nat) (o : Op) (os : List Op) :
      (s.threads t).todo = o :: os → (s.threads t).pending = [] → (s.threads t).holds = false →
      locked threadcount o (s.threads t).stack = false →
      Step threadcount s (s.set t ⟨os, (op threadcount o (s.threads t).stack).2,
        (op threadcount o (s.threads t).stack).1, false⟩)
  /-- `self.file.write(msg)` (146) -/
  | emit (s : State) (t : Nat) (m : Msg) (ms : List Msg) :
      (s.threads t).pending = m :: ms →
      Step threadcount s { s.set t { s.threads t with pending := ms } with out := s.out ++ [(t, m)] }
  /-- the operation ends and releases the lock -/
  | release (s : State) (t : Nat) :
      (s.threads t).pending = [] → (s.threads t).holds = true →
      Step threadcount s { s.set t { s.threads t with holds := false } with lock := none }

/-- the states of a build whose threads do these operations -/
inductive Reach (threadcount : Nat) (prog : Nat → List Op) : State → Prop
  | init : Reach threadcount prog { threads := fun t => ⟨prog t, [], [], false⟩ }
  | step {s s' : State} : Reach threadcount prog s → Step threadcount s s' → Reach threadcount prog s'

/-- all operations are done -/
def State.Finished (s : State) : Prop := ∀ t, (s.threads t).todo = [] ∧ (s.threads t).pending = []

end Verif.Console
