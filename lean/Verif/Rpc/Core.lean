/-!
# Model of `lib/fbuild/rpc.py`

The server thread and its clients as a transition system.  A step is a piece of code between two points
where threads can be switched with an effect: taking a message, handling it, the critical section of
`call`, waking up, the parts of `join`.

Not modelled: the return values of `start`, the flush of `stdout`, `KeyboardInterrupt` (it is a
`BaseException` as far as the callers are concerned).
-/
namespace Verif.Rpc

/-- What the handler does with a request. -/
inductive Outcome (V E : Type) where
  | ret (v : V)
  /-- it returns an object that is an instance of `BaseException` -/
  | retExc (e : E)
  /-- it raises an `Exception` -/
  | exc (e : E)
  /-- it raises a `BaseException` that is no `Exception` -/
  | fatal (e : E)
  deriving DecidableEq

variable {Q S V E : Type}

/-- What `call` does with `result.result` (rpc.py:67-70). -/
def Outcome.answer : Outcome V E → Except E V
  | .ret v => .ok v
  | .retExc e => .error e
  | .exc e => .error e
  | .fatal e => .error e

/-- A message in the queue: a request with its client and number, or `_NULL`. -/
inductive Msg (Q : Type) where
  | call (client id : Nat) (q : Q)
  | null
  deriving DecidableEq

/-- Phases of the server thread (`run`, rpc.py:77-105). -/
inductive Phase (Q : Type) where
  /-- `_started` is set, `_running` is not (between lines 80 and 81) -/
  | starting
  /-- before `queue.get` -/
  | get
  /-- has a message -/
  | handling (client id : Nat) (q : Q)
  /-- has left the loop, `_running` is still set -/
  | leaving
  | ended
  deriving DecidableEq

instance (p : Phase Q) : Decidable (p = .ended) :=
  match p with
  | .ended => isTrue rfl
  | .starting => isFalse nofun
  | .get => isFalse nofun
  | .handling _ _ _ => isFalse nofun
  | .leaving => isFalse nofun

/-- Phases of a client. -/
inductive Client where
  | idle
  /-- waits for the event of its request (line 62) -/
  | waiting (id : Nat)
  /-- in `join`, before the lock (line 127) -/
  | joinWant
  /-- in `join`, has put `_NULL` (lines 130-132) -/
  | joinWait
  deriving DecidableEq

structure State (Q S V E : Type) where
  running : Bool
  phase : Phase Q
  queue : List (Msg Q)
  /-- `queue.unfinished_tasks` -/
  unfinished : Nat
  /-- the holder of `_lock` outside of the critical section of `call` -/
  lock : Option Nat
  /-- `_events.event`, one for each client -/
  event : Nat → Bool
  client : Nat → Client
  /-- the `_Result` of each request -/
  result : Nat → Option (Outcome V E)
  /-- the state the handler works on -/
  st : S
  /-- history: the requests in the order in which they were put into the queue -/
  asked : List (Nat × Q)
  /-- history: what the handler did, in order -/
  log : List (Outcome V E)
  /-- history: (client, number, what `call` returned or raised) -/
  answers : List (Nat × Nat × Except E V)
  /-- history: calls that raised `RPCNotRunning` -/
  refused : List (Nat × Q)

def set {α : Type} (f : Nat → α) (i : Nat) (v : α) : Nat → α := fun j => if j = i then v else f j

/-- the state in which `start` returns -/
def init (s : S) : State Q S V E where
  running := false
  phase := .starting
  queue := []
  unfinished := 0
  lock := none
  event := fun _ => false
  client := fun _ => .idle
  result := fun _ => none
  st := s
  asked := []
  log := []
  answers := []
  refused := []

inductive Event (Q : Type) where
  | server
  | call (c : Nat) (q : Q)
  | wake (c : Nat)
  | join (c : Nat)

/-- One step of the server thread (rpc.py:77-121). -/
def server (h : Q → S → Outcome V E × S) (s : State Q S V E) : Option (State Q S V E) :=
  match s.phase with
  | .starting => some { s with running := true, phase := .get }
  | .get =>
    match s.queue with
    | [] => none
    | .null :: q => some { s with queue := q, unfinished := s.unfinished - 1, phase := .leaving }
    | .call c k r :: q => some { s with queue := q, phase := .handling c k r }
  | .handling c k r =>
    let (o, st) := h r s.st
    some { s with
      st := st, result := set s.result k (some o), event := set s.event c true, log := s.log ++ [o]
      unfinished := s.unfinished - 1
      phase := match o with
        | .fatal _ => .leaving
        | _ => .get }
  | .leaving => some { s with running := false, phase := .ended }
  | .ended => none

/-- One step of an execution; `none` if it is not possible. -/
def step (h : Q → S → Outcome V E × S) (s : State Q S V E) : Event Q → Option (State Q S V E)
  | .server => server h s
  | .call c r =>                                        -- rpc.py:42-59
    if s.client c = .idle ∧ s.lock = none then
      if s.running then
        let k := s.asked.length
        some { s with
          event := set s.event c false, result := set s.result k none
          queue := s.queue ++ [.call c k r], unfinished := s.unfinished + 1
          client := set s.client c (.waiting k), asked := s.asked ++ [(c, r)] }
      else some { s with refused := (c, r) :: s.refused }
    else none
  | .wake c =>                                          -- rpc.py:62-70
    match s.client c with
    | .waiting k =>
      if s.event c then
        match s.result k with
        | none => none                                  -- the assertion of line 64
        | some o => some { s with
            client := set s.client c .idle, answers := (c, k, o.answer) :: s.answers }
      else none
    | _ => none
  | .join c =>                                          -- rpc.py:123-132
    match s.client c with
    | .idle => if s.running then some { s with client := set s.client c .joinWant } else some s
    | .joinWant =>
      if s.lock = none then some { s with
        lock := some c, queue := s.queue ++ [.null], unfinished := s.unfinished + 1
        client := set s.client c .joinWait }
      else none
    | .joinWait =>
      if s.unfinished = 0 ∧ s.phase = .ended then
        some { s with lock := none, client := set s.client c .idle }
      else none
    | .waiting _ => none

/-- run a schedule; steps that are not possible are passed over -/
def run (h : Q → S → Outcome V E × S) (s : State Q S V E) : List (Event Q) → State Q S V E
  | [] => s
  | e :: es => run h ((step h s e).getD s) es

inductive Reach (h : Q → S → Outcome V E × S) (s0 : S) : State Q S V E → Prop
  | init : Reach h s0 (init s0)
  | step {s s'} (e : Event Q) : Reach h s0 s → step h s e = some s' → Reach h s0 s'

theorem run_reach {h : Q → S → Outcome V E × S} {s0 : S} {s : State Q S V E} (hr : Reach h s0 s)
    (es : List (Event Q)) : Reach h s0 (run h s es) := by
  induction es generalizing s with
  | nil => exact hr
  | cons e es ih =>
    apply ih
    cases hs : Rpc.step h s e with
    | none => exact hr
    | some s' => exact .step e hr hs

end Verif.Rpc
