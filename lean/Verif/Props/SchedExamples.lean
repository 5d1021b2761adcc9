import Verif.Props.Sched

/-! # Executions of the scheduler: cases that meet the hypotheses, and what the code does not do -/
namespace Verif.Sched.Ex

deriving instance DecidableEq for Except, EvalOut, Note

/-- the order of the results can be seen in the digits -/
def digits (vs : List Nat) : Nat := vs.foldl (fun a v => 10 * a + v) 0

def lp {S : Type} : List (S × S) → Nat := fun _ => 99

/-- `n` steps of the thread -/
def many (n : Nat) (th : Thread) : List Thread := List.replicate n th

def w (i : Nat) : Thread := .worker i

/-- threads in turn -/
def turns (n : Nat) (ths : List Thread) : List Thread := (List.replicate n ths).flatten

theorem run_init {V E : Type} (nw : Nat) (p : Prog V E) (ths : List Thread) :
    Reach nw p (run (State.init nw p) ths) := run_reach .init ths

/-! ## C26, C27: three tasks, the second one is interruptible, two workers -/

def task (i : Nat) : Prog Nat Nat := if i = 2 then .pause (.ret 5) else .ret (i + 3)

def p1 : Prog Nat Nat := mapP lp task [1, 2, 3] (finish digits)

theorem task_computes (s : Nat) : Computes (task s) (s + 3) := by
  intro r hr
  simp only [task] at hr
  split at hr
  · rename_i h; subst h; exact hr
  · exact hr

/-- The tasks are started in the order 1, 2, 0 and finish in this order. -/
def s1 : State Nat Nat := run (State.init 2 p1)
  ([.main] ++ many 2 (w 0) ++ many 3 (w 1) ++ many 2 (w 0) ++ many 3 (w 1) ++ many 2 (w 0) ++
    many 10 (w 1) ++ many 8 .main)

set_option maxRecDepth 10000 in
theorem s1_left : s1.mainPhase ≠ .code := by decide +kernel

set_option maxRecDepth 10000 in
theorem s1_log : s1.log = [.left 0 (.done [(1, 5), (2, 6), (0, 4)]), .finish (0, 0) (.ok 4), .start (0, 0),
    .finish (0, 2) (.ok 6), .start (0, 2), .finish (0, 1) (.ok 5), .start (0, 1)] := by decide +kernel

example : s1.result = some (.ok 456) := by
  obtain ⟨r, hr⟩ := (run_init 2 p1 _).has_result s1_left
  rw [show s1.result = some r from hr,
    C26_map lp task (· + 3) [1, 2, 3] digits (fun s _ => task_computes s) (run_init 2 p1 _) hr]
  rfl

set_option maxRecDepth 10000 in
example : starts s1.log (0, 2) = 1 :=
  (C27_exactly_once (run_init 2 p1 _) (show .left 0 (.done [(1, 5), (2, 6), (0, 4)]) ∈ s1.log by
    rw [s1_log]; simp) (show 2 < (s1.evs 0).n by decide +kernel)).1

set_option maxRecDepth 10000 in
/-- A task waits in its interruptible section while another worker runs a task: both hypotheses of
`C34_one_worker_partial` can be met only by one worker, but a second one is not idle. -/
example : ((run (State.init 2 p1) ([.main] ++ many 3 (w 0) ++ many 2 (w 1))).workers 0).phase
      = .code ∧
    ((run (State.init 2 p1) ([.main] ++ many 3 (w 0) ++ many 2 (w 1))).workers 1).phase
      = .took (some (0, 1)) := by decide +kernel

/-! ## C26, nested: one worker -/

def tree : Tree Nat := .node [.leaf 1, .node [.leaf 2, .node [], .leaf 3], .leaf 4]

def p2 : Prog Nat Nat :=
  mapP lp id [.pause (.ret 1),
    mapP lp id [.pause (.ret 2), mapP lp id [] (finish digits), .pause (.ret 3)] (finish digits),
    .pause (.ret 4)] (finish digits)

theorem p2_eq : p2 = tree.prog lp digits := by simp [p2, tree, Tree.prog]

theorem s2_reach (ths : List Thread) : Reach 1 (tree.prog lp digits) (run (State.init 1 p2) ths) :=
  p2_eq ▸ run_init 1 p2 ths

def s2 : State Nat Nat := run (State.init 1 p2) (turns 60 [.main, w 0])

set_option maxRecDepth 20000 in
theorem s2_left : s2.mainPhase ≠ .code := by decide +kernel

example : s2.result = some (.ok 2134) := by
  obtain ⟨r, hr⟩ := (run_init 1 p2 _).has_result s2_left
  rw [show s2.result = some r from hr, C26_nested lp digits tree (s2_reach _) hr]
  simp [tree, Tree.value, digits]

/-! ## C28, C29: sources with dependencies -/

/-- 3 depends on 1 and 2, 2 on 1 (and on 7, which is not given) -/
def D (s : Nat) : List Nat := if s = 3 then [2, 1] else if s = 2 then [1, 7] else []

abbrev P := Prog (List Nat) (List (Nat × Nat))

def p3 : P := mapDepsP id (fun s => .ret (D s)) id (fun s => .pause (.ret [s])) [3, 2, 1, 2] (finish List.flatten)

theorem D_depends : Depends (E := List (Nat × Nat)) (fun s => .ret (D s)) id [3, 2, 1, 2] D := by
  intro s _ r hr
  exact ⟨_, hr, rfl⟩

theorem D_lt {a b : Nat} (h : Relation.TransGen (Dep D [3, 2, 1, 2]) a b) : b < a := by
  have step : ∀ a b, Dep D [3, 2, 1, 2] a b → b < a := by
    rintro a b ⟨h1, h2, h3⟩
    simp only [D] at h3
    simp only [List.mem_cons, List.not_mem_nil, or_false] at h2
    split at h3
    · simp at h3; omega
    · split at h3
      · simp at h3; omega
      · simp at h3
  induction h with
  | single h => exact step _ _ h
  | tail _ h ih => have := step _ _ h; omega

def s3 : State (List Nat) (List (Nat × Nat)) := run (State.init 2 p3) (turns 60 [.main, w 0, w 1])

set_option maxRecDepth 20000 in
theorem s3_left : s3.result = some (.ok [1, 2, 3]) := by decide +kernel

/-- the hypotheses of `C29_order` are met by `p3`, with an execution that has a result -/
example : ∃ order : (Nat → List Nat) → List Nat → List Nat,
    [1, 2, 3] = ((order D [3, 2, 1, 2]).map (fun s => [s])).flatten ∧ (order D [3, 2, 1, 2]).Nodup := by
  obtain ⟨order, h⟩ := C29_order (V := List Nat) (E := List (Nat × Nat)) (S := Nat)
  obtain ⟨h1, -, -, h2⟩ := h id (fun s => .ret (D s)) id (fun s => .pause (.ret [s])) [3, 2, 1, 2]
    List.flatten D (fun s => [s]) D_depends (fun s _ r hr => hr)
    (fun s hs => by have := D_lt hs; omega)
  refine ⟨order, ?_, h1⟩
  have := h2 2 s3 (.ok [1, 2, 3]) (run_init 2 p3 _) s3_left
  simpa using this

set_option maxRecDepth 20000 in
/-- source 3 is started after source 2 has finished -/
example : ∃ later earlier, s3.log = later ++ .start (1, 0) :: earlier ∧ 1 ∈ (s3.evs 1).deps 0 ∧
    1 < (s3.evs 1).n ∧ .finish (1, 1) (.ok [2]) ∈ earlier :=
  ⟨s3.log.takeWhile (· ≠ .start (1, 0)), (s3.log.dropWhile (· ≠ .start (1, 0))).tail, by decide +kernel⟩

/-! ## C31: loops -/

/-- 1 and 2 depend on each other -/
def D2 (s : Nat) : List Nat := if s = 1 then [2] else if s = 2 then [1] else []

def p4 : P := mapDepsP id (fun s => .ret (D2 s)) id (fun s => .ret [s]) [3, 1, 2] (finish List.flatten)

def s4 : State (List Nat) (List (Nat × Nat)) := run (State.init 2 p4) (turns 60 [.main, w 0, w 1])

set_option maxRecDepth 20000 in
theorem s4_result : s4.result = some (.error [(1, 2), (2, 1)]) := by decide +kernel

example : Depends (E := List (Nat × Nat)) (fun s => .ret (D2 s)) id [3, 1, 2] D2 ∧ Reach 2 p4 s4 ∧
    OnLoop D2 [3, 1, 2] 1 :=
  ⟨fun _ _ _ hr => ⟨_, hr, rfl⟩, run_init 2 p4 _,
    .tail (.single ⟨by simp, by simp, by simp [D2]⟩ : Relation.TransGen (Dep D2 [3, 1, 2]) 1 2)
      ⟨by simp, by simp, by simp [D2]⟩⟩

/-- 1, 2 and 3 depend on each other in a circle -/
def D3 (s : Nat) : List Nat := if s = 1 then [2] else if s = 2 then [3] else if s = 3 then [1] else []

def p5 : P := mapDepsP id (fun s => .ret (D3 s)) id (fun s => .ret [s]) [1, 2, 3] (finish List.flatten)

def s5 : State (List Nat) (List (Nat × Nat)) := run (State.init 1 p5) (turns 60 [.main, w 0])

set_option maxRecDepth 20000 in
/-- C31 is false: the exception for a loop of three sources names none of them. -/
theorem C31_names_violated : ∃ (D : Nat → List Nat) (srcs : List Nat)
    (s : State (List Nat) (List (Nat × Nat))),
    (∀ a ∈ srcs, OnLoop D srcs a) ∧
    Reach 1 (mapDepsP id (fun s => .ret (D s)) id (fun s => .ret [s]) srcs (finish List.flatten)) s ∧
    s.result = some (.error []) := by
  refine ⟨D3, [1, 2, 3], s5, ?_, run_init 1 p5 _, by decide +kernel⟩
  have h1 : Dep D3 [1, 2, 3] 1 2 := ⟨by simp, by simp, by simp [D3]⟩
  have h2 : Dep D3 [1, 2, 3] 2 3 := ⟨by simp, by simp, by simp [D3]⟩
  have h3 : Dep D3 [1, 2, 3] 3 1 := ⟨by simp, by simp, by simp [D3]⟩
  intro a ha
  simp only [List.mem_cons, List.not_mem_nil, or_false] at ha
  rcases ha with rfl | rfl | rfl
  · exact .tail (.tail (.single h1) h2) h3
  · exact .tail (.tail (.single h2) h3) h1
  · exact .tail (.tail (.single h3) h1) h2

/-! ## C32, C33: a task fails -/

/-- task 1 raises 7 -/
def p6 : Prog Nat Nat := mapP lp (fun i => if i = 1 then .raise 7 else .ret i) [0, 1] (finish digits)

/-- the failing task, which is taken first, then the main thread, then the other task -/
def s6 : State Nat Nat := run (State.init 1 p6) ([.main] ++ many 4 (w 0) ++ [.main] ++ many 3 (w 0))

theorem s6_log : s6.log = [.start (0, 0), .left 0 (.raised 7), .finish (0, 1) (.error 7), .start (0, 1)] := by
  decide +kernel

theorem p6_reach : Reach 1 p6 s6 := run_init 1 p6 _

example : ∀ rs, .left 0 (.done rs) ∉ s6.log :=
  C32_not_normal p6_reach (e := 0) (i := 1) (x := 7) (by rw [s6_log]; simp)

example : ∃ i, i < (s6.evs 0).n ∧ .finish (0, i) (.error 7) ∈ s6.log :=
  C32_own_exception p6_reach (by rw [s6_log]; simp)

example : ∃ s r, Reach 1 p6 s ∧ s.result = some r ∧ r = .error 7 :=
  ⟨run (State.init 1 p6) (turns 20 [.main, w 0]), .error 7, run_init 1 p6 _, by decide +kernel, rfl⟩

/-- C33 is false: a task is started after `map` has raised the exception of another task. -/
theorem C33_violated : ∃ (p : Prog Nat Nat) (s : State Nat Nat) (e i : Nat) (x : Nat)
    (earlier : List (Note Nat Nat)), Reach 1 p s ∧ s.log = .start (e, i) :: earlier ∧
      .left e (.raised x) ∈ earlier ∧ i < (s.evs e).n :=
  ⟨p6, s6, 0, 0, 7, _, p6_reach, s6_log, by simp, by decide +kernel⟩

/-- source 2 depends on source 1, which fails -/
def p7 : P := mapDepsP id (fun s => .ret (D s)) id (fun s => if s = 1 then .raise [] else .ret [s]) [2, 1]
  (finish List.flatten)

def s7 : State (List Nat) (List (Nat × Nat)) := run (State.init 1 p7) (turns 60 [.main, w 0])

set_option maxRecDepth 20000 in
example : Reach 1 p7 s7 ∧ .finish (1, 1) (.error []) ∈ s7.log ∧ 1 ∈ (s7.evs 1).deps 0 :=
  ⟨run_init 1 p7 _, by decide +kernel⟩

/-! ## C34: `interruptible` in the main thread

The machine with the main thread's use of `interruptible` (sched.py:104-137).  The lock is a plain lock:
the main thread releases it although a worker has acquired it, and acquires it afterwards.  The second
component tells that the main thread is inside such a section.  Main has the number `nw`. -/

variable {V E : Type}

/-- the worker is about to leave `with self.__controlling_lock` (line 346) -/
def leaves (s : State V E) (i : Nat) : Bool :=
  match (s.workers i).phase, (s.workers i).stack with
  | .code, [⟨_, .ret _, none⟩] => true
  | .code, [⟨_, .raise _, none⟩] => true
  | _, _ => false

/-- One step.  A worker that leaves the `with` statement without the lock gets a `RuntimeError`, which
ends the thread; a worker that enters an interruptible section without the lock is not modelled. -/
def stepI (x : State V E × Bool) : Thread → Option (State V E × Bool)
  | .main =>
    if x.2 then
      if x.1.lock = none then some ({ x.1 with lock := some x.1.nw }, false) else none
    else
      match x.1.mainPhase, x.1.mainWait, x.1.main with
      | .code, none, .pause k => some ({ x.1 with main := k, lock := none }, x.1.lock.isSome)
      | _, _, _ => (stepMain x.1).map (fun s => (s, false))
  | .worker i =>
    if leaves x.1 i = true ∧ x.1.lock = none then
      (step x.1 (.worker i)).map (fun s => (s.phase i .ended, x.2))
    else (step x.1 (.worker i)).map (fun s => (s, x.2))

inductive ReachI (nw : Nat) (p : Prog V E) : State V E × Bool → Prop
  | init : ReachI nw p (State.init nw p, false)
  | step {x y : State V E × Bool} (th : Thread) : ReachI nw p x → stepI x th = some y → ReachI nw p y

def runI (x : State V E × Bool) : List Thread → State V E × Bool
  | [] => x
  | th :: ths => runI ((stepI x th).getD x) ths

theorem runI_reach {nw : Nat} {p : Prog V E} {x : State V E × Bool} (h : ReachI nw p x)
    (ths : List Thread) : ReachI nw p (runI x ths) := by
  induction ths generalizing x with
  | nil => exact h
  | cons th ths ih =>
    apply ih
    cases hs : stepI x th with
    | none => exact h
    | some s' => exact .step th h hs

/-- A map whose last task fails; the main thread catches the exception and runs a program
(`Context.execute` is interruptible), then maps again. -/
def p8 (n : Nat) : Prog Nat Nat :=
  .eval (n + 1) (fun _ => []) (fun i => if i = n then .raise 7 else .ret i) (fun _ =>
    .pause (mapP lp .ret [1] (finish digits)))

set_option maxRecDepth 20000 in
/-- C34 is false: two workers run the code of a task. -/
theorem C34_violated : ∃ (p : Prog Nat Nat) (x : State Nat Nat × Bool), ReachI 2 p x ∧
    (x.1.workers 0).phase = .code ∧ (x.1.workers 1).phase = .code :=
  ⟨p8 2, _, runI_reach .init ([.main] ++ many 4 (w 0) ++ [.main] ++ many 3 (w 0) ++ many 2 (w 1) ++
    [.main] ++ many 1 (w 1)), by decide +kernel⟩

set_option maxRecDepth 20000 in
/-- C30 and C35 are false when the main thread uses `interruptible`: the only worker has ended with a
`RuntimeError`, and the main thread waits for a task. -/
theorem C30_main_interruptible_violated : ∃ (p : Prog Nat Nat) (x : State Nat Nat × Bool),
    ReachI 1 p x ∧ x.1.mainPhase = .code ∧ x.1.mainWait.isSome = true ∧ ∀ th, stepI x th = none := by
  let x := runI (State.init 1 (p8 1), false)
    ([.main] ++ many 4 (w 0) ++ [.main] ++ many 3 (w 0) ++ [.main] ++ many 1 (w 0) ++ many 3 .main)
  have h0 : x.1.mainPhase = .code ∧ x.1.mainWait.isSome = true ∧ (x.1.workers 0).phase = .ended ∧
      x.1.nw = 1 ∧ (stepI x .main).isNone = true := by decide +kernel
  obtain ⟨h1, h2, h3, h4, h5⟩ := h0
  refine ⟨p8 1, x, runI_reach .init _, h1, h2, ?_⟩
  intro th
  cases th with
  | main => simpa using h5
  | worker i =>
    have : step x.1 (.worker i) = none := by
      simp only [step, h4]
      split
      · rename_i hi
        have : i = 0 := by omega
        subst this
        simp only [stepWorker, h3]
      · rfl
    simp only [stepI, this]
    simp

/-! ## C35: a worker takes the `None` of `shutdown` inside `_evaluate` -/

/-- a map of two tasks: one of them maps again, the other one, which is taken first, raises -/
def p9 : Prog Nat Nat :=
  mapP lp (fun i => if i = 1 then .raise 7 else mapP lp .ret [5] (finish digits)) [0, 1] (finish digits)

set_option maxRecDepth 20000 in
/-- C35 is false: `shutdown` waits for a worker that waits for a task. -/
theorem C35_violated : ∃ (p : Prog Nat Nat) (s : State Nat Nat), Reach 1 p s ∧
    s.mainPhase = .joining 0 ∧ ∀ th, step s th = none := by
  let x := run (State.init 1 p9) ([.main] ++ many 4 (w 0) ++ [.main] ++ many 5 (w 0) ++ [.main] ++
    many 14 (w 0) ++ [.main])
  have h0 : x.mainPhase = .joining 0 ∧ (x.workers 0).phase = .reading ∧ x.ready = [] ∧
      x.nw = 1 ∧ (step x .main).isNone = true := by decide +kernel
  obtain ⟨h1, h2, h3, h4, h5⟩ := h0
  refine ⟨p9, x, run_init 1 p9 _, h1, ?_⟩
  intro th
  cases th with
  | main => simpa using h5
  | worker i =>
    simp only [step, h4]
    split
    · rename_i hi
      have : i = 0 := by omega
      subst this
      simp only [stepWorker, h2, h3]
    · rfl

end Verif.Sched.Ex
