import Verif.Calls.Core
import Verif.Props.DBCalls
/-!
# Nested cached calls: properties

C15, C16.
-/
namespace Verif.Calls
open Verif.DB

variable {B R : Type} [DecidableEq B]

/-- the cached functions that a body calls directly, in order, in the run that starts in `m` -/
def called (sg : Sig B R) (clk : Nat → Nat) (callF : FunName → B → Mach B R → Outcome B R) : Prog B R → Mach B R → List FunName
  | .ret _, _ => []
  | .raise, _ => []
  | .callD _ f b k, m => f :: called sg clk callF (k (callF f b m).1) (callF f b m).2.2
  | .report _ _ k, m => called sg clk callF k m
  | .read x k, m => called sg clk callF (k (m.sys.env.fs.content x)) m
  | .write x c k, m => called sg clk callF k (m.writeFile sg clk x c)

/-- no function raised in these events -/
def NoRaise (evs : Trace B R) : Prop := ∀ q ∈ evs, ∀ id, q.2 ≠ .fail id

/-- what a call does to the call stack: the name is added to the list of the caller, nothing else -/
def Tidy (callF : FunName → B → Mach B R → Outcome B R) : Prop :=
  ∀ f b m, ∃ new, (callF f b m).2.2.trace = new ++ m.trace ∧
    (NoRaise new → (callF f b m).2.2.stack = noteCall f m.stack)

theorem noRaise_append {a b : Trace B R} : NoRaise (a ++ b) ↔ NoRaise a ∧ NoRaise b := by
  simp only [NoRaise, List.mem_append]
  constructor
  · exact fun h => ⟨fun q hq => h q (.inl hq), fun q hq => h q (.inr hq)⟩
  · rintro ⟨h1, h2⟩ q (hq | hq)
    · exact h1 q hq
    · exact h2 q hq

theorem runProg_tidy {sg : Sig B R} {clk : Nat → Nat} {callF : FunName → B → Mach B R → Outcome B R} (ht : Tidy callF) (p : Prog B R)
    (m : Mach B R) : ∃ new, (runProg sg clk callF p m).2.2.trace = new ++ m.trace ∧
      (NoRaise new → ∀ top rest, m.stack = top :: rest →
        (runProg sg clk callF p m).2.2.stack = (top ++ called sg clk callF p m) :: rest) := by
  induction p generalizing m with
  | ret r => exact ⟨[], rfl, by intro _ top rest h; simp [runProg, called, h]⟩
  | raise => exact ⟨[], rfl, by intro _ top rest h; simp [runProg, called, h]⟩
  | callD d f b k ih =>
    obtain ⟨new1, h1, h2⟩ := ht f b m
    obtain ⟨new2, h3, h4⟩ := ih (callF f b m).1 (callF f b m).2.2
    refine ⟨new2 ++ new1, ?_, ?_⟩
    · simp only [runProg]; rw [h3, h1, List.append_assoc]
    · intro hn top rest hs
      rw [noRaise_append] at hn
      have h5 := h2 hn.2
      rw [hs, noteCall] at h5
      have h6 := h4 hn.1 _ _ h5
      simp only [runProg, called]
      rw [h6, List.append_assoc]
      rfl
  | report srcs dsts k ih =>
    obtain ⟨new, h1, h2⟩ := ih m
    exact ⟨new, h1, h2⟩
  | read x k ih =>
    obtain ⟨new, h1, h2⟩ := ih (m.sys.env.fs.content x) m
    exact ⟨new, h1, h2⟩
  | write x c k ih =>
    obtain ⟨new, h1, h2⟩ := ih (m.writeFile sg clk x c)
    refine ⟨new ++ [((step sg m.sys (.tick (clk m.next))).2, .edit x (c.map fun c => ⟨clk m.next, some c⟩)),
      (m.sys, .tick (clk m.next))], by simp only [runProg]; rw [h1]; simp [Mach.event, Mach.writeFile], ?_⟩
    intro hn top rest hs
    rw [noRaise_append] at hn
    exact h2 hn.1 top rest hs

theorem runCall_tidy {sg : Sig B R} {run : Mach B R → Outcome B R} {id : Nat} {m : Mach B R}
    (hr : ∃ new, (run { m with stack := [] :: m.stack }).2.2.trace = new ++ m.trace ∧
      (NoRaise new → (run { m with stack := [] :: m.stack }).1.isSome →
        (run { m with stack := [] :: m.stack }).2.2.stack.tail = m.stack)) :
    ∃ new, (runCall sg run id m).2.2.trace = new ++ m.trace ∧
      (NoRaise new → (runCall sg run id m).2.2.stack = m.stack) := by
  obtain ⟨new, h1, h2⟩ := hr
  unfold runCall
  revert h1 h2
  generalize run { m with stack := [] :: m.stack } = X
  obtain ⟨o, rep, m1⟩ := X
  intro h1 h2
  cases o with
  | none =>
    refine ⟨(m1.sys, .fail id) :: new, by simp only at h1; simp [Mach.event, h1], ?_⟩
    intro hn
    exact absurd rfl (hn (m1.sys, .fail id) (by simp) id)
  | some r =>
    simp only at h1 h2 ⊢
    cases hs : m1.stack with
    | nil =>
      simp only
      refine ⟨(m1.sys, .fail id) :: new, by simp [Mach.event, h1], ?_⟩
      intro hn
      exact absurd rfl (hn (m1.sys, .fail id) (by simp) id)
    | cons deps rest =>
      simp only
      generalize hE : ({ m1 with stack := rest } : Mach B R).event sg (.complete id r deps rep.srcs rep.dsts) = X
      obtain ⟨o, m2⟩ := X
      have e1 : m2.trace = (m1.sys, .complete id r deps rep.srcs rep.dsts) :: m1.trace := by
        have := congrArg (fun x => x.2.trace) hE; exact this.symm
      have e2 : m2.stack = rest := by
        have := congrArg (fun x => x.2.stack) hE; exact this.symm
      have key : m2.trace = (m1.sys, .complete id r deps rep.srcs rep.dsts) :: new ++ m.trace ∧
          (NoRaise ((m1.sys, .complete id r deps rep.srcs rep.dsts) :: new) → m2.stack = m.stack) := by
        refine ⟨by rw [e1, h1]; rfl, ?_⟩
        intro hn
        have := h2 (fun q hq => hn q (List.mem_cons_of_mem _ hq)) (by simp)
        rw [hs] at this
        rw [e2]; exact this
      cases o <;> exact ⟨_, key⟩

theorem askCall_tidy {sg : Sig B R} {clk : Nat → Nat} {run : Mach B R → Outcome B R} {f : FunName} {b : B}
    (hr : ∀ m, ∃ new, (run m).2.2.trace = new ++ m.trace ∧
      (NoRaise new → (run m).1.isSome → ∀ top rest, m.stack = top :: rest → (run m).2.2.stack.tail = rest)) (m : Mach B R) :
    ∃ new, (askCall sg clk run f b m).2.2.trace = new ++ m.trace ∧
      (NoRaise new → (askCall sg clk run f b m).2.2.stack = noteCall f m.stack) := by
  unfold askCall
  simp only
  generalize hm1 : (({ m with stack := noteCall f m.stack, next := m.next + 1 } : Mach B R).event sg
    (.tick (clk m.next))).2 = m1
  have e1 : m1.trace = (m.sys, .tick (clk m.next)) :: m.trace := by rw [← hm1]; rfl
  have e2 : m1.stack = noteCall f m.stack := by rw [← hm1]; rfl
  generalize hm2 : m1.event sg (.prepare m.next f b) = X
  obtain ⟨o, m2⟩ := X
  have e3 : m2.trace = (m1.sys, .prepare m.next f b) :: m1.trace := by
    have := congrArg (fun x => x.2.trace) hm2; exact this.symm
  have e4 : m2.stack = m1.stack := by
    have := congrArg (fun x => x.2.stack) hm2; exact this.symm
  have base : ∃ new, m2.trace = new ++ m.trace ∧ NoRaise new := by
    refine ⟨[(m1.sys, .prepare m.next f b), (m.sys, .tick (clk m.next))], by rw [e3, e1]; rfl, ?_⟩
    intro q hq id
    simp only [List.mem_cons, List.not_mem_nil, or_false] at hq
    rcases hq with rfl | rfl <;> simp
  obtain ⟨new0, b1, b2⟩ := base
  have e5 : m2.stack = noteCall f m.stack := e4.trans e2
  cases o with
  | hit r => exact ⟨new0, b1, fun _ => e5⟩
  | run =>
    simp only
    obtain ⟨newR, r1, r2⟩ := hr { m2 with stack := [] :: m2.stack }
    obtain ⟨new, h1, h2⟩ := runCall_tidy (sg := sg) (run := run) (id := m.next) (m := m2)
      ⟨newR, r1, fun hn ho => r2 hn ho [] m2.stack rfl⟩
    refine ⟨new ++ new0, by rw [h1, b1, List.append_assoc], ?_⟩
    intro hn
    rw [noRaise_append] at hn
    rw [h2 hn.1, e5]
  | raised e => exact ⟨new0, b1, fun _ => e5⟩
  | done => exact ⟨new0, b1, fun _ => e5⟩
  | deleted e => exact ⟨new0, b1, fun _ => e5⟩

theorem callFn_tidy (sg : Sig B R) (script : Script B R) (clk : Nat → Nat) (n : Nat) :
    Tidy (callFn sg script clk n) := by
  induction n with
  | zero =>
    intro f b m
    exact askCall_tidy (fun m => ⟨[], rfl, by intro _ h; simp at h⟩) m
  | succ n ih =>
    intro f b m
    refine askCall_tidy ?_ m
    intro m
    obtain ⟨new, h1, h2⟩ := runProg_tidy (sg := sg) (clk := clk) ih (script f ((m.sys.env.funDigest f).getD "") b) m
    refine ⟨new, h1, ?_⟩
    intro hn _ top rest hs
    rw [h2 hn top rest hs]
    rfl

/-! ### C15 -/

/-- the state in which the body of a cached function starts, if `f` is called with `b` in `m` -/
def bodyStart (sg : Sig B R) (clk : Nat → Nat) (f : FunName) (b : B) (m : Mach B R) : Mach B R :=
  let s0 := (step sg m.sys (.tick (clk m.next))).2
  { sys := (step sg s0 (.prepare m.next f b)).2
    trace := (s0, .prepare m.next f b) :: (m.sys, .tick (clk m.next)) :: m.trace
    stack := [] :: noteCall f m.stack
    next := m.next + 1 }

/-- **C15**: the functions recorded with an execution are the cached functions that this execution called directly (in their
order).  Partial: no function called (directly or not) raised, see `C15_raise_violated`; there is one thread, see
`C15_threads_violated`; and the record is only written if the function was not recorded or stale (`C15_stored`), see
`C15_clean_violated`. -/
theorem C15_partial (sg : Sig B R) (script : Script B R) (clk : Nat → Nat) (n : Nat) (f : FunName) (b : B) (m : Mach B R)
    {s0 : Sys B R} {code : Digest} {r : R} {rep : Reports} {m' : Mach B R} {new : Trace B R}
    (hs0 : s0 = (step sg m.sys (.tick (clk m.next))).2)
    (hrun : (step sg s0 (.prepare m.next f b)).1 = .run) (hcode : s0.env.funDigest f = some code)
    (hcall : callFn sg script clk (n + 1) f b m = (some r, rep, m')) (hnew : m'.trace = new ++ m.trace)
    (hraise : NoRaise new) :
    ∃ s1 mid, m'.trace = (s1, .complete m.next r
        (called sg clk (callFn sg script clk n) (script f code b) (bodyStart sg clk f b m)) rep.srcs rep.dsts) ::
        (mid ++ (bodyStart sg clk f b m).trace) ∧ m'.sys = (step sg s1 (.complete m.next r
        (called sg clk (callFn sg script clk n) (script f code b) (bodyStart sg clk f b m)) rep.srcs rep.dsts)).2 := by
  have hkeep : (step sg s0 (.prepare m.next f b)).2.env = s0.env := by
    simp only [step, stepPrepare]
    cases s0.env.funDigest f with
    | none => rfl
    | some c =>
      simp only
      generalize prepare _ _ _ _ _ _ = X
      obtain ⟨x, db⟩ := X
      cases x with
      | error e => rfl
      | ok p => simp only; split <;> rfl
  obtain ⟨mid, t1, t2⟩ := runProg_tidy (sg := sg) (clk := clk) (callFn_tidy sg script clk n) (script f code b) (bodyStart sg clk f b m)
  rw [callFn] at hcall
  simp only [askCall, Mach.event] at hcall
  rw [← hs0, hrun] at hcall
  simp only [runCall] at hcall
  rw [show (step sg s0 (.prepare m.next f b)).2.env.funDigest f = some code from by rw [hkeep]; exact hcode] at hcall
  have hstart : ({ sys := (step sg s0 (.prepare m.next f b)).2
                   trace := (s0, .prepare m.next f b) :: (m.sys, .tick (clk m.next)) :: m.trace
                   stack := [] :: noteCall f m.stack
                   next := m.next + 1 } : Mach B R) = bodyStart sg clk f b m := by
    rw [bodyStart, hs0]
  rw [Option.getD_some, hstart] at hcall
  revert t1 t2 hcall
  generalize runProg sg clk (callFn sg script clk n) (script f code b) (bodyStart sg clk f b m) = X
  obtain ⟨o, rep1, m1⟩ := X
  simp only
  intro hcall t1 t2
  cases o with
  | none => simp at hcall
  | some r1 =>
    simp only at hcall
    cases hst : m1.stack with
    | nil => rw [hst] at hcall; simp at hcall
    | cons deps rest =>
      rw [hst] at hcall
      simp only [Mach.event] at hcall
      generalize hE : step sg m1.sys (.complete m.next r1 deps rep1.srcs rep1.dsts) = E at hcall
      obtain ⟨oE, sE⟩ := E
      cases oE with
      | done =>
        simp only [Prod.mk.injEq, Option.some.injEq] at hcall
        obtain ⟨rfl, rfl, rfl⟩ := hcall
        simp only at hnew ⊢
        have hmid : NoRaise mid := by
          intro q hq
          apply hraise q
          rw [t1] at hnew
          have h1 : ((m1.sys, Event.complete m.next r1 deps rep1.srcs rep1.dsts) :: (mid ++
              [((step sg m.sys (.tick (clk m.next))).2, .prepare m.next f b), (m.sys, .tick (clk m.next))])) ++ m.trace =
              new ++ m.trace := by
            rw [← hnew]; simp [bodyStart]
          rw [← List.append_cancel_right h1]
          simp [hq]
        have h3 := t2 hmid [] (noteCall f m.stack) rfl
        rw [hst] at h3
        simp only [List.nil_append, List.cons.injEq] at h3
        refine ⟨m1.sys, mid, by rw [t1, h3.1], ?_⟩
        rw [← h3.1, hE]
      | _ => simp at hcall

/-- **C15**: the functions given with the end of an execution are stored as the functions called, if the function was not
recorded or stale when the execution started.  (Otherwise the record stays as it was: `C10_frame`.) -/
theorem C15_stored {sg : Sig B R} {vers : FileName → Nat → Option Content} {crashes : Bool} {tr : Trace B R} {s : Sys B R}
    (h : History sg vers crashes tr s) {id : Nat} {f : FunName} {b : B} {s0 : Sys B R}
    (hr : Running sg tr id f b s0) {code : Digest} (hcode : s0.env.funDigest f = some code) (hstale : Stale s0 f) {r : R}
    {deps : List FunName} {ext extDsts : List FileName} (ha : Allowed vers s (.complete id r deps ext extDsts)) :
    CDB.findFunction f (step sg s (.complete id r deps ext extDsts)).2.db = some (f, code, deps) := by
  have hI := reach_inv h.reach
  obtain ⟨p, hp, hpf, hpb, _, hpc⟩ := h.running_inflight hr
  have hprep := h.running_prep hr hp
  have hP := hI.pending id p hp
  have hal : p.prep.found.isSome → ¬ DirtySince p s.log := by
    rintro hf ⟨e, he, h1, h2⟩
    have := ha p hp hf e he h1
    rw [h2] at this; cases this
  obtain ⟨ok, out, hout, _, hinv, hc, _, _⟩ :=
    complete_inv hI.db hP hI.faithful hal r deps ext extDsts
  have hdb : (step sg s (.complete id r deps ext extDsts)).2.db = out.2 := by
    simp only [step, stepComplete, hp]
    rw [hout]
    obtain ⟨y, db⟩ := out
    cases y <;> rfl
  have hdirty : p.prep.funDirty = true := by
    generalize hX : prepare (CDB.storage B R) s0.env f b (sg.srcs f p.code b) s0.db = X at hprep
    obtain ⟨y, db⟩ := X
    simp only at hprep
    subst hprep
    unfold prepare at hX
    cases hcf : checkFunction (CDB.storage B R) s0.env s0.db s0.env.recursionLimit f with
    | error e => rw [hcf] at hX; simp at hX
    | ok q =>
      obtain ⟨dirty, fid⟩ := q
      rw [hcf] at hX
      simp only at hX
      have : p.prep.funDirty = dirty := by
        split at hX
        · simp at hX
        · split at hX
          · simp only [Prod.mk.injEq, Except.ok.injEq] at hX
            rw [← hX.1]
          · simp only [Prod.mk.injEq, Except.ok.injEq] at hX
            rw [← hX.1]
      cases dirty with
      | true => exact this
      | false =>
        obtain ⟨g, hg1, hg2⟩ := hstale
        obtain ⟨fid', d, deps', k1, k2⟩ := checkFunction_clean _ hg1 hcf
        exact absurd k2 (hg2 fid' d deps' k1)
  rw [hdb]
  subst hpf
  rw [hpc] at hcode
  simp only [Option.some.injEq] at hcode
  subst hcode
  simp only [CDB.findFunction, hc.fun_dirty hdirty, Option.map_some]

/-! ### examples and counterexamples for C15 -/

namespace Ex

/-- functions without declared files -/
def sg : Sig Nat Nat := ⟨fun _ _ _ => [], fun _ _ _ => [], fun _ _ _ => []⟩

/-- the file "x" exists; functions "f", "g" and "h" -/
def env : Env where
  fs := fun x => if x = "x" then some ⟨1, some "one"⟩ else none
  now := 5
  funDigest := fun f => if f = "f" then some "F" else if f = "g" then some "G" else if f = "h" then some "H" else none
  md5 := id
  recursionLimit := 1000

def start : Mach Nat Nat := ⟨Sys.init env, [], [], 0⟩

/-- `f` calls `g` and `h`; `g` calls `h` -/
def script : Script Nat Nat := fun f _ b =>
  if f = "f" then .call "g" b fun _ => .call "h" 7 fun _ => .ret 1
  else if f = "g" then .call "h" b fun _ => .ret 2
  else .ret 3

/-- `f` catches the exception of `g` -/
def scriptRaise : Script Nat Nat := fun f _ b =>
  if f = "f" then .call "g" b fun _ => .call "h" b fun _ => .ret 1
  else if f = "g" then .raise
  else .ret 3

/-- `f 0` calls nothing, `f 1` calls `g` -/
def scriptBranch : Script Nat Nat := fun f _ b =>
  if f = "f" then if b = 0 then .ret 0 else .call "g" b fun _ => .ret 1
  else .ret 2

end Ex

/-- the hypotheses of `C15_partial` are met: `f` calls `g` and `h` -/
example : ((callFn Ex.sg Ex.script id 3 "f" 0 Ex.start).1 = some 1) ∧
    (step Ex.sg (step Ex.sg Ex.start.sys (.tick 0)).2 (.prepare 0 "f" 0)).1 = .run ∧
    ((callFn Ex.sg Ex.script id 3 "f" 0 Ex.start).2.2.trace.all fun q => match q.2 with
      | .fail _ => false
      | _ => true) = true ∧
    called Ex.sg id (callFn Ex.sg Ex.script id 2) (Ex.script "f" "F" 0) (bodyStart Ex.sg id "f" 0 Ex.start) = ["g", "h"] := by
  decide

/-- **C15** fails if a function called raises: `f` calls `g` and `h`, but only `h` is recorded. -/
theorem C15_raise_violated :
    called Ex.sg id (callFn Ex.sg Ex.scriptRaise id 2) (Ex.scriptRaise "f" "F" 0) (bodyStart Ex.sg id "f" 0 Ex.start) =
      ["g", "h"] ∧
    CDB.findFunction "f" (callFn Ex.sg Ex.scriptRaise id 3 "f" 0 Ex.start).2.2.sys.db = some ("f", "F", ["h"]) := by
  decide

/-- **C15** fails for all but the first execution of a function: `f 1` calls `g`, but the record of `f` has no `g`. -/
theorem C15_clean_violated :
    let m := (callFn Ex.sg Ex.scriptBranch id 3 "f" 0 Ex.start).2.2
    called Ex.sg id (callFn Ex.sg Ex.scriptBranch id 2) (Ex.scriptBranch "f" "F" 1) (bodyStart Ex.sg id "f" 1 m) = ["g"] ∧
    CDB.findFunction "f" (callFn Ex.sg Ex.scriptBranch id 3 "f" 1 m).2.2.sys.db = some ("f", "F", []) := by
  decide

/-- What `Database.call` does to `_callstack` (database.py:99-100, 176, 185), which all threads share. -/
inductive StackOp where
  | note (f : FunName)
  | push
  | pop

/-- the lists popped, with the thread that gets them -/
def pops : List (List FunName) → List (Nat × StackOp) → List (Nat × List FunName)
  | _, [] => []
  | stack, (_, .note f) :: ops => pops (noteCall f stack) ops
  | stack, (_, .push) :: ops => pops ([] :: stack) ops
  | [], (_, .pop) :: ops => pops [] ops
  | top :: stack, (t, .pop) :: ops => (t, top) :: pops stack ops

/-- **C15** fails for two threads: thread 0 runs a function that calls `h`, thread 1 a function that calls nothing; the
calls recorded are swapped. -/
theorem C15_threads_violated :
    let ops := [(0, .push), (0, .note "h"), (1, .push), (0, .pop), (1, .pop)]
    pops [] ops = [(0, []), (1, ["h"])] ∧
    pops [] (ops.filter fun q => q.1 = 0) = [(0, ["h"])] ∧ pops [] (ops.filter fun q => q.1 = 1) = [(1, [])] := by
  decide

/-! ### C16 -/

/-- What a call adds to the trace: events of this and of later calls; the files reported by the executions among them are
reported to the caller, too. -/
structure Within (m : Mach B R) (o : Outcome B R) (new : Trace B R) : Prop where
  trace : o.2.2.trace = new ++ m.trace
  next : m.next ≤ o.2.2.next
  ends : ∀ q ∈ new, ∀ id, id < m.next → q.2.ends id = false
  srcs : ∀ q ∈ new, ∀ id r deps ext extDsts, q.2 = .complete id r deps ext extDsts → ext ⊆ o.2.1.srcs ∧ extDsts ⊆ o.2.1.dsts

theorem runProg_within {sg : Sig B R} {clk : Nat → Nat} {callF : FunName → B → Mach B R → Outcome B R}
    (hc : ∀ f b m, ∃ new, Within m (callF f b m) new) (p : Prog B R) (m : Mach B R) :
    ∃ new, Within m (runProg sg clk callF p m) new := by
  induction p generalizing m with
  | ret r => exact ⟨[], rfl, Nat.le_refl _, by simp, by simp⟩
  | raise => exact ⟨[], rfl, Nat.le_refl _, by simp, by simp⟩
  | callD d f b k ih =>
    obtain ⟨new1, w1⟩ := hc f b m
    obtain ⟨new2, w2⟩ := ih (callF f b m).1 (callF f b m).2.2
    refine ⟨new2 ++ new1, ?_, ?_, ?_, ?_⟩
    · simp only [runProg]; rw [w2.trace, w1.trace, List.append_assoc]
    · exact Nat.le_trans w1.next w2.next
    · intro q hq id hid
      rcases List.mem_append.mp hq with hq | hq
      · exact w2.ends q hq id (Nat.lt_of_lt_of_le hid w1.next)
      · exact w1.ends q hq id hid
    · intro q hq id r deps ext extDsts he
      simp only [runProg, Reports.add]
      rcases List.mem_append.mp hq with hq | hq
      · obtain ⟨h1, h2⟩ := w2.srcs q hq id r deps ext extDsts he
        exact ⟨fun x hx => List.mem_append_right _ (List.mem_append_right _ (h1 hx)), fun x hx => List.mem_append_right _ (List.mem_append_right _ (h2 hx))⟩
      · obtain ⟨h1, h2⟩ := w1.srcs q hq id r deps ext extDsts he
        exact ⟨fun x hx => List.mem_append_left _ (h1 hx), fun x hx => List.mem_append_left _ (h2 hx)⟩
  | report srcs dsts k ih =>
    obtain ⟨new, w⟩ := ih m
    refine ⟨new, w.trace, w.next, w.ends, ?_⟩
    intro q hq id r deps ext extDsts he
    obtain ⟨h1, h2⟩ := w.srcs q hq id r deps ext extDsts he
    exact ⟨fun x hx => List.mem_append_right _ (h1 hx), fun x hx => List.mem_append_right _ (h2 hx)⟩
  | read x k ih => exact ih (m.sys.env.fs.content x) m
  | write x c k ih =>
    obtain ⟨new, w⟩ := ih (m.writeFile sg clk x c)
    refine ⟨new ++ [((step sg m.sys (.tick (clk m.next))).2, .edit x (c.map fun c => ⟨clk m.next, some c⟩)),
      (m.sys, .tick (clk m.next))], ?_, Nat.le_trans (Nat.le_succ _) w.next, ?_, ?_⟩
    · simp only [runProg]; rw [w.trace]; simp [Mach.event, Mach.writeFile]
    · intro q hq id hid
      rcases List.mem_append.mp hq with hq | hq
      · exact w.ends q hq id (Nat.lt_succ_of_lt hid)
      · simp only [List.mem_cons, List.not_mem_nil, or_false] at hq
        rcases hq with rfl | rfl <;> rfl
    · intro q hq id r deps ext extDsts he
      rcases List.mem_append.mp hq with hq | hq
      · exact w.srcs q hq id r deps ext extDsts he
      · simp only [List.mem_cons, List.not_mem_nil, or_false] at hq
        rcases hq with rfl | rfl <;> simp at he

theorem askCall_within {sg : Sig B R} {clk : Nat → Nat} {run : Mach B R → Outcome B R} {f : FunName} {b : B}
    (hr : ∀ m, ∃ new, Within m (run m) new) (m : Mach B R) : ∃ new, Within m (askCall sg clk run f b m) new := by
  unfold askCall
  simp only
  generalize hm1 : (({ m with stack := noteCall f m.stack, next := m.next + 1 } : Mach B R).event sg
    (.tick (clk m.next))).2 = m1
  have e1 : m1.trace = (m.sys, .tick (clk m.next)) :: m.trace := by rw [← hm1]; rfl
  have n1 : m1.next = m.next + 1 := by rw [← hm1]; rfl
  generalize hm2 : m1.event sg (.prepare m.next f b) = X
  obtain ⟨o, m2⟩ := X
  have e3 : m2.trace = (m1.sys, .prepare m.next f b) :: m1.trace := by
    have := congrArg (fun x => x.2.trace) hm2; exact this.symm
  have n2 : m2.next = m.next + 1 := by
    have := congrArg (fun x => x.2.next) hm2; rw [← n1]; exact this.symm
  have base : ∀ (o : Option R), Within m (o, Reports.none, m2)
      [(m1.sys, .prepare m.next f b), (m.sys, .tick (clk m.next))] := by
    intro o
    refine ⟨by simp only; rw [e3, e1]; rfl, by simp only; omega, ?_, ?_⟩
    · intro q hq id hid
      simp only [List.mem_cons, List.not_mem_nil, or_false] at hq
      rcases hq with rfl | rfl
      · simp only [Event.ends, beq_eq_false_iff_ne, ne_eq]; omega
      · rfl
    · intro q hq id r deps ext extDsts he
      simp only [List.mem_cons, List.not_mem_nil, or_false] at hq
      rcases hq with rfl | rfl <;> simp at he
  cases o with
  | hit r => exact ⟨_, base _⟩
  | raised e => exact ⟨_, base _⟩
  | done => exact ⟨_, base _⟩
  | deleted e => exact ⟨_, base _⟩
  | run =>
    simp only [runCall]
    obtain ⟨new, w⟩ := hr { m2 with stack := [] :: m2.stack }
    revert w
    generalize run { m2 with stack := [] :: m2.stack } = Y
    obtain ⟨o, rep, m3⟩ := Y
    intro w
    have key : ∀ (ev : Event B R) (o' : Option R) (m4 : Mach B R), (∀ id, id < m.next → ev.ends id = false) →
        (∀ id r deps ext extDsts, ev = .complete id r deps ext extDsts → ext ⊆ rep.srcs ∧ extDsts ⊆ rep.dsts) →
        m4.trace = (m3.sys, ev) :: m3.trace → m4.next = m3.next →
        Within m (o', rep, m4)
          ((m3.sys, ev) :: new ++ [(m1.sys, .prepare m.next f b), (m.sys, .tick (clk m.next))]) := by
      intro ev o' m4 h1 h2 h3 h4
      have hb := base none
      refine ⟨?_, ?_, ?_, ?_⟩
      · simp only
        rw [h3, show m3.trace = new ++ m2.trace from w.trace, show m2.trace = _ from hb.trace]
        simp
      · have := w.next
        simp only at this ⊢
        omega
      · intro q hq id hid
        rw [List.cons_append, List.mem_cons, List.mem_append] at hq
        rcases hq with rfl | hq | hq
        · exact h1 id hid
        · exact w.ends q hq id (by simp only; omega)
        · exact hb.ends q hq id hid
      · intro q hq id r deps ext extDsts he
        rw [List.cons_append, List.mem_cons, List.mem_append] at hq
        rcases hq with rfl | hq | hq
        · exact h2 id r deps ext extDsts he
        · exact w.srcs q hq id r deps ext extDsts he
        · obtain ⟨h5, h6⟩ := hb.srcs q hq id r deps ext extDsts he
          simp only [Reports.none] at h5 h6
          exact ⟨fun x hx => absurd (h5 hx) (by simp), fun x hx => absurd (h6 hx) (by simp)⟩
    have hid : ∀ id, id < m.next → (m.next == id) = false := by
      intro id h; simp only [beq_eq_false_iff_ne, ne_eq]; omega
    cases o with
    | none => exact ⟨_, key (.fail m.next) none _ hid (by simp) rfl rfl⟩
    | some r =>
      simp only
      cases hst : m3.stack with
      | nil => exact ⟨_, key (.fail m.next) none _ hid (by simp) rfl rfl⟩
      | cons deps rest =>
        simp only
        generalize hE : ({ m3 with stack := rest } : Mach B R).event sg (.complete m.next r deps rep.srcs rep.dsts) = E
        obtain ⟨oE, m4⟩ := E
        have t : m4.trace = (m3.sys, .complete m.next r deps rep.srcs rep.dsts) :: m3.trace := by
          have := congrArg (fun x => x.2.trace) hE; exact this.symm
        have t2 : m4.next = m3.next := by
          have := congrArg (fun x => x.2.next) hE; exact this.symm
        have hsub : ∀ id r' deps' ext extDsts, (Event.complete m.next r deps rep.srcs rep.dsts : Event B R) =
            .complete id r' deps' ext extDsts → ext ⊆ rep.srcs ∧ extDsts ⊆ rep.dsts := by
          intro id r' deps' ext extDsts he
          simp only [Event.complete.injEq] at he
          obtain ⟨_, _, _, rfl, rfl⟩ := he
          exact ⟨fun _ h => h, fun _ h => h⟩
        cases oE <;> exact ⟨_, key (.complete m.next r deps rep.srcs rep.dsts) _ m4 hid hsub t t2⟩

theorem callFn_within (sg : Sig B R) (script : Script B R) (clk : Nat → Nat) (n : Nat) (f : FunName) (b : B)
    (m : Mach B R) : ∃ new, Within m (callFn sg script clk n f b m) new := by
  induction n generalizing f b m with
  | zero => exact askCall_within (fun m => ⟨[], rfl, Nat.le_refl _, by simp, by simp⟩) m
  | succ n ih => exact askCall_within (fun m => runProg_within ih _ m) m

/-- the trace of a call that ran the function and returned -/
theorem callFn_executed (sg : Sig B R) (script : Script B R) (clk : Nat → Nat) (n : Nat) (f : FunName) (b : B)
    (m : Mach B R) {r : R} {rep : Reports} {m' : Mach B R}
    (hrun : (step sg (step sg m.sys (.tick (clk m.next))).2 (.prepare m.next f b)).1 = .run)
    (hcall : callFn sg script clk (n + 1) f b m = (some r, rep, m')) :
    ∃ s1 mid deps, m'.trace = (s1, .complete m.next r deps rep.srcs rep.dsts) :: (mid ++ (bodyStart sg clk f b m).trace) ∧
      m'.sys = (step sg s1 (.complete m.next r deps rep.srcs rep.dsts)).2 ∧
      (step sg s1 (.complete m.next r deps rep.srcs rep.dsts)).1 = .done ∧
      (∀ q ∈ mid, q.2.ends m.next = false) ∧
      ∀ q ∈ mid, ∀ id r deps ext extDsts, q.2 = .complete id r deps ext extDsts → ext ⊆ rep.srcs := by
  rw [callFn] at hcall
  simp only [askCall, Mach.event] at hcall
  rw [hrun] at hcall
  simp only [runCall] at hcall
  generalize hcode : ((step sg (step sg m.sys (.tick (clk m.next))).2 (.prepare m.next f b)).2.env.funDigest f).getD "" =
    code at hcall
  obtain ⟨mid, w⟩ := runProg_within (sg := sg) (clk := clk) (callFn_within sg script clk n) (script f code b) (bodyStart sg clk f b m)
  have hstart : ({ sys := (step sg (step sg m.sys (.tick (clk m.next))).2 (.prepare m.next f b)).2
                   trace := ((step sg m.sys (.tick (clk m.next))).2, .prepare m.next f b) ::
                     (m.sys, .tick (clk m.next)) :: m.trace
                   stack := [] :: noteCall f m.stack
                   next := m.next + 1 } : Mach B R) = bodyStart sg clk f b m := rfl
  rw [hstart] at hcall
  revert hcall w
  generalize runProg sg clk (callFn sg script clk n) (script f code b) (bodyStart sg clk f b m) = X
  obtain ⟨o, rep1, m1⟩ := X
  intro hcall w
  cases o with
  | none => simp at hcall
  | some r1 =>
    simp only at hcall
    cases hst : m1.stack with
    | nil => rw [hst] at hcall; simp at hcall
    | cons deps rest =>
      rw [hst] at hcall
      simp only [Mach.event] at hcall
      generalize hE : step sg m1.sys (.complete m.next r1 deps rep1.srcs rep1.dsts) = E at hcall
      obtain ⟨oE, sE⟩ := E
      cases oE with
      | done =>
        simp only [Prod.mk.injEq, Option.some.injEq] at hcall
        obtain ⟨rfl, rfl, rfl⟩ := hcall
        refine ⟨m1.sys, mid, deps, by simp only; rw [show m1.trace = _ from w.trace], by rw [hE], by rw [hE], ?_, ?_⟩
        · intro q hq
          exact w.ends q hq m.next (by simp [bodyStart])
        · intro q hq id r deps ext extDsts he
          exact (w.srcs q hq id r deps ext extDsts he).1
      | _ => simp at hcall

/-- **C16**: `f b` was called in `m`, was run and returned in `m'`; a call executed inside (directly or not) reported the file
`x`; since then `f b` was not executed again.  If the file exists and has another content than at the end of the execution,
`f b` is run again.  Partial: calls inside that were answered from the database do not count, see `C16_hit_violated`; and the
file still exists, see `C16_deleted_violated`. -/
theorem C16_partial {sg : Sig B R} {vers : FileName → Nat → Option Content} {tr : Trace B R} {s : Sys B R}
    (script : Script B R) (clk : Nat → Nat) (n : Nat) (f : FunName) (b : B) (m : Mach B R) {r : R} {rep : Reports}
    {m' : Mach B R} {new later : Trace B R}
    (hrun : (step sg (step sg m.sys (.tick (clk m.next))).2 (.prepare m.next f b)).1 = .run)
    (hcall : callFn sg script clk (n + 1) f b m = (some r, rep, m')) (hnew : m'.trace = new ++ m.trace)
    (h : History sg vers false tr s) (hmd5 : ∀ c c', s.env.md5 c = s.env.md5 c' → c = c')
    (htr : tr = later ++ m'.trace)
    (hlast : ∀ n2 s2 ev2 o2 s0' r' e' d', later = n2 ++ (s2, ev2) :: o2 →
      ¬ Execution sg (o2 ++ m'.trace) s0' s2 ev2 f b r' e' d')
    {x : FileName} (hx : ∃ q ∈ new, ∃ id r' deps ext extDsts, q.2 = .complete id r' deps ext extDsts ∧ x ∈ ext)
    (hex : (s.env.fs.content x).isSome) (hedit : s.env.fs.content x ≠ m'.sys.env.fs.content x) (id : Nat) (r' : R) :
    (step sg s (.prepare id f b)).1 ≠ .hit r' := by
  obtain ⟨s1, mid, deps, k1, k2, k3, k4, k5⟩ := callFn_executed sg script clk n f b m hrun hcall
  have hl : LastExecution sg tr (step sg m.sys (.tick (clk m.next))).2 s1 (.complete m.next r deps rep.srcs rep.dsts) f b r
      rep.srcs rep.dsts := by
    refine ⟨later, mid ++ (bodyStart sg clk f b m).trace, by rw [htr, k1], ⟨m.next, deps, rfl, mid, _, rfl, hrun, k4⟩, ?_⟩
    intro n2 s2 ev2 o2 s0' r' e' d' ht hexe
    refine Nat.le_of_not_lt fun hlt => ?_
    rw [htr] at ht
    -- the other execution is in `later`
    obtain ⟨o3, ho3⟩ : ∃ o3, later = n2 ++ (s2, ev2) :: o3 ∧ o2 = o3 ++ m'.trace := by
      rw [List.append_eq_append_iff] at ht
      rcases ht with ⟨a, h1, h2⟩ | ⟨a, h1, h2⟩
      · have := congrArg List.length h1
        simp only [List.length_append] at this
        omega
      · cases a with
        | nil =>
          have := congrArg List.length h1
          simp only [List.length_append, List.length_nil] at this
          omega
        | cons q a =>
          simp only [List.cons_append, List.cons.injEq] at h2
          obtain ⟨rfl, h2⟩ := h2
          exact ⟨a, h1, h2⟩
    exact hlast n2 s2 ev2 o3 s0' r' e' d' ho3.1 (ho3.2 ▸ hexe)
  have henv : m'.sys.env = s1.env := by
    rw [k2]
    simp only [step, stepComplete]
    cases s1.inflight.get? m.next with
    | none => rfl
    | some p =>
      simp only
      generalize cache _ _ _ _ _ _ _ _ _ _ _ _ = X
      obtain ⟨y, db⟩ := X
      cases y <;> rfl
  have hxr : x ∈ rep.srcs := by
    obtain ⟨q, hq, id, r', deps', ext, extDsts, he, hxe⟩ := hx
    have h1 : ((s1, Event.complete m.next r deps rep.srcs rep.dsts) :: (mid ++
        [((step sg m.sys (.tick (clk m.next))).2, .prepare m.next f b), (m.sys, .tick (clk m.next))])) ++ m.trace =
        new ++ m.trace := by
      rw [← hnew, k1]; simp [bodyStart]
    rw [← List.append_cancel_right h1] at hq
    simp only [List.mem_cons, List.mem_append, List.not_mem_nil, or_false] at hq
    rcases hq with rfl | hq | rfl | rfl
    · simp only [Event.complete.injEq] at he
      obtain ⟨_, _, _, rfl, _⟩ := he
      exact hxe
    · exact k5 q hq id r' deps' ext extDsts he hxe
    · simp at he
    · simp at he
  rw [henv] at hedit
  exact C03_edited_external h hmd5 hl k3 hxr hex hedit id r'

namespace Ex
/-- `f` calls `g`, `g` reports the file "x" -/
def scriptExt : Script Nat Nat := fun f _ b =>
  if f = "f" then .call "g" b fun _ => .ret 1
  else .report ["x"] [] (.ret 2)

def editX : Event Nat Nat := .edit "x" (some ⟨2, some "two"⟩)
def deleteX : Event Nat Nat := .edit "x" none
end Ex

/-- the hypotheses of `C16_partial` are met: `g` reports "x", then "x" is edited, and `f` is run again -/
example : (callFn Ex.sg Ex.scriptExt id 3 "f" 0 Ex.start).1 = some 1 ∧
    (step Ex.sg (step Ex.sg Ex.start.sys (.tick 0)).2 (.prepare 0 "f" 0)).1 = .run ∧
    ((callFn Ex.sg Ex.scriptExt id 3 "f" 0 Ex.start).2.2.trace.any fun q => match q.2 with
      | .complete 1 _ _ ext _ => ext = ["x"]
      | _ => false) = true ∧
    let s := (callFn Ex.sg Ex.scriptExt id 3 "f" 0 Ex.start).2.2.sys
    (step Ex.sg s (.prepare 9 "f" 0)).1 = .hit 1 ∧
    (step Ex.sg (step Ex.sg s Ex.editX).2 (.prepare 9 "f" 0)).1 = .run := by decide

/-- **C16** fails if the call inside was answered from the database: `g` was called before; `f` calls it; "x" is edited; `f`
is not run again, though `g` is. -/
theorem C16_hit_violated :
    let m := (callFn Ex.sg Ex.scriptExt id 3 "g" 0 Ex.start).2.2
    let m' := (callFn Ex.sg Ex.scriptExt id 3 "f" 0 m).2.2
    (callFn Ex.sg Ex.scriptExt id 3 "f" 0 m).1 = some 1 ∧
    (step Ex.sg (step Ex.sg m'.sys Ex.editX).2 (.prepare 9 "f" 0)).1 = .hit 1 ∧
    (step Ex.sg (step Ex.sg m'.sys Ex.editX).2 (.prepare 9 "g" 0)).1 = .run := by decide

/-- **C16** fails if the file is deleted: neither `f` nor `g` is run again. -/
theorem C16_deleted_violated :
    let m' := (callFn Ex.sg Ex.scriptExt id 3 "f" 0 Ex.start).2.2
    (step Ex.sg (step Ex.sg m'.sys Ex.deleteX).2 (.prepare 9 "f" 0)).1 = .hit 1 ∧
    (step Ex.sg (step Ex.sg m'.sys Ex.deleteX).2 (.prepare 9 "g" 0)).1 = .hit 2 := by decide

end Verif.Calls
