import Verif.Sched.Side
import Mathlib.Logic.Hydra

/-! # Every step but those of a polling worker is progress -/
namespace Verif.Sched

variable {V E : Type}

/-! ## What is left to be done -/

/-- a program to be run, or one inside `_evaluate` -/
inductive Job (V E : Type) where
  | run (p : Prog V E)
  | wait (p : Prog V E)

/-- the jobs a job may be replaced with -/
inductive Job.Lt : Job V E → Job V E → Prop
  | pause (k : Prog V E) : Job.Lt (.run k) (.run (.pause k))
  | body (n : Nat) (deps : Nat → List Nat) (body : Nat → Prog V E) (k : EvalOut V E → Prog V E) (i : Nat) :
      Job.Lt (.run (body i)) (.run (.eval n deps body k))
  | wait (p : Prog V E) : Job.Lt (.wait p) (.run p)
  | resume (n : Nat) (deps : Nat → List Nat) (body : Nat → Prog V E) (k : EvalOut V E → Prog V E)
      (out : EvalOut V E) : Job.Lt (.run (k out)) (.wait (.eval n deps body k))

theorem Job.acc (p : Prog V E) : Acc Job.Lt (.run p) ∧ Acc Job.Lt (.wait p) := by
  induction p with
  | ret v =>
    have h : Acc Job.Lt (.wait (.ret v) : Job V E) := ⟨_, fun y hy => by cases hy⟩
    exact ⟨⟨_, fun y hy => by cases hy; exact h⟩, h⟩
  | raise x =>
    have h : Acc Job.Lt (.wait (.raise x) : Job V E) := ⟨_, fun y hy => by cases hy⟩
    exact ⟨⟨_, fun y hy => by cases hy; exact h⟩, h⟩
  | pause k ih =>
    have h : Acc Job.Lt (.wait (.pause k) : Job V E) := ⟨_, fun y hy => by cases hy⟩
    refine ⟨⟨_, fun y hy => ?_⟩, h⟩
    cases hy with
    | pause => exact ih.1
    | wait => exact h
  | eval n deps body k ih1 ih2 =>
    have h : Acc Job.Lt (.wait (.eval n deps body k) : Job V E) := by
      refine ⟨_, fun y hy => ?_⟩
      cases hy with
      | resume _ _ _ _ out => exact (ih2 out).1
    refine ⟨⟨_, fun y hy => ?_⟩, h⟩
    cases hy with
    | body _ _ _ _ i => exact (ih1 i).1
    | wait => exact h

theorem Job.wf : WellFounded (Job.Lt : Job V E → Job V E → Prop) :=
  ⟨fun j => match j with
    | .run p => (Job.acc p).1
    | .wait p => (Job.acc p).2⟩

/-- a task that has not been started yet -/
def taskJobs : Status → Prog V E → Multiset (Job V E)
  | .new, p => {.run p}
  | .queued, p => {.run p}
  | .held _, p => {.run p}
  | _, _ => 0

def Status.weight : Status → Nat
  | .new => 5
  | .queued => 4
  | .held _ => 3
  | .active _ => 2
  | .finished => 1
  | .processed => 0

def taskWeight (st : Status) (_ : Prog V E) : Nat := st.weight

/-- sum over the tasks of an evaluation -/
def evSum {M : Type} [AddCommMonoid M] (g : Status → Prog V E → M) (ev : Ev V E) : M :=
  sumTo (fun i => g (ev.status i) (ev.body i)) ev.n

def Frame.job (f : Frame V E) : Job V E := match f.wait with
  | none => .run f.prog
  | some _ => .wait f.prog

def Worker.jobs (x : Worker V E) : Multiset (Job V E) := (x.stack.map Frame.job : List (Job V E))

def Phase.weight : Phase → Nat
  | .top => 3
  | .reading => 2
  | .took _ => 1
  | .paused => 1
  | _ => 0

def Worker.weight (x : Worker V E) : Nat := x.phase.weight + if x.finished then 0 else 1

def mainJobs (ph : MainPhase) (wt : Option Nat) (p : Prog V E) : Multiset (Job V E) :=
  match ph, wt with
  | .code, none => {.run p}
  | .code, some _ => {.wait p}
  | _, _ => 0

def MainPhase.weight (nw : Nat) : MainPhase → Nat
  | .code => 0
  | .joining i => nw - i + 1
  | .ended => 0

def total {M : Type} [AddCommMonoid M] (g : Status → Prog V E → M) (h : Worker V E → M) (s : State V E) : M :=
  sumTo (fun e => evSum g (s.evs e)) s.next + sumTo (fun w => h (s.workers w)) s.nw

def jobs (s : State V E) : Multiset (Job V E) :=
  total taskJobs Worker.jobs s + mainJobs s.mainPhase s.mainWait s.main

def weight (s : State V E) : Nat :=
  total taskWeight Worker.weight s + (sentinels s.ready + s.mainPhase.weight s.nw)

/-- Less is left to be done. -/
def Less (s' s : State V E) : Prop :=
  Relation.CutExpand Job.Lt (jobs s') (jobs s) ∨ jobs s' = jobs s ∧ weight s' < weight s

theorem Less.wf : WellFounded (Less : State V E → State V E → Prop) := by
  have h := (WellFounded.prod_lex (WellFounded.cutExpand (Job.wf (V := V) (E := E)))
    (Nat.lt_wfRel.wf)).onFun (f := fun s : State V E => (jobs s, weight s))
  apply Subrelation.wf ?_ h
  rintro s' s (h | ⟨h1, h2⟩)
  · exact Prod.Lex.left _ _ h
  · simp only [Function.onFun, h1]
    exact Prod.Lex.right _ h2

/-! ## Sums -/

theorem evSum_status {M : Type} [AddCommMonoid M] (g : Status → Prog V E → M) {ev ev' : Ev V E} {i : Nat}
    {b : Status} (h1 : ev'.status = upd ev.status i b) (h2 : ev'.body = ev.body) (h3 : ev'.n = ev.n)
    (hi : i < ev.n) : evSum g ev' + g (ev.status i) (ev.body i) = evSum g ev + g b (ev.body i) := by
  have := sumTo_upd (fun x : Status × Prog V E => g x.1 x.2) (fun j => (ev.status j, ev.body j)) i
    (b, ev.body i) hi
  simp only [evSum, h1, h2, h3]
  rw [← this]
  congr 1
  apply sumTo_congr
  intro j hj
  by_cases e : j = i
  · subst e; simp [upd]
  · simp [upd, e]

theorem evSum_same {M : Type} [AddCommMonoid M] (g : Status → Prog V E → M) {ev ev' : Ev V E}
    (h1 : ev'.status = ev.status) (h2 : ev'.body = ev.body) (h3 : ev'.n = ev.n) :
    evSum g ev' = evSum g ev := by
  simp only [evSum, h1, h2, h3]

theorem sumTo_le {f g : Nat → Nat} {n : Nat} (h : ∀ i, i < n → f i ≤ g i) : sumTo f n ≤ sumTo g n := by
  induction n with
  | zero => exact Nat.le_refl _
  | succ n ih =>
    simp only [sumTo]
    exact Nat.add_le_add (ih (fun i hi => h i (by omega))) (h n (by omega))

theorem jobs_enqueue (e : Nat) (is : List Nat) (ev : Ev V E) (q : List Item) :
    evSum taskJobs (enqueue e is ev q).1 = evSum taskJobs ev := by
  obtain ⟨h1, -, h2, -⟩ := enqueue_begin_static e is ev q
  simp only [evSum, h1, h2]
  apply sumTo_congr
  intro i hi
  rw [enqueue_status]
  split
  · rename_i hc
    rw [((canRun_iff ev i).mp hc.2).1]
    rfl
  · rfl

theorem weight_enqueue (e : Nat) (is : List Nat) (ev : Ev V E) (q : List Item) :
    evSum taskWeight (enqueue e is ev q).1 ≤ evSum taskWeight ev := by
  obtain ⟨h1, -, h2, -⟩ := enqueue_begin_static e is ev q
  simp only [evSum, h1]
  apply sumTo_le
  intro i hi
  rw [enqueue_status]
  split
  · rename_i hc
    rw [((canRun_iff ev i).mp hc.2).1]
    simp [taskWeight, Status.weight]
  · exact Nat.le_refl _

variable {M : Type} [AddCommMonoid M] (g : Status → Prog V E → M) (h : Worker V E → M)

theorem total_same {s s' : State V E} (h1 : s'.evs = s.evs) (h2 : s'.next = s.next) (h3 : s'.nw = s.nw)
    (h4 : s'.workers = s.workers) : total g h s' = total g h s := by
  simp only [total, h1, h2, h3, h4]

theorem total_worker {s s' : State V E} {w : Nat} {x : Worker V E} (h1 : s'.evs = s.evs)
    (h2 : s'.next = s.next) (h3 : s'.nw = s.nw) (h4 : s'.workers = upd s.workers w x) (hw : w < s.nw) :
    total g h s' + h (s.workers w) = total g h s + h x := by
  simp only [total, h1, h2, h3, h4]
  rw [add_assoc, sumTo_upd h s.workers w x hw, add_assoc]

theorem total_ev {s s' : State V E} {e : Nat} {ev : Ev V E} (h1 : s'.evs = upd s.evs e ev)
    (h2 : s'.next = s.next) (h3 : s'.nw = s.nw) (h4 : s'.workers = s.workers) (he : e < s.next) :
    total g h s' + evSum g (s.evs e) = total g h s + evSum g ev := by
  simp only [total, h1, h2, h3, h4]
  rw [add_right_comm, sumTo_upd (evSum g) s.evs e ev he, add_right_comm]

theorem total_both {s s' : State V E} {e w : Nat} {ev : Ev V E} {x : Worker V E}
    (h1 : s'.evs = upd s.evs e ev) (h2 : s'.next = s.next) (h3 : s'.nw = s.nw)
    (h4 : s'.workers = upd s.workers w x) (he : e < s.next) (hw : w < s.nw) :
    total g h s' + (evSum g (s.evs e) + h (s.workers w)) = total g h s + (evSum g ev + h x) := by
  have a1 := total_ev g h (s := s) (s' := { s with evs := upd s.evs e ev }) rfl rfl rfl rfl he
  have a2 := total_worker g h (s := { s with evs := upd s.evs e ev }) (s' := s') (x := x) h1 h2 h3 h4 hw
  simp only at a2
  rw [add_comm (evSum g (s.evs e)), ← add_assoc, a2, add_right_comm, a1, add_assoc]

theorem total_spawn {s s' : State V E} {ev : Ev V E} (h1 : s'.evs = upd s.evs s.next ev)
    (h2 : s'.next = s.next + 1) (h3 : s'.nw = s.nw) (h4 : s'.workers = s.workers) :
    total g h s' = total g h s + evSum g ev := by
  simp only [total, h1, h2, h3, h4, sumTo, upd_self]
  rw [add_right_comm]
  congr 2
  apply sumTo_congr
  intro i hi
  rw [upd_ne _ _ (by omega)]

theorem total_spawn_worker {s s' : State V E} {w : Nat} {ev : Ev V E} {x : Worker V E}
    (h1 : s'.evs = upd s.evs s.next ev) (h2 : s'.next = s.next + 1) (h3 : s'.nw = s.nw)
    (h4 : s'.workers = upd s.workers w x) (hw : w < s.nw) :
    total g h s' + h (s.workers w) = total g h s + (evSum g ev + h x) := by
  have a1 := total_spawn g h (s := s)
    (s' := { s with evs := upd s.evs s.next ev, next := s.next + 1 }) rfl rfl rfl rfl
  have a2 := total_worker g h (s := { s with evs := upd s.evs s.next ev, next := s.next + 1 })
    (s' := s') (x := x) h1 h2 h3 h4 hw
  simp only at a2
  rw [a2, a1, add_assoc]

end Verif.Sched
