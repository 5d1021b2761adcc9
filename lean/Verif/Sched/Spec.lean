import Verif.Sched.Core

/-!
# What an evaluation may result in

A specification without threads, queues and locks: which results a program may have, for some order of
its tasks.
-/
namespace Verif.Sched

variable {V E : Type}

/-- `rs` lists distinct tasks among `0 … n-1` with a result each of them may have, every task after its
dependencies. -/
structure Runs (n : Nat) (deps : Nat → List Nat) (R : Nat → Except E V → Prop)
    (rs : List (Nat × V)) : Prop where
  lt : ∀ x ∈ rs, x.1 < n
  nodup : (rs.map Prod.fst).Nodup
  res : ∀ x ∈ rs, R x.1 (.ok x.2)
  order : ∀ a x b, rs = a ++ x :: b → ∀ d ∈ deps x.1, d < n → d ∈ a.map Prod.fst

/-- The outcomes an evaluation of the tasks `0 … n-1` may have, `R i` being the results task `i` may have:

* all tasks have run, each after its dependencies;
* one task whose dependencies all had results raised an exception;
* some tasks have not run because each of them has a dependency that has not run. -/
def Outcome (n : Nat) (deps : Nat → List Nat) (R : Nat → Except E V → Prop) : EvalOut V E → Prop
  | .done rs => Runs n deps R rs ∧ ∀ i, i < n → i ∈ rs.map Prod.fst
  | .raised x => ∃ rs i, Runs n deps R rs ∧ i < n ∧ (∀ d ∈ deps i, d < n → d ∈ rs.map Prod.fst) ∧
      R i (.error x)
  | .loop named => ∃ rs, Runs n deps R rs ∧ (∃ i, i < n ∧ i ∉ rs.map Prod.fst) ∧
      (∀ i, i < n → i ∉ rs.map Prod.fst → ∃ d ∈ deps i, d < n ∧ d ∉ rs.map Prod.fst) ∧
      ∀ i j, (i, j) ∈ named ↔ i < n ∧ j < n ∧ i ∉ rs.map Prod.fst ∧ j ∈ deps i ∧ i ∈ deps j

/-- `Den p r`: the program may have the result `r`. -/
def Den : Prog V E → Except E V → Prop
  | .ret v, r => r = .ok v
  | .raise x, r => r = .error x
  | .pause k, r => Den k r
  | .eval n deps body k, r => ∃ out, Outcome n deps (fun i => Den (body i)) out ∧ Den (k out) r

end Verif.Sched
