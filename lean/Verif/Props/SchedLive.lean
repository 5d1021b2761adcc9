import Verif.Sched.RoundRobin
import Verif.Props.SchedExamples

/-!
# The scheduler comes to an end (C30, C35)

`Exec s sched σ`: an infinite execution from state `s`; `Fair sched σ`: a thread that can move again and
again does move again and again.  The main program is one that does not use `interruptible` itself
(`C30_main_interruptible_violated` shows what happens then); its tasks may, also in nested maps.
-/
namespace Verif.Sched

variable {V E : Type}

/-- C30, whatever the schedule: from some time on nothing happens but polling (no task is queued,
taken, started or finished, nothing is taken from a done queue, no evaluation begins or ends). -/
theorem C30_finitely_many_steps {nw : Nat} {p : Prog V E} {s : State V E} {sched : Nat → Thread}
    {σ : Nat → State V E} (h : Reach nw p s) (hx : Exec s sched σ) :
    ∃ N, ∀ n, N ≤ n → (σ n).evs = (σ N).evs ∧ (σ n).ready = (σ N).ready ∧ (σ n).log = (σ N).log ∧
      (σ n).main = (σ N).main ∧ (σ n).mainPhase = (σ N).mainPhase := by
  obtain ⟨N, hN⟩ := hx.quiet h
  refine ⟨N, ?_⟩
  intro n hn
  induction n, hn using Nat.le_induction with
  | base => simp
  | succ n hn ih =>
    have hnx := hx.next n
    cases hs : step (σ n) (sched n) with
    | none => rw [hs] at hnx; rw [hnx]; exact ih
    | some s' =>
      rw [hs] at hnx
      rcases (hx.reach h n).inv.progress hs with h1 | ⟨w, -, ph, l, h1, -, -⟩
      · rw [← show σ (n + 1) = s' from hnx] at h1
        exact absurd h1 (hN n hn)
      · rw [hnx]
        simp only [Option.getD_some, h1]
        exact ih

/-- C30: the main program comes to its result under every fair schedule. -/
theorem C30_finishes_partial {nw : Nat} {p : Prog V E} {s : State V E} {sched : Nat → Thread}
    {σ : Nat → State V E} (hnw : 1 ≤ nw) (h : Reach nw p s) (hx : Exec s sched σ) (hf : Fair sched σ) :
    ∃ n r, (σ n).result = some r := by
  obtain ⟨n, hn⟩ := hx.leaves h hf hnw
  obtain ⟨r, hr⟩ := (hx.reach h n).has_result hn
  exact ⟨n, r, hr⟩

/-- C30: from every state that can be reached the main program can come to its result. -/
theorem C30_can_finish_partial {nw : Nat} {p : Prog V E} {s : State V E} (hnw : 1 ≤ nw)
    (h : Reach nw p s) : ∃ ths r, (run s ths).result = some r := by
  obtain ⟨sched, σ, hx, hf⟩ := exists_fair s
  obtain ⟨n, r, hr⟩ := C30_finishes_partial hnw h hx hf
  obtain ⟨ths, ht⟩ := hx.run n
  exact ⟨ths, r, ht ▸ hr⟩

/-- C30: there is no deadlock before the result. -/
theorem C30_no_deadlock_partial {nw : Nat} {p : Prog V E} {s : State V E} (hnw : 1 ≤ nw)
    (h : Reach nw p s) (hm : s.mainPhase = .code) : ∃ th, (step s th).isSome = true := by
  apply Classical.byContradiction
  intro hno
  have hnone : ∀ th, step s th = none := by
    intro th
    cases hs : step s th with
    | none => rfl
    | some s' => exact absurd ⟨th, by rw [hs]; rfl⟩ hno
  obtain ⟨ths, r, hr⟩ := C30_can_finish_partial hnw h
  have : run s ths = s := by
    clear hr
    induction ths with
    | nil => rfl
    | cons th ths ih => simp only [run, hnone, Option.getD_none]; exact ih
  rw [this] at hr
  simp [State.result, hm] at hr

/-- C35: when the main program ends after evaluations of which none was left by the exception of a
task, `shutdown` returns under every fair schedule, and all workers have ended. -/
theorem C35_shutdown_partial {nw : Nat} {p : Prog V E} {s : State V E} {sched : Nat → Thread}
    {σ : Nat → State V E} (h : Reach nw p s) (hm : s.mainPhase = .joining 0)
    (hn : ∀ e x, .left e (.raised x) ∉ s.log) (hx : Exec s sched σ) (hf : Fair sched σ) :
    ∃ N, ∀ n, N ≤ n → (σ n).mainPhase = .ended ∧ ∀ w, w < nw → ((σ n).workers w).phase = .ended :=
  hx.shut h hf (by rw [hm]; simp) hn

/-- C35, without fairness: under the same condition the shutdown is never stuck. -/
theorem C35_no_deadlock_partial {nw : Nat} {p : Prog V E} {s : State V E} (h : Reach nw p s)
    (hm : s.mainPhase ≠ .code) (hn : ∀ e x, .left e (.raised x) ∉ s.log)
    (hs : ∀ th, step s th = none) :
    s.mainPhase = .ended ∧ ∀ w, w < nw → (s.workers w).phase = .ended :=
  h.shut hm hn hs

namespace Ex

/-- The hypotheses are met: two workers and three tasks, one of them interruptible. -/
example : ∃ sched σ n r, Exec (State.init 2 p1) sched σ ∧ Fair sched σ ∧ (σ n).result = some r := by
  obtain ⟨sched, σ, hx, hf⟩ := exists_fair (State.init 2 p1)
  obtain ⟨n, r, hr⟩ := C30_finishes_partial (by decide) .init hx hf
  exact ⟨sched, σ, n, r, hx, hf, hr⟩

/-- … and the result is the expected one -/
example : ∃ ths, (run (State.init 2 p1) ths).result = some (.ok 456) := by
  obtain ⟨ths, r, hr⟩ := C30_can_finish_partial (nw := 2) (p := p1) (by decide) .init
  have := C26_map lp task (· + 3) [1, 2, 3] digits (fun s _ => task_computes s) (run_init 2 p1 ths) hr
  exact ⟨ths, by rw [hr, this]; rfl⟩

/-- one worker, maps nested twice, in the middle of the evaluation -/
example : ∃ th, (step (run (State.init 1 p2) (turns 12 [.main, w 0])) th).isSome = true :=
  C30_no_deadlock_partial (by decide) (run_init 1 p2 _) (by decide +kernel)

/-- shutdown after a map with three tasks -/
example : ∃ ths, (run (State.init 2 p1) ths).mainPhase = .ended ∧
    ∀ v, v < 2 → ((run (State.init 2 p1) ths).workers v).phase = .ended := by
  let ths0 : List Thread := [.main] ++ many 2 (w 0) ++ many 3 (w 1) ++ many 2 (w 0) ++ many 3 (w 1) ++
    many 2 (w 0) ++ many 10 (w 1) ++ many 5 .main
  let s0 := run (State.init 2 p1) ths0
  have hr : Reach 2 p1 s0 := run_init 2 p1 _
  have h0 : s0.mainPhase = .joining 0 ∧ s0.log = [.left 0 (.done [(1, 5), (2, 6), (0, 4)]),
      .finish (0, 0) (.ok 4), .start (0, 0), .finish (0, 2) (.ok 6), .start (0, 2),
      .finish (0, 1) (.ok 5), .start (0, 1)] := by decide +kernel
  obtain ⟨sched, σ, hx, hf⟩ := exists_fair s0
  obtain ⟨N, hN⟩ := C35_shutdown_partial hr h0.1 (by rw [h0.2]; simp) hx hf
  obtain ⟨ths, ht⟩ := hx.run N
  have hrun : ∀ (a b : List Thread) (t : State Nat Nat), run t (a ++ b) = run (run t a) b := by
    intro a
    induction a with
    | nil => intro b t; rfl
    | cons x a ih => intro b t; exact ih b _
  refine ⟨ths0 ++ ths, ?_⟩
  rw [hrun]
  show (run s0 ths).mainPhase = .ended ∧ ∀ v, v < 2 → ((run s0 ths).workers v).phase = .ended
  rw [ht]
  exact hN N (Nat.le_refl _)

end Ex

end Verif.Sched
