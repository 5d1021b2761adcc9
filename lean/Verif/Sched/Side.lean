import Verif.Sched.Log

/-! # The main thread and the end of the workers -/
namespace Verif.Sched

variable {V E : Type}

/-- A step that leaves the main thread and the flags of the workers as they are. -/
structure Apart (s s' : State V E) : Prop where
  nw : s'.nw = s.nw
  main : s'.main = s.main
  mainWait : s'.mainWait = s.mainWait
  mainPhase : s'.mainPhase = s.mainPhase
  finished : ∀ w, (s'.workers w).finished = (s.workers w).finished
  sentinels : sentinels s'.ready ≤ sentinels s.ready

theorem Apart.refl (s : State V E) : Apart s s := ⟨rfl, rfl, rfl, rfl, fun _ => rfl, Nat.le_refl _⟩

theorem Apart.trans {s t u : State V E} (h : Apart s t) (h' : Apart t u) : Apart s u :=
  ⟨h'.nw.trans h.nw, h'.main.trans h.main, h'.mainWait.trans h.mainWait,
    h'.mainPhase.trans h.mainPhase, fun w => (h'.finished w).trans (h.finished w),
    Nat.le_trans h'.sentinels h.sentinels⟩

theorem finished_upd {ws : Nat → Worker V E} {w : Nat} {x : Worker V E}
    (h : x.finished = (ws w).finished) (w' : Nat) :
    (upd ws w x w').finished = (ws w').finished := by
  by_cases e : w' = w
  · subst e; rw [upd_self]; exact h
  · rw [upd_ne _ _ e]

theorem apart_phase (s : State V E) (w : Nat) (p : Phase) : Apart s (s.phase w p) :=
  ⟨rfl, rfl, rfl, rfl, finished_upd rfl, Nat.le_refl _⟩

theorem apart_frame (s : State V E) (w : Nat) (p : Phase) (f : Frame V E) (rest : List (Frame V E)) :
    Apart s (s.frame w p f rest) :=
  ⟨rfl, rfl, rfl, rfl, finished_upd rfl, Nat.le_refl _⟩

theorem apart_lock {s t : State V E} (h : Apart s t) (l : Option Nat) : Apart s { t with lock := l } :=
  ⟨h.nw, h.main, h.mainWait, h.mainPhase, h.finished, h.sentinels⟩

theorem apart_leave (s : State V E) (e : Nat) (out : EvalOut V E) : Apart s (s.leave e out) :=
  ⟨rfl, rfl, rfl, rfl, fun _ => rfl, Nat.le_refl _⟩

theorem apart_spawn (s : State V E) (o : Option Nat) (n : Nat) (deps : Nat → List Nat)
    (body : Nat → Prog V E) : Apart s (spawn s o n deps body) := by
  refine ⟨rfl, rfl, rfl, rfl, fun _ => rfl, ?_⟩
  simp only [spawn]
  rw [enqueue_sentinels]
  exact Nat.le_refl _

theorem apart_takeDone {s s1 : State V E} {e i : Nat} {rest : List Nat} {o : Option E}
    (h : takeDone s e i rest = some (o, s1)) : Apart s s1 := by
  simp only [takeDone] at h
  split at h
  · simp at h
  · simp only [Option.some.injEq, Prod.mk.injEq] at h
    obtain ⟨-, rfl⟩ := h
    exact ⟨rfl, rfl, rfl, rfl, fun _ => rfl, Nat.le_refl _⟩
  · simp only [Option.some.injEq, Prod.mk.injEq] at h
    obtain ⟨-, rfl⟩ := h
    refine ⟨rfl, rfl, rfl, rfl, fun _ => rfl, ?_⟩
    simp only
    rw [enqueue_sentinels]
    exact Nat.le_refl _

theorem apart_take (s : State V E) (w : Nat) (it : Item) (q : List Item) (h : s.ready = it :: q) :
    Apart s (s.take w it q) := by
  cases it with
  | none => exact ⟨rfl, rfl, rfl, rfl, fun _ => rfl, by simp [State.take, h, sentinels]⟩
  | some t => exact ⟨rfl, rfl, rfl, rfl, fun _ => rfl, by simp [State.take, h, sentinels]⟩

theorem apart_start (s : State V E) (w : Nat) (t : TaskId) : Apart s (startTask s w t) :=
  ⟨rfl, rfl, rfl, rfl, finished_upd rfl, Nat.le_refl _⟩

theorem apart_end (s : State V E) (w : Nat) (t : TaskId) (r : Except E V) (rest : List (Frame V E)) :
    Apart s (endTask s w t r rest) :=
  ⟨rfl, rfl, rfl, rfl, finished_upd rfl, Nat.le_refl _⟩

theorem apart_worker {s s' : State V E} {w : Nat} (hs : stepWorker s w = some s') : Apart s s' := by
  simp only [stepWorker] at hs
  split at hs
  · simp at hs
  · simp only [Option.some.injEq] at hs
    subst hs
    split <;> exact apart_phase _ _ _
  · split at hs
    · simp at hs
    · rename_i it q hq
      simp only [Option.some.injEq] at hs
      subst hs
      exact (apart_take s w it q hq).trans (apart_phase _ _ _)
  · split at hs
    · split at hs <;> simp only [Option.some.injEq] at hs <;> subst hs
      · exact apart_phase _ _ _
      · exact apart_start _ _ _
    · simp at hs
  · split at hs
    · simp only [Option.some.injEq] at hs
      subst hs
      exact apart_lock (apart_phase _ _ _) _
    · simp at hs
  · split at hs
    · simp only [Option.some.injEq] at hs
      subst hs
      exact apart_phase _ _ _
    · rename_i it q hq
      simp only [Option.some.injEq] at hs
      subst hs
      exact (apart_take s w it q hq).trans (apart_phase _ _ _)
  · split at hs
    · split at hs <;> simp only [Option.some.injEq] at hs <;> subst hs
      · exact apart_start _ _ _
      · exact apart_lock (apart_phase _ _ _) _
    · simp at hs
  · split at hs
    · simp at hs
    · split at hs
      · simp at hs
      · split at hs
        · simp only [Option.some.injEq] at hs
          subst hs
          exact apart_phase _ _ _
        · split at hs
          · simp at hs
          · rename_i ht
            simp only [Option.some.injEq] at hs
            subst hs
            exact (apart_takeDone ht).trans (apart_phase _ _ _)
          · rename_i ht
            simp only [Option.some.injEq] at hs
            subst hs
            exact ((apart_takeDone ht).trans (apart_leave _ _ _)).trans (apart_frame _ _ _ _ _)
  · split at hs
    · simp at hs
    · split at hs
      · split at hs <;> simp only [Option.some.injEq] at hs <;> subst hs
        · exact (apart_leave _ _ _).trans (apart_frame _ _ _ _ _)
        · exact apart_lock (apart_phase _ _ _) _
      · split at hs <;> simp only [Option.some.injEq] at hs <;> subst hs
        · exact apart_end _ _ _ _ _
        · exact apart_end _ _ _ _ _
        · exact apart_lock (apart_frame _ _ _ _ _) _
        · exact (apart_spawn _ _ _ _ _).trans (apart_frame _ _ _ _ _)

/-- phases that occur only after `shutdown` has been called -/
def Phase.late : Phase → Bool
  | .ended => true
  | .took none => true
  | .polled (some none) => true
  | _ => false

/-- The main thread: it leaves its code with a result; before that no worker ends. -/
structure Side (s : State V E) : Prop where
  done : s.mainPhase ≠ .code → s.mainWait = none ∧
    ((∃ v, s.main = .ret v) ∨ ∃ x, s.main = .raise x)
  quiet : s.mainPhase = .code → sentinels s.ready = 0 ∧
    ∀ w, (s.workers w).finished = false ∧ (s.workers w).phase.late = false

theorem late_upd {ws : Nat → Worker V E} {w : Nat} {x : Worker V E} (h : ∀ w, (ws w).phase.late = false)
    (hx : x.phase.late = false) (w' : Nat) : (upd ws w x w').phase.late = false := by
  by_cases e : w' = w
  · subst e; rw [upd_self]; exact hx
  · rw [upd_ne _ _ e]; exact h w'

theorem takeDone_workers {s s1 : State V E} {e i : Nat} {rest : List Nat} {o : Option E}
    (h : takeDone s e i rest = some (o, s1)) : s1.workers = s.workers := by
  simp only [takeDone] at h
  split at h
  · simp at h
  · simp only [Option.some.injEq, Prod.mk.injEq] at h
    obtain ⟨-, rfl⟩ := h
    rfl
  · simp only [Option.some.injEq, Prod.mk.injEq] at h
    obtain ⟨-, rfl⟩ := h
    rfl

theorem take_workers {s : State V E} {w : Nat} {it : Item} {q : List Item} :
    (s.take w it q).workers = s.workers := by cases it <;> rfl

theorem late_worker {s s' : State V E} {w : Nat} (hs : stepWorker s w = some s')
    (h0 : sentinels s.ready = 0)
    (h1 : ∀ w, (s.workers w).finished = false ∧ (s.workers w).phase.late = false) (w' : Nat) :
    (s'.workers w').phase.late = false := by
  have hl : ∀ w, (s.workers w).phase.late = false := fun w => (h1 w).2
  have hw := hl w
  simp only [stepWorker] at hs
  split at hs
  · simp at hs
  · simp only [Option.some.injEq] at hs
    subst hs
    rw [(h1 w).1]
    exact late_upd hl rfl w'
  · split at hs
    · simp at hs
    · rename_i it q hq
      simp only [Option.some.injEq] at hs
      subst hs
      cases it with
      | none => simp [hq, sentinels] at h0
      | some t => exact late_upd hl rfl w'
  · rename_i it hp
    split at hs
    · split at hs <;> simp only [Option.some.injEq] at hs <;> subst hs
      · rw [hp] at hw; simp [Phase.late] at hw
      · exact late_upd hl rfl w'
    · simp at hs
  · split at hs
    · simp only [Option.some.injEq] at hs
      subst hs
      exact late_upd hl rfl w'
    · simp at hs
  · split at hs
    · simp only [Option.some.injEq] at hs
      subst hs
      exact late_upd hl rfl w'
    · rename_i it q hq
      simp only [Option.some.injEq] at hs
      subst hs
      cases it with
      | none => simp [hq, sentinels] at h0
      | some t => exact late_upd hl rfl w'
  · split at hs
    · split at hs <;> simp only [Option.some.injEq] at hs <;> subst hs
      · exact late_upd hl rfl w'
      · exact late_upd hl rfl w'
    · simp at hs
  · split at hs
    · simp at hs
    · split at hs
      · simp at hs
      · split at hs
        · simp only [Option.some.injEq] at hs
          subst hs
          exact late_upd hl rfl w'
        · split at hs
          · simp at hs
          · rename_i ht
            simp only [Option.some.injEq] at hs
            subst hs
            exact late_upd (by rw [takeDone_workers ht]; exact hl) rfl w'
          · rename_i ht
            simp only [Option.some.injEq] at hs
            subst hs
            exact late_upd (by simp only [State.leave]; rw [takeDone_workers ht]; exact hl) rfl w'
  · split at hs
    · simp at hs
    · split at hs
      · split at hs <;> simp only [Option.some.injEq] at hs <;> subst hs
        · exact late_upd hl rfl w'
        · exact late_upd hl rfl w'
      · split at hs <;> simp only [Option.some.injEq] at hs <;> subst hs
        · refine late_upd hl ?_ w'
          simp only; split <;> rfl
        · refine late_upd hl ?_ w'
          simp only; split <;> rfl
        · exact late_upd hl rfl w'
        · exact late_upd hl rfl w'

theorem Side.init (nw : Nat) (p : Prog V E) : Side (State.init nw p) :=
  ⟨by simp [State.init], by simp [State.init, sentinels, Phase.late]⟩

theorem Side.step {s s' : State V E} (h : Side s) {th : Thread} (hs : Sched.step s th = some s') :
    Side s' := by
  cases th with
  | worker w =>
    simp only [Sched.step] at hs
    split at hs
    · have ha := apart_worker hs
      refine ⟨?_, ?_⟩
      · rw [ha.main, ha.mainWait, ha.mainPhase]; exact h.done
      · rw [ha.mainPhase]
        intro hc
        obtain ⟨h0, h1⟩ := h.quiet hc
        refine ⟨by have := ha.sentinels; omega, fun w' => ⟨?_, late_worker hs h0 h1 w'⟩⟩
        rw [ha.finished]; exact (h1 w').1
    · simp at hs
  | main =>
    simp only [Sched.step, stepMain] at hs
    split at hs
    · simp at hs
    · rename_i i hp
      have hd := h.done (by simp [hp])
      split at hs
      · split at hs
        · split at hs
          · simp only [Option.some.injEq] at hs
            subst hs
            exact ⟨fun _ => hd, by simp⟩
          · simp at hs
        · simp only [Option.some.injEq] at hs
          subst hs
          exact ⟨fun _ => hd, by simp [hp]⟩
      · simp only [Option.some.injEq] at hs
        subst hs
        exact ⟨fun _ => hd, by simp⟩
    · rename_i hp
      obtain ⟨h0, h1⟩ := h.quiet hp
      split at hs
      · split at hs
        · simp only [Option.some.injEq] at hs
          subst hs
          exact ⟨by simp [State.leave, hp], fun _ => ⟨h0, h1⟩⟩
        · split at hs
          · simp at hs
          · split at hs
            · simp at hs
            · rename_i ht
              simp only [Option.some.injEq] at hs
              subst hs
              have ha := apart_takeDone ht
              refine ⟨by rw [ha.mainPhase]; simp [hp], fun _ => ⟨by have := ha.sentinels; omega, ?_⟩⟩
              rw [takeDone_workers ht]; exact h1
            · rename_i ht
              simp only [Option.some.injEq] at hs
              subst hs
              have ha := apart_takeDone ht
              refine ⟨by simp [State.leave, ha.mainPhase, hp], fun _ => ⟨?_, ?_⟩⟩
              · simp only [State.leave]; have := ha.sentinels; omega
              · simp only [State.leave]; rw [takeDone_workers ht]; exact h1
      · rename_i hw
        split at hs <;> simp only [Option.some.injEq] at hs <;> subst hs
        · rename_i v hm
          exact ⟨fun _ => ⟨hw, .inl ⟨v, hm⟩⟩, by simp⟩
        · rename_i x hm
          exact ⟨fun _ => ⟨hw, .inr ⟨x, hm⟩⟩, by simp⟩
        · exact ⟨by simp [hp], fun _ => ⟨h0, h1⟩⟩
        · rename_i n deps body k hm
          refine ⟨by simp [spawn, hp], fun _ => ⟨?_, h1⟩⟩
          have := (apart_spawn s none n deps body).sentinels
          rw [h0] at this
          exact Nat.le_zero.mp this

theorem Reach.side {nw : Nat} {p : Prog V E} {s : State V E} (h : Reach nw p s) : Side s := by
  induction h with
  | init => exact Side.init nw p
  | step th _ hs ih => exact ih.step hs

theorem step_nw {s s' : State V E} {th : Thread} (hs : Sched.step s th = some s') : s'.nw = s.nw := by
  cases th with
  | worker w =>
    simp only [Sched.step] at hs
    split at hs
    · exact (apart_worker hs).nw
    · simp at hs
  | main =>
    simp only [Sched.step, stepMain] at hs
    split at hs
    · simp at hs
    · split at hs
      · split at hs
        · split at hs
          · simp only [Option.some.injEq] at hs
            subst hs; rfl
          · simp at hs
        · simp only [Option.some.injEq] at hs
          subst hs; rfl
      · simp only [Option.some.injEq] at hs
        subst hs; rfl
    · split at hs
      · split at hs
        · simp only [Option.some.injEq] at hs
          subst hs; rfl
        · split at hs
          · simp at hs
          · split at hs
            · simp at hs
            · rename_i ht
              simp only [Option.some.injEq] at hs
              subst hs
              exact (apart_takeDone ht).nw
            · rename_i ht
              simp only [Option.some.injEq] at hs
              subst hs
              exact (apart_takeDone ht).nw
      · split at hs <;> simp only [Option.some.injEq] at hs <;> subst hs <;> rfl

theorem Reach.nw_eq {nw : Nat} {p : Prog V E} {s : State V E} (h : Reach nw p s) : s.nw = nw := by
  induction h with
  | init => rfl
  | step th _ hs ih => rw [step_nw hs, ih]

/-- The result of the main program, once it has one. -/
def State.result (s : State V E) : Option (Except E V) :=
  if s.mainPhase = .code then none
  else match s.main with
    | .ret v => some (.ok v)
    | .raise x => some (.error x)
    | _ => none

/-- Whatever the schedule, the result of the main program is one that the specification allows. -/
theorem Reach.result {nw : Nat} {p : Prog V E} {s : State V E} (h : Reach nw p s) {r : Except E V}
    (hr : s.result = some r) : Den p r := by
  simp only [State.result] at hr
  split at hr
  · simp at hr
  · apply h.inv.main.sound
    split at hr
    · rename_i hm; rw [hm]; simp only [Option.some.injEq] at hr; exact hr.symm
    · rename_i hm; rw [hm]; simp only [Option.some.injEq] at hr; exact hr.symm
    · simp at hr

/-- The main program has a result when it has been left. -/
theorem Reach.has_result {nw : Nat} {p : Prog V E} {s : State V E} (h : Reach nw p s)
    (hm : s.mainPhase ≠ .code) : ∃ r, s.result = some r := by
  obtain ⟨-, h1⟩ := h.side.done hm
  rcases h1 with ⟨v, hv⟩ | ⟨x, hx⟩
  · exact ⟨.ok v, by simp [State.result, hm, hv]⟩
  · exact ⟨.error x, by simp [State.result, hm, hx]⟩

end Verif.Sched
