import Verif.Sched.EvLemmas

/-! # The invariant of the scheduler -/
namespace Verif.Sched

variable {V E : Type}

/-- the task a worker has taken from the ready queue and not started yet -/
def Phase.holds : Phase → Option TaskId
  | .took it => it
  | .polled (some it) => it
  | _ => none

/-- the phases in which a worker has the controlling lock -/
def Phase.locked : Phase → Bool
  | .code => true
  | .check => true
  | _ => false

/-- The frames below the top one are inside `_evaluate`. -/
def Below (rest : List (Frame V E)) : Prop := ∀ g ∈ rest, g.wait.isSome = true

/-- Which stacks go with which phases. -/
def Shape : Phase → List (Frame V E) → Prop
  | .top, st => st = []
  | .reading, st => st = []
  | .took _, st => st = []
  | .ended, st => st = []
  | .code, st => ∃ f rest, st = f :: rest ∧ Below rest
  | .paused, st => ∃ f rest, st = f :: rest ∧ f.wait = none ∧ Below rest
  | .poll, st => ∃ f rest, st = f :: rest ∧ f.wait.isSome = true ∧ Below rest
  | .polled _, st => ∃ f rest, st = f :: rest ∧ f.wait.isSome = true ∧ Below rest
  | .check, st => ∃ f rest, st = f :: rest ∧ f.wait.isSome = true ∧ Below rest

structure FrameOk (next : Nat) (evs : Nat → Ev V E) (w : Nat) (f : Frame V E) : Prop where
  task_lt : f.task.1 < next
  wait : ∀ e, f.wait = some e → e < next ∧ (evs e).live = true ∧ (evs e).owner = some w ∧
    f.task.1 < e ∧ ∃ k, f.prog = .eval (evs e).n (evs e).deps (evs e).body k
  sound : ∀ r, Den f.prog r → Den ((evs f.task.1).body f.task.2) r

structure MainOk (p : Prog V E) (next : Nat) (evs : Nat → Ev V E) (main : Prog V E)
    (wait : Option Nat) : Prop where
  wait : ∀ e, wait = some e → e < next ∧ (evs e).live = true ∧ (evs e).owner = none ∧
    ∃ k, main = .eval (evs e).n (evs e).deps (evs e).body k
  sound : ∀ r, Den main r → Den p r

/-- the younger frame waits for the younger evaluation -/
def Younger (f g : Frame V E) : Prop := ∀ a, f.wait = some a → ∀ b, g.wait = some b → b < a

structure Inv (p : Prog V E) (s : State V E) : Prop where
  evs : ∀ e, EvOk (s.evs e)
  fresh : ∀ e, s.next ≤ e → (s.evs e).n = 0 ∧ (s.evs e).live = false
  ready_iff : ∀ e i, some (e, i) ∈ s.ready ↔ (s.evs e).status i = .queued
  ready_nodup : (s.ready.filterMap id).Nodup
  held_iff : ∀ w e i, (s.workers w).phase.holds = some (e, i) ↔ (s.evs e).status i = .held w
  active_iff : ∀ w e i, (e, i) ∈ (s.workers w).stack.map Frame.task ↔ (s.evs e).status i = .active w
  active_nodup : ∀ w, ((s.workers w).stack.map Frame.task).Nodup
  shape : ∀ w, Shape (s.workers w).phase (s.workers w).stack
  outside : ∀ w, s.nw ≤ w → (s.workers w).phase = .top
  lock_iff : ∀ w, s.lock = some w ↔ (s.workers w).phase.locked = true
  frames : ∀ w, ∀ f ∈ (s.workers w).stack, FrameOk s.next s.evs w f
  younger : ∀ w, (s.workers w).stack.Pairwise Younger
  main : MainOk p s.next s.evs s.main s.mainWait
  live_main : ∀ e, (s.evs e).live = true → (s.evs e).owner = none → s.mainWait = some e
  live_worker : ∀ e w, (s.evs e).live = true → (s.evs e).owner = some w →
    ∃ f ∈ (s.workers w).stack, f.wait = some e

/-! ## Small facts -/

/-- the parts of an evaluation that other frames refer to -/
def Static (a b : Ev V E) : Prop :=
  b.n = a.n ∧ b.deps = a.deps ∧ b.body = a.body ∧ b.live = a.live ∧ b.owner = a.owner

theorem FrameOk.mono {next next' : Nat} {evs evs' : Nat → Ev V E} {w : Nat} {f : Frame V E}
    (h : FrameOk next evs w f) (hn : next ≤ next')
    (hs : ∀ e, e < next → (evs' e).n = (evs e).n ∧ (evs' e).deps = (evs e).deps ∧
      (evs' e).body = (evs e).body)
    (hl : ∀ e, f.wait = some e → (evs' e).live = (evs e).live ∧ (evs' e).owner = (evs e).owner) :
    FrameOk next' evs' w f := by
  refine ⟨by have := h.task_lt; omega, ?_, ?_⟩
  · intro e he
    obtain ⟨h1, h2, h3, h4, k, h5⟩ := h.wait e he
    obtain ⟨s1, s2, s3⟩ := hs e h1
    obtain ⟨l1, l2⟩ := hl e he
    exact ⟨by omega, by rw [l1]; exact h2, by rw [l2]; exact h3, h4, k, by rw [s1, s2, s3]; exact h5⟩
  · intro r hr
    rw [(hs _ h.task_lt).2.2]
    exact h.sound r hr

theorem MainOk.mono {p : Prog V E} {next next' : Nat} {evs evs' : Nat → Ev V E} {m : Prog V E}
    {wt : Option Nat} (h : MainOk p next evs m wt) (hn : next ≤ next')
    (hs : ∀ e, e < next → (evs' e).n = (evs e).n ∧ (evs' e).deps = (evs e).deps ∧
      (evs' e).body = (evs e).body)
    (hl : ∀ e, wt = some e → (evs' e).live = (evs e).live ∧ (evs' e).owner = (evs e).owner) :
    MainOk p next' evs' m wt := by
  refine ⟨?_, h.sound⟩
  intro e he
  obtain ⟨h1, h2, h3, k, h5⟩ := h.wait e he
  obtain ⟨s1, s2, s3⟩ := hs e h1
  obtain ⟨l1, l2⟩ := hl e he
  exact ⟨by omega, by rw [l1]; exact h2, by rw [l2]; exact h3, k, by rw [s1, s2, s3]; exact h5⟩

theorem Inv.lt_next {p : Prog V E} {s : State V E} (h : Inv p s) {e i : Nat}
    (hs : (s.evs e).status i ≠ .new) : e < s.next := by
  apply Classical.byContradiction
  intro hn
  have h1 := (h.fresh e (by omega)).1
  have h2 := (h.evs e).lt i hs
  omega

theorem Inv.live_lt {p : Prog V E} {s : State V E} (h : Inv p s) {e : Nat}
    (hs : (s.evs e).live = true) : e < s.next := by
  apply Classical.byContradiction
  intro hn
  have h1 := (h.fresh e (by omega)).2
  simp [h1] at hs

theorem Inv.init (nw : Nat) (p : Prog V E) : Inv p (State.init nw p) := by
  refine ⟨?_, ?_, ?_, ?_, ?_, ?_, ?_, ?_, ?_, ?_, ?_, ?_, ?_, ?_, ?_⟩
  all_goals simp [State.init, Phase.holds, Phase.locked, Shape]
  · refine ⟨⟨?_, ?_, ?_, ?_, ?_, ?_, ?_, ?_, ?_, ?_, ?_, ?_, ?_⟩, ?_⟩ <;> simp [sumTo]
  · exact ⟨by simp, fun _ h => h⟩

/-- Only the phase of one worker and the lock change. -/
theorem Inv.phase {p : Prog V E} {s : State V E} (h : Inv p s) {w : Nat} (hw : w < s.nw)
    {ph : Phase} {l : Option Nat}
    (hh : ph.holds = (s.workers w).phase.holds)
    (hsh : Shape ph (s.workers w).stack)
    (hl : ∀ w', l = some w' ↔ ((upd s.workers w { s.workers w with phase := ph }) w').phase.locked = true) :
    Inv p { s.phase w ph with lock := l } := by
  refine ⟨h.evs, h.fresh, h.ready_iff, h.ready_nodup, ?_, ?_, ?_, ?_, ?_, hl, ?_, ?_, h.main,
    h.live_main, ?_⟩
  · intro w' e i
    by_cases ew : w' = w
    · subst ew; simp only [State.phase, upd_self, hh]; exact h.held_iff w' e i
    · simp only [State.phase, upd_ne _ _ ew]; exact h.held_iff w' e i
  · intro w' e i
    by_cases ew : w' = w
    · subst ew; simp only [State.phase, upd_self]; exact h.active_iff w' e i
    · simp only [State.phase, upd_ne _ _ ew]; exact h.active_iff w' e i
  · intro w'
    by_cases ew : w' = w
    · subst ew; simp only [State.phase, upd_self]; exact h.active_nodup w'
    · simp only [State.phase, upd_ne _ _ ew]; exact h.active_nodup w'
  · intro w'
    by_cases ew : w' = w
    · subst ew; simp only [State.phase, upd_self]; exact hsh
    · simp only [State.phase, upd_ne _ _ ew]; exact h.shape w'
  · intro w' hw'
    have ew : w' ≠ w := by
      have : s.nw ≤ w' := hw'
      omega
    simp only [State.phase, upd_ne _ _ ew]; exact h.outside w' hw'
  · intro w' f hf
    by_cases ew : w' = w
    · subst ew; simp only [State.phase, upd_self] at hf; exact h.frames w' f hf
    · simp only [State.phase, upd_ne _ _ ew] at hf; exact h.frames w' f hf
  · intro w'
    by_cases ew : w' = w
    · subst ew; simp only [State.phase, upd_self]; exact h.younger w'
    · simp only [State.phase, upd_ne _ _ ew]; exact h.younger w'
  · intro e w' h1 h2
    obtain ⟨f, hf, hfe⟩ := h.live_worker e w' h1 h2
    by_cases ew : w' = w
    · subst ew; exact ⟨f, by simpa only [State.phase, upd_self] using hf, hfe⟩
    · exact ⟨f, by simpa only [State.phase, upd_ne _ _ ew] using hf, hfe⟩

/-- the lock does not change and neither does whether the worker has it -/
theorem Inv.lock_same {p : Prog V E} {s : State V E} (h : Inv p s) {w : Nat} {x : Worker V E}
    (he : x.phase.locked = (s.workers w).phase.locked) (w' : Nat) :
    s.lock = some w' ↔ ((upd s.workers w x) w').phase.locked = true := by
  by_cases ew : w' = w
  · subst ew; simp only [upd_self, he]; exact h.lock_iff w'
  · simp only [upd_ne _ _ ew]; exact h.lock_iff w'

/-- the worker takes the lock -/
theorem Inv.lock_take {p : Prog V E} {s : State V E} (h : Inv p s) {w : Nat} {x : Worker V E}
    (hn : s.lock = none) (he : x.phase.locked = true) (w' : Nat) :
    some w = some w' ↔ ((upd s.workers w x) w').phase.locked = true := by
  by_cases ew : w' = w
  · subst ew; simp [upd_self, he]
  · have := h.lock_iff w'
    rw [hn] at this
    simp only [upd_ne _ _ ew]
    constructor
    · intro e; simp at e; exact absurd e.symm ew
    · intro e
      exact absurd (this.mpr e) (by simp)

/-- the worker releases the lock -/
theorem Inv.lock_release {p : Prog V E} {s : State V E} (h : Inv p s) {w : Nat} {x : Worker V E}
    (hl : (s.workers w).phase.locked = true) (he : x.phase.locked = false) (w' : Nat) :
    none = some w' ↔ ((upd s.workers w x) w').phase.locked = true := by
  have hw := (h.lock_iff w).mpr hl
  by_cases ew : w' = w
  · subst ew; simp [upd_self, he]
  · simp only [upd_ne _ _ ew]
    constructor
    · intro e; simp at e
    · intro e
      have := (h.lock_iff w').mpr e
      rw [hw] at this
      simp at this
      exact absurd this.symm ew

/-- Nothing changes but the main phase, `finished` flags and `None`s in the ready queue. -/
theorem Inv.other {p : Prog V E} {s s' : State V E} (h : Inv p s)
    (h1 : s'.nw = s.nw) (h2 : s'.lock = s.lock) (h3 : s'.evs = s.evs) (h4 : s'.next = s.next)
    (h5 : ∀ w, (s'.workers w).phase = (s.workers w).phase ∧ (s'.workers w).stack = (s.workers w).stack)
    (h6 : s'.main = s.main) (h7 : s'.mainWait = s.mainWait)
    (h8 : s'.ready.filterMap id = s.ready.filterMap id) : Inv p s' := by
  have hm : ∀ t : TaskId, some t ∈ s'.ready ↔ some t ∈ s.ready := by
    intro t
    have a : ∀ q : List Item, some t ∈ q ↔ t ∈ q.filterMap id := by intro q; simp
    rw [a, a, h8]
  refine ⟨?_, ?_, ?_, ?_, ?_, ?_, ?_, ?_, ?_, ?_, ?_, ?_, ?_, ?_, ?_⟩
  · rw [h3]; exact h.evs
  · rw [h3, h4]; exact h.fresh
  · intro e i; rw [hm, h3]; exact h.ready_iff e i
  · rw [h8]; exact h.ready_nodup
  · intro w; rw [(h5 w).1, h3]; exact h.held_iff w
  · intro w; rw [(h5 w).2, h3]; exact h.active_iff w
  · intro w; rw [(h5 w).2]; exact h.active_nodup w
  · intro w; rw [(h5 w).1, (h5 w).2]; exact h.shape w
  · intro w; rw [(h5 w).1, h1]; exact h.outside w
  · intro w; rw [(h5 w).1, h2]; exact h.lock_iff w
  · intro w; rw [(h5 w).2, h3, h4]; exact h.frames w
  · intro w; rw [(h5 w).2]; exact h.younger w
  · rw [h3, h4, h6, h7]; exact h.main
  · rw [h3, h7]; exact h.live_main
  · intro e w; rw [h3, (h5 w).2]; exact h.live_worker e w

/-! ## Taking and starting a task -/

theorem static_upd {evs : Nat → Ev V E} {e0 : Nat} {ev : Ev V E}
    (h : ev.n = (evs e0).n ∧ ev.deps = (evs e0).deps ∧ ev.body = (evs e0).body) (e : Nat) :
    (upd evs e0 ev e).n = (evs e).n ∧ (upd evs e0 ev e).deps = (evs e).deps ∧
      (upd evs e0 ev e).body = (evs e).body := by
  by_cases ee : e = e0
  · subst ee; simpa only [upd_self] using h
  · simp only [upd_ne _ _ ee, and_self]

theorem live_upd {evs : Nat → Ev V E} {e0 : Nat} {ev : Ev V E}
    (h : ev.live = (evs e0).live ∧ ev.owner = (evs e0).owner) (e : Nat) :
    (upd evs e0 ev e).live = (evs e).live ∧ (upd evs e0 ev e).owner = (evs e).owner := by
  by_cases ee : e = e0
  · subst ee; simpa only [upd_self] using h
  · simp only [upd_ne _ _ ee, and_self]

theorem status_upd {evs : Nat → Ev V E} {e0 i0 : Nat} {b : Status} {ev : Ev V E}
    (hev : ev.status = upd (evs e0).status i0 b) (e i : Nat) :
    (upd evs e0 ev e).status i = if (e, i) = (e0, i0) then b else (evs e).status i := by
  by_cases ee : e = e0
  · subst ee
    simp only [upd_self, hev]
    by_cases ei : i = i0
    · subst ei; simp [upd]
    · simp [upd, ei]
  · simp [upd_ne _ _ ee, ee]

/-- A worker takes an item from the ready queue. -/
theorem Inv.take {p : Prog V E} {s : State V E} (h : Inv p s) {w : Nat} (hw : w < s.nw)
    {it : Item} {q : List Item} (hq : s.ready = it :: q) {ph : Phase}
    (hold : (s.workers w).phase.holds = none) (hh : ph.holds = it)
    (hsh : Shape ph (s.workers w).stack)
    (hl1 : ph.locked = false) (hl2 : (s.workers w).phase.locked = false) :
    Inv p ((s.take w it q).phase w ph) := by
  cases it with
  | none =>
    have h' : Inv p (s.take w none q) := by
      refine h.other rfl rfl rfl rfl (fun _ => ⟨rfl, rfl⟩) rfl rfl ?_
      simp [State.take, hq]
    have := h'.phase (w := w) (ph := ph) (l := s.lock) hw (by rw [hh]; exact hold.symm) hsh
      (h.lock_same (by simp [hl1, hl2]))
    exact this
  | some t =>
    obtain ⟨e0, i0⟩ := t
    have hst : (s.evs e0).status i0 = .queued := (h.ready_iff e0 i0).mp (by simp [hq])
    have hnd := h.ready_nodup
    rw [hq, List.filterMap_cons] at hnd
    simp only [id, List.nodup_cons] at hnd
    have hnq : some (e0, i0) ∉ q := by simpa using hnd.1
    have he0 := h.lt_next (e := e0) (i := i0) (by simp [hst])
    have hstat := status_upd (evs := s.evs) (e0 := e0) (i0 := i0) (b := .held w)
      (ev := { s.evs e0 with status := upd (s.evs e0).status i0 (.held w) }) rfl
    have hstatic := static_upd (evs := s.evs) (e0 := e0)
      (ev := { s.evs e0 with status := upd (s.evs e0).status i0 (.held w) }) ⟨rfl, rfl, rfl⟩
    have hlive := live_upd (evs := s.evs) (e0 := e0)
      (ev := { s.evs e0 with status := upd (s.evs e0).status i0 (.held w) }) ⟨rfl, rfl⟩
    refine ⟨?_, ?_, ?_, hnd.2, ?_, ?_, ?_, ?_, ?_, ?_, ?_, ?_, ?_, ?_, ?_⟩
    · intro e
      simp only [State.phase, State.take]
      by_cases ee : e = e0
      · subst ee
        simp only [upd_self]
        exact (h.evs e).mid (by simp [hst, Status.mid]) (by simp [Status.mid])
      · simp only [upd_ne _ _ ee]; exact h.evs e
    · intro e he
      simp only [State.phase, State.take]
      rw [(hstatic e).1, (hlive e).1]
      exact h.fresh e he
    · intro e i
      simp only [State.phase, State.take]
      rw [hstat]
      have := h.ready_iff e i
      rw [hq, List.mem_cons] at this
      by_cases ee : (e, i) = (e0, i0)
      · rw [if_pos ee]
        simp only [ee]
        exact ⟨fun hx => absurd hx hnq, by simp⟩
      · rw [if_neg ee, ← this]
        simp only [Option.some.injEq]
        exact ⟨.inr, fun hx => hx.resolve_left ee⟩
    · intro w' e i
      simp only [State.phase, State.take]
      rw [hstat]
      by_cases ew : w' = w
      · subst ew
        simp only [upd_self, hh]
        by_cases ee : (e, i) = (e0, i0)
        · simp [ee]
        · rw [if_neg ee]
          have := h.held_iff w' e i
          rw [hold] at this
          rw [← this]
          simp only [Option.some.injEq]
          exact ⟨fun x => absurd x.symm ee, by simp⟩
      · simp only [upd_ne _ _ ew]
        have := h.held_iff w' e i
        by_cases ee : (e, i) = (e0, i0)
        · rw [if_pos ee, this]
          have e1 : e = e0 := congrArg Prod.fst ee
          have e2 : i = i0 := congrArg Prod.snd ee
          subst e1; subst e2
          rw [hst]
          simp [Ne.symm ew]
        · rw [if_neg ee]; exact this
    · intro w' e i
      have hk : (((s.take w (some (e0, i0)) q).phase w ph).workers w').stack = (s.workers w').stack := by
        by_cases ew : w' = w
        · subst ew; simp [State.phase, State.take, upd_self]
        · simp [State.phase, State.take, upd_ne _ _ ew]
      rw [hk, h.active_iff w' e i]
      simp only [State.phase, State.take]
      rw [hstat]
      by_cases ee : (e, i) = (e0, i0)
      · rw [if_pos ee]
        have e1 : e = e0 := congrArg Prod.fst ee
        have e2 : i = i0 := congrArg Prod.snd ee
        subst e1; subst e2
        rw [hst]
        simp
      · rw [if_neg ee]
    · intro w'
      by_cases ew : w' = w
      · subst ew; simp only [State.phase, State.take, upd_self]; exact h.active_nodup w'
      · simp only [State.phase, State.take, upd_ne _ _ ew]; exact h.active_nodup w'
    · intro w'
      by_cases ew : w' = w
      · subst ew; simp only [State.phase, State.take, upd_self]; exact hsh
      · simp only [State.phase, State.take, upd_ne _ _ ew]; exact h.shape w'
    · intro w' hw'
      have ew : w' ≠ w := by
        have : s.nw ≤ w' := hw'
        omega
      simp only [State.phase, State.take, upd_ne _ _ ew]; exact h.outside w' hw'
    · intro w'
      exact h.lock_same (by simp [hl1, hl2]) w'
    · intro w' f hf
      have hf' : f ∈ (s.workers w').stack := by
        by_cases ew : w' = w
        · subst ew; simpa only [State.phase, State.take, upd_self] using hf
        · simpa only [State.phase, State.take, upd_ne _ _ ew] using hf
      exact (h.frames w' f hf').mono (Nat.le_refl _) (fun e _ => hstatic e) (fun e _ => hlive e)
    · intro w'
      by_cases ew : w' = w
      · subst ew; simp only [State.phase, State.take, upd_self]; exact h.younger w'
      · simp only [State.phase, State.take, upd_ne _ _ ew]; exact h.younger w'
    · exact h.main.mono (Nat.le_refl _) (fun e _ => hstatic e) (fun e _ => hlive e)
    · intro e h1 h2
      simp only [State.phase, State.take] at h1 h2
      rw [(hlive e).1] at h1
      rw [(hlive e).2] at h2
      exact h.live_main e h1 h2
    · intro e w' h1 h2
      simp only [State.phase, State.take] at h1 h2
      rw [(hlive e).1] at h1
      rw [(hlive e).2] at h2
      obtain ⟨f, hf, hfe⟩ := h.live_worker e w' h1 h2
      refine ⟨f, ?_, hfe⟩
      by_cases ew : w' = w
      · subst ew; simpa only [State.phase, State.take, upd_self] using hf
      · simpa only [State.phase, State.take, upd_ne _ _ ew] using hf

/-- A worker starts the task it holds. -/
theorem Inv.start {p : Prog V E} {s : State V E} (h : Inv p s) {w : Nat} (hw : w < s.nw)
    {t : TaskId} (hh : (s.workers w).phase.holds = some t) (hl : s.lock = none)
    (hb : Below (s.workers w).stack) : Inv p (startTask s w t) := by
  obtain ⟨e0, i0⟩ := t
  have hst : (s.evs e0).status i0 = .held w := (h.held_iff w e0 i0).mp hh
  have he0 := h.lt_next (e := e0) (i := i0) (by simp [hst])
  have hstat := status_upd (evs := s.evs) (e0 := e0) (i0 := i0) (b := .active w)
    (ev := { s.evs e0 with status := upd (s.evs e0).status i0 (.active w) }) rfl
  have hstatic := static_upd (evs := s.evs) (e0 := e0)
    (ev := { s.evs e0 with status := upd (s.evs e0).status i0 (.active w) }) ⟨rfl, rfl, rfl⟩
  have hlive := live_upd (evs := s.evs) (e0 := e0)
    (ev := { s.evs e0 with status := upd (s.evs e0).status i0 (.active w) }) ⟨rfl, rfl⟩
  have hnot : (e0, i0) ∉ (s.workers w).stack.map Frame.task := by
    rw [h.active_iff, hst]; simp
  refine ⟨?_, ?_, ?_, h.ready_nodup, ?_, ?_, ?_, ?_, ?_, ?_, ?_, ?_, ?_, ?_, ?_⟩
  · intro e
    simp only [startTask]
    by_cases ee : e = e0
    · subst ee
      simp only [upd_self]
      exact (h.evs e).mid (by simp [hst, Status.mid]) (by simp [Status.mid])
    · simp only [upd_ne _ _ ee]; exact h.evs e
  · intro e he
    simp only [startTask]
    rw [(hstatic e).1, (hlive e).1]
    exact h.fresh e he
  · intro e i
    simp only [startTask]
    rw [hstat, h.ready_iff]
    by_cases ee : (e, i) = (e0, i0)
    · rw [if_pos ee]
      simp only [Prod.mk.injEq] at ee
      rw [ee.1, ee.2, hst]; simp
    · rw [if_neg ee]
  · intro w' e i
    simp only [startTask]
    rw [hstat]
    by_cases ew : w' = w
    · subst ew
      simp only [upd_self, Phase.holds]
      by_cases ee : (e, i) = (e0, i0)
      · simp [ee]
      · rw [if_neg ee, ← h.held_iff, hh]
        simp only [Option.some.injEq]
        exact ⟨by simp, fun x => absurd x.symm ee⟩
    · simp only [upd_ne _ _ ew]
      rw [h.held_iff]
      by_cases ee : (e, i) = (e0, i0)
      · rw [if_pos ee]
        simp only [Prod.mk.injEq] at ee
        rw [ee.1, ee.2, hst]
        simp [Ne.symm ew]
      · rw [if_neg ee]
  · intro w' e i
    simp only [startTask]
    rw [hstat]
    by_cases ew : w' = w
    · subst ew
      simp only [upd_self, List.map_cons, List.mem_cons]
      by_cases ee : (e, i) = (e0, i0)
      · simp [ee]
      · rw [if_neg ee, ← h.active_iff]
        simp [ee]
    · simp only [upd_ne _ _ ew]
      rw [h.active_iff]
      by_cases ee : (e, i) = (e0, i0)
      · rw [if_pos ee]
        simp only [Prod.mk.injEq] at ee
        rw [ee.1, ee.2, hst]
        simp [Ne.symm ew]
      · rw [if_neg ee]
  · intro w'
    simp only [startTask]
    by_cases ew : w' = w
    · subst ew
      simp only [upd_self, List.map_cons, List.nodup_cons]
      exact ⟨hnot, h.active_nodup w'⟩
    · simp only [upd_ne _ _ ew]; exact h.active_nodup w'
  · intro w'
    simp only [startTask]
    by_cases ew : w' = w
    · subst ew
      simp only [upd_self]
      exact ⟨_, _, rfl, hb⟩
    · simp only [upd_ne _ _ ew]; exact h.shape w'
  · intro w' hw'
    have ew : w' ≠ w := by
      have : s.nw ≤ w' := hw'
      omega
    simp only [startTask, upd_ne _ _ ew]; exact h.outside w' hw'
  · exact h.lock_take hl rfl
  · intro w' f hf
    have key : f ∈ (s.workers w').stack ∨ (w' = w ∧ f = ⟨(e0, i0), (s.evs e0).body i0, none⟩) := by
      by_cases ew : w' = w
      · subst ew
        simp only [startTask, upd_self, List.mem_cons] at hf
        exact hf.symm.imp id (fun x => ⟨rfl, x⟩)
      · simp only [startTask, upd_ne _ _ ew] at hf
        exact .inl hf
    rcases key with hf' | ⟨rfl, rfl⟩
    · exact (h.frames w' f hf').mono (Nat.le_refl _) (fun e _ => hstatic e) (fun e _ => hlive e)
    · refine ⟨he0, by simp, ?_⟩
      intro r hr
      simp only [startTask, (hstatic _).2.2]
      exact hr
  · intro w'
    simp only [startTask]
    by_cases ew : w' = w
    · subst ew
      simp only [upd_self, List.pairwise_cons]
      exact ⟨by simp [Younger], h.younger w'⟩
    · simp only [upd_ne _ _ ew]; exact h.younger w'
  · exact h.main.mono (Nat.le_refl _) (fun e _ => hstatic e) (fun e _ => hlive e)
  · intro e h1 h2
    simp only [startTask] at h1 h2
    rw [(hlive e).1] at h1
    rw [(hlive e).2] at h2
    exact h.live_main e h1 h2
  · intro e w' h1 h2
    simp only [startTask] at h1 h2
    rw [(hlive e).1] at h1
    rw [(hlive e).2] at h2
    obtain ⟨f, hf, hfe⟩ := h.live_worker e w' h1 h2
    refine ⟨f, ?_, hfe⟩
    by_cases ew : w' = w
    · subst ew
      simp only [startTask, upd_self]
      exact List.mem_cons_of_mem _ hf
    · simpa only [startTask, upd_ne _ _ ew] using hf

/-- A task ends. -/
theorem Inv.finish {p : Prog V E} {s : State V E} (h : Inv p s) {w : Nat} (hw : w < s.nw)
    {f : Frame V E} {rest : List (Frame V E)} {r : Except E V}
    (hph : (s.workers w).phase = .code)
    (hs : (s.workers w).stack = f :: rest) (hwt : f.wait = none) (hb : Below rest)
    (hr : Den f.prog r) : Inv p (endTask s w f.task r rest) := by
  have hfm : f ∈ (s.workers w).stack := by simp [hs]
  obtain ⟨⟨e0, i0⟩, prog, wt⟩ := f
  simp only at hwt hr
  subst hwt
  have hst : (s.evs e0).status i0 = .active w := (h.active_iff w e0 i0).mp (by simp [hs])
  have he0 := h.lt_next (e := e0) (i := i0) (by simp [hst])
  have hstat := status_upd (evs := s.evs) (e0 := e0) (i0 := i0) (b := .finished)
    (ev := { s.evs e0 with
      status := upd (s.evs e0).status i0 .finished, res := upd (s.evs e0).res i0 (some r)
      doneQ := (s.evs e0).doneQ ++ [i0] }) rfl
  have hstatic := static_upd (evs := s.evs) (e0 := e0)
    (ev := { s.evs e0 with
      status := upd (s.evs e0).status i0 .finished, res := upd (s.evs e0).res i0 (some r)
      doneQ := (s.evs e0).doneQ ++ [i0] }) ⟨rfl, rfl, rfl⟩
  have hlive := live_upd (evs := s.evs) (e0 := e0)
    (ev := { s.evs e0 with
      status := upd (s.evs e0).status i0 .finished, res := upd (s.evs e0).res i0 (some r)
      doneQ := (s.evs e0).doneQ ++ [i0] }) ⟨rfl, rfl⟩
  have hnd := h.active_nodup w
  rw [hs, List.map_cons, List.nodup_cons] at hnd
  refine ⟨?_, ?_, ?_, h.ready_nodup, ?_, ?_, ?_, ?_, ?_, ?_, ?_, ?_, ?_, ?_, ?_⟩
  · intro e
    simp only [endTask]
    by_cases ee : e = e0
    · subst ee
      simp only [upd_self]
      exact (h.evs e).finish hst ((h.frames w _ hfm).sound r hr)
    · simp only [upd_ne _ _ ee]; exact h.evs e
  · intro e he
    simp only [endTask]
    rw [(hstatic e).1, (hlive e).1]
    exact h.fresh e he
  · intro e i
    simp only [endTask]
    rw [hstat, h.ready_iff]
    by_cases ee : (e, i) = (e0, i0)
    · rw [if_pos ee]
      simp only [Prod.mk.injEq] at ee
      rw [ee.1, ee.2, hst]; simp
    · rw [if_neg ee]
  · intro w' e i
    have hk : ((endTask s w (e0, i0) r rest).workers w').phase.holds = (s.workers w').phase.holds := by
      simp only [endTask]
      by_cases ew : w' = w
      · subst ew
        simp only [upd_self, hph]
        split <;> rfl
      · simp only [upd_ne _ _ ew]
    rw [hk, h.held_iff]
    simp only [endTask]
    rw [hstat]
    by_cases ee : (e, i) = (e0, i0)
    · rw [if_pos ee]
      simp only [Prod.mk.injEq] at ee
      rw [ee.1, ee.2, hst]; simp
    · rw [if_neg ee]
  · intro w' e i
    simp only [endTask]
    rw [hstat]
    by_cases ew : w' = w
    · subst ew
      simp only [upd_self]
      have := h.active_iff w' e i
      rw [hs, List.map_cons, List.mem_cons] at this
      by_cases ee : (e, i) = (e0, i0)
      · rw [if_pos ee, ee]
        exact ⟨fun x => absurd x hnd.1, by simp⟩
      · rw [if_neg ee, ← this]
        simp [ee]
    · simp only [upd_ne _ _ ew]
      rw [h.active_iff]
      by_cases ee : (e, i) = (e0, i0)
      · rw [if_pos ee]
        simp only [Prod.mk.injEq] at ee
        rw [ee.1, ee.2, hst]
        simp [Ne.symm ew]
      · rw [if_neg ee]
  · intro w'
    simp only [endTask]
    by_cases ew : w' = w
    · subst ew
      simp only [upd_self]
      exact hnd.2
    · simp only [upd_ne _ _ ew]; exact h.active_nodup w'
  · intro w'
    simp only [endTask]
    by_cases ew : w' = w
    · subst ew
      simp only [upd_self]
      cases rest with
      | nil => simp [Shape]
      | cons g rest =>
        simp only [reduceCtorEq, if_false]
        exact ⟨g, rest, rfl, hb g (by simp), fun x hx => hb x (by simp [hx])⟩
    · simp only [upd_ne _ _ ew]; exact h.shape w'
  · intro w' hw'
    have ew : w' ≠ w := by
      have : s.nw ≤ w' := hw'
      omega
    simp only [endTask, upd_ne _ _ ew]; exact h.outside w' hw'
  · cases rest with
    | nil =>
      exact h.lock_release (by rw [hph]; rfl) (by rfl)
    | cons g rest =>
      exact h.lock_same (by rw [hph]; rfl)
  · intro w' f hf
    have hf' : f ∈ (s.workers w').stack := by
      by_cases ew : w' = w
      · subst ew
        simp only [endTask, upd_self] at hf
        rw [hs]; exact List.mem_cons_of_mem _ hf
      · simpa only [endTask, upd_ne _ _ ew] using hf
    exact (h.frames w' f hf').mono (Nat.le_refl _) (fun e _ => hstatic e) (fun e _ => hlive e)
  · intro w'
    simp only [endTask]
    by_cases ew : w' = w
    · subst ew
      simp only [upd_self]
      have := h.younger w'
      rw [hs, List.pairwise_cons] at this
      exact this.2
    · simp only [upd_ne _ _ ew]; exact h.younger w'
  · exact h.main.mono (Nat.le_refl _) (fun e _ => hstatic e) (fun e _ => hlive e)
  · intro e h1 h2
    simp only [endTask] at h1 h2
    rw [(hlive e).1] at h1
    rw [(hlive e).2] at h2
    exact h.live_main e h1 h2
  · intro e w' h1 h2
    simp only [endTask] at h1 h2
    rw [(hlive e).1] at h1
    rw [(hlive e).2] at h2
    obtain ⟨f, hf, hfe⟩ := h.live_worker e w' h1 h2
    refine ⟨f, ?_, hfe⟩
    by_cases ew : w' = w
    · subst ew
      rw [hs, List.mem_cons] at hf
      rcases hf with rfl | hf
      · simp at hfe
      · simpa only [endTask, upd_self] using hf
    · simpa only [endTask, upd_ne _ _ ew] using hf

end Verif.Sched
