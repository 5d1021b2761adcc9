import Verif.Sched.Fair

/-! # `shutdown` when no evaluation has been left by an exception -/
namespace Verif.Sched

variable {V E : Type}

/-- An evaluation that is over has no tasks under way, unless it was left by an exception. -/
def Dead (s : State V E) : Prop :=
  ∀ e, (s.evs e).live = false → (s.evs e).count = 0 ∨ ∃ x, .left e (.raised x) ∈ s.log

theorem Dead.keep {s s' : State V E} (h : Dead s)
    (h1 : ∀ e, (s'.evs e).live = (s.evs e).live ∧ (s'.evs e).count = (s.evs e).count)
    (h2 : ∀ a ∈ s.log, a ∈ s'.log) : Dead s' := by
  intro e he
  rw [(h1 e).1] at he
  rw [(h1 e).2]
  rcases h e he with h | ⟨x, h⟩
  · exact .inl h
  · exact .inr ⟨x, h2 _ h⟩

theorem Dead.upd {s s' : State V E} (h : Dead s) {e0 : Nat} {ev : Ev V E}
    (h1 : s'.evs = upd s.evs e0 ev) (h2 : ∀ a ∈ s.log, a ∈ s'.log)
    (h3 : ev.live = true ∨ ev.count = 0 ∨ ∃ x, .left e0 (.raised x) ∈ s'.log) : Dead s' := by
  intro e he
  rw [h1] at he ⊢
  by_cases ee : e = e0
  · subst ee
    rw [upd_self] at he ⊢
    rcases h3 with h3 | h3
    · rw [h3] at he; simp at he
    · exact h3
  · rw [upd_ne _ _ ee] at he ⊢
    rcases h e he with h | ⟨x, h⟩
    · exact .inl h
    · exact .inr ⟨x, h2 _ h⟩

theorem same_upd {evs : Nat → Ev V E} {e0 : Nat} {ev : Ev V E} (h : ev.live = (evs e0).live)
    (h' : ev.count = (evs e0).count) (e : Nat) :
    (upd evs e0 ev e).live = (evs e).live ∧ (upd evs e0 ev e).count = (evs e).count := by
  by_cases ee : e = e0
  · subst ee; rw [upd_self]; exact ⟨h, h'⟩
  · rw [upd_ne _ _ ee]; exact ⟨rfl, rfl⟩

theorem take_same (s : State V E) (w : Nat) (it : Item) (q : List Item) (e : Nat) :
    ((s.take w it q).evs e).live = (s.evs e).live ∧ ((s.take w it q).evs e).count = (s.evs e).count := by
  cases it with
  | none => exact ⟨rfl, rfl⟩
  | some t => exact same_upd (by rfl) (by rfl) e

theorem take_log (s : State V E) (w : Nat) (it : Item) (q : List Item) : (s.take w it q).log = s.log := by
  cases it <;> rfl

theorem Dead.spawn {s s' : State V E} (h : Dead s) (o : Option Nat) (n : Nat) (deps : Nat → List Nat)
    (body : Nat → Prog V E) (h1 : s'.evs = (spawn s o n deps body).evs) (h2 : s'.log = s.log) : Dead s' := by
  refine h.upd (e0 := s.next) (ev := (enqueue s.next (List.range n)
    ⟨n, deps, body, fun _ => .new, fun _ => none, [], 0, [], true, o⟩ s.ready).1) h1 (by rw [h2]; exact fun _ h => h) ?_
  left
  rw [(enqueue_begin_static _ _ _ _).2.2.2.1]

theorem Dead.takeDone {p : Prog V E} {s s1 s' : State V E} (h : Dead s) (hi : Inv p s) {e i : Nat} {rest : List Nat}
    (hl : (s.evs e).live = true) (ht : takeDone s e i rest = some (none, s1))
    (h1 : s'.evs = s1.evs) (h2 : s'.log = s1.log) : Dead s' := by
  rw [takeDone_eq] at ht
  split at ht
  · simp at ht
  · simp at ht
  · simp only [Option.some.injEq, Prod.mk.injEq, true_and] at ht
    subst ht
    refine h.upd (e0 := e) h1 (by rw [h2]; exact fun _ h => h) ?_
    left
    rw [(enqueue_begin_static _ _ _ _).2.2.2.1]
    exact hl

theorem Dead.raised {s s1 s' : State V E} (h : Dead s) {e i : Nat} {rest : List Nat} {x : E}
    (ht : Sched.takeDone s e i rest = some (some x, s1))
    (h1 : s'.evs = (s1.leave e (.raised x)).evs) (h2 : s'.log = (s1.leave e (.raised x)).log) : Dead s' := by
  rw [takeDone_eq] at ht
  split at ht
  · simp at ht
  · simp only [Option.some.injEq, Prod.mk.injEq] at ht
    obtain ⟨rfl, rfl⟩ := ht
    simp only [State.leave, upd_upd] at h1 h2
    refine h.upd (e0 := e) h1 (by rw [h2]; exact fun _ h => .tail _ h) ?_
    right; right
    exact ⟨_, by rw [h2]; exact .head _⟩
  · simp at ht

theorem Dead.leave {s s' : State V E} (h : Dead s) {e : Nat} {out : EvalOut V E} (hc : (s.evs e).count = 0)
    (h1 : s'.evs = (s.leave e out).evs) (h2 : s'.log = (s.leave e out).log) : Dead s' := by
  simp only [State.leave] at h1 h2
  exact h.upd (e0 := e) h1 (by rw [h2]; exact fun _ h => .tail _ h) (.inr (.inl hc))

theorem Dead.step {p : Prog V E} {s s' : State V E} (h : Dead s) (hi : Inv p s) {th : Thread}
    (hs : Sched.step s th = some s') : Dead s' := by
  cases th with
  | main =>
    simp only [Sched.step, Sched.stepMain] at hs
    split at hs
    · simp at hs
    · split at hs
      · split at hs
        · split at hs
          · simp only [Option.some.injEq] at hs
            subst hs; exact h
          · simp at hs
        · simp only [Option.some.injEq] at hs
          subst hs; exact h
      · simp only [Option.some.injEq] at hs
        subst hs; exact h
    · split at hs
      · rename_i e he
        split at hs
        · rename_i hc
          simp only [Option.some.injEq] at hs
          subst hs; exact h.leave hc rfl rfl
        · split at hs
          · simp at hs
          · split at hs
            · simp at hs
            · rename_i ht
              simp only [Option.some.injEq] at hs
              subst hs
              exact h.takeDone hi (hi.main.wait e he).2.1 ht rfl rfl
            · rename_i ht
              simp only [Option.some.injEq] at hs
              subst hs
              exact h.raised ht rfl rfl
      · split at hs <;> simp only [Option.some.injEq] at hs <;> subst hs
        · exact h
        · exact h
        · exact h
        · exact h.spawn _ _ _ _ rfl rfl
  | worker w =>
    simp only [Sched.step] at hs
    split at hs
    swap
    · simp at hs
    simp only [Sched.stepWorker] at hs
    split at hs
    · simp at hs
    · simp only [Option.some.injEq] at hs
      subst hs
      split <;> exact h
    · split at hs
      · simp at hs
      · simp only [Option.some.injEq] at hs
        subst hs
        exact h.keep (take_same s w _ _) (by simp [State.phase, take_log])
    · split at hs
      · split at hs <;> simp only [Option.some.injEq] at hs <;> subst hs
        · exact h
        · exact h.keep (same_upd (by rfl) (by rfl)) (fun _ h => .tail _ h)
      · simp at hs
    · split at hs
      · simp only [Option.some.injEq] at hs
        subst hs
        exact h
      · simp at hs
    · split at hs
      · simp only [Option.some.injEq] at hs
        subst hs
        exact h
      · simp only [Option.some.injEq] at hs
        subst hs
        exact h.keep (take_same s w _ _) (by simp [State.phase, take_log])
    · split at hs
      · split at hs <;> simp only [Option.some.injEq] at hs <;> subst hs
        · exact h.keep (same_upd (by rfl) (by rfl)) (fun _ h => .tail _ h)
        · exact h
      · simp at hs
    · split at hs
      · simp at hs
      · rename_i f rest hst
        split at hs
        · simp at hs
        · rename_i e he
          split at hs
          · simp only [Option.some.injEq] at hs
            subst hs
            exact h
          · split at hs
            · simp at hs
            · rename_i ht
              simp only [Option.some.injEq] at hs
              subst hs
              exact h.takeDone hi ((hi.frames w f (by simp [hst])).wait e he).2.1 ht rfl rfl
            · rename_i ht
              simp only [Option.some.injEq] at hs
              subst hs
              exact h.raised ht rfl rfl
    · split at hs
      · simp at hs
      · split at hs
        · split at hs
          · rename_i hc
            simp only [Option.some.injEq] at hs
            subst hs
            exact h.leave hc rfl rfl
          · simp only [Option.some.injEq] at hs
            subst hs
            exact h
        · split at hs <;> simp only [Option.some.injEq] at hs <;> subst hs
          · exact h.keep (same_upd (by rfl) (by rfl)) (fun _ h => .tail _ h)
          · exact h.keep (same_upd (by rfl) (by rfl)) (fun _ h => .tail _ h)
          · exact h
          · exact h.spawn _ _ _ _ rfl rfl

theorem Reach.dead {nw : Nat} {p : Prog V E} {s : State V E} (h : Reach nw p s) : Dead s := by
  induction h with
  | init => intro e _; exact .inl rfl
  | step th hr hs ih => exact ih.step hr.inv hs

/-- No evaluation has been left by the exception of a task. -/
def NoRaise (s : State V E) : Prop := ∀ e x, .left e (.raised x) ∉ s.log

/-- No task is queued, held or being run. -/
structure Calm (s : State V E) : Prop where
  stack : ∀ w, (s.workers w).stack = []
  holds : ∀ w, (s.workers w).phase.holds = none
  ready : ∀ t, some t ∉ s.ready

theorem Inv.calm {p : Prog V E} {s : State V E} (h : Inv p s) (hd : Dead s) (hw : s.mainWait = none)
    (hn : NoRaise s) : Calm s := by
  have key : ∀ e i, ((s.evs e).status i).outstanding = 0 := by
    intro e
    induction e using Nat.strongRecOn with
    | _ e ih =>
      intro i
      apply Classical.byContradiction
      intro ho
      have hi : i < (s.evs e).n := by
        apply (h.evs e).lt i
        intro hs
        rw [hs] at ho
        simp [Status.outstanding] at ho
      have hc : (s.evs e).count ≠ 0 := by
        intro hc
        rw [(h.evs e).count] at hc
        exact ho (sumTo_zero hc i hi)
      cases hl : (s.evs e).live with
      | false =>
        rcases hd e hl with h1 | ⟨x, h1⟩
        · exact hc h1
        · exact hn e x h1
      | true =>
        cases hown : (s.evs e).owner with
        | none =>
          have := h.live_main e hl hown
          rw [hw] at this
          simp at this
        | some w =>
          obtain ⟨f, hf, hfw⟩ := h.live_worker e w hl hown
          have hlt := ((h.frames w f hf).wait e hfw).2.2.2.1
          have hact := (h.active_iff w f.task.1 f.task.2).mp (List.mem_map.mpr ⟨f, hf, rfl⟩)
          have := ih f.task.1 hlt f.task.2
          rw [hact] at this
          simp [Status.outstanding] at this
  refine ⟨?_, ?_, ?_⟩
  · intro w
    cases hst : (s.workers w).stack with
    | nil => rfl
    | cons f rest =>
      have hact := (h.active_iff w f.task.1 f.task.2).mp (by simp [hst])
      have := key f.task.1 f.task.2
      rw [hact] at this
      simp [Status.outstanding] at this
  · intro w
    cases hh : (s.workers w).phase.holds with
    | none => rfl
    | some t =>
      have := (h.held_iff w t.1 t.2).mp hh
      have k := key t.1 t.2
      rw [this] at k
      simp [Status.outstanding] at k
  · intro t ht
    have := (h.ready_iff t.1 t.2).mp ht
    have k := key t.1 t.2
    rw [this] at k
    simp [Status.outstanding] at k

/-- has taken its `None`, or has ended -/
def Phase.gone : Phase → Nat
  | .took none => 1
  | .ended => 1
  | _ => 0

/-- There is a `None` for every worker that has not ended. -/
def Enough (s : State V E) : Prop :=
  s.nw ≤ sentinels s.ready + sumTo (fun w => (s.workers w).phase.gone) s.nw

theorem log_mono {s s' : State V E} {p : Prog V E} (hi : Inv p s) {th : Thread} (hs : Sched.step s th = some s') :
    ∀ a ∈ s.log, a ∈ s'.log := by
  have := (hi.delta hs).change
  cases this with
  | quiet hlog => rw [hlog]; exact fun _ h => h
  | start t w hlog => rw [hlog]; exact fun _ h => .tail _ h
  | finish t r w hlog => rw [hlog]; exact fun _ h => .tail _ h
  | left e out hlog => rw [hlog]; exact fun _ h => .tail _ h

theorem Calm.phase {p : Prog V E} {s : State V E} (hi : Inv p s) (h : Calm s) (w : Nat) :
    (s.workers w).phase = .top ∨ (s.workers w).phase = .reading ∨ (s.workers w).phase = .took none ∨
    (s.workers w).phase = .ended := by
  have h1 := hi.shape w
  rw [h.stack w] at h1
  have h2 := h.holds w
  revert h1 h2
  cases (s.workers w).phase with
  | took it => cases it <;> simp [Phase.holds]
  | _ => simp [Shape]

theorem Calm.unlocked {p : Prog V E} {s : State V E} (hi : Inv p s) (h : Calm s) : s.lock = none := by
  cases hl : s.lock with
  | none => rfl
  | some w =>
    have := (hi.lock_iff w).mp hl
    rcases h.phase hi w with h1 | h1 | h1 | h1 <;> rw [h1] at this <;> simp [Phase.locked] at this

theorem gone_upd {s s' : State V E} {w : Nat} {x : Worker V E} (hw : w < s.nw) (h1 : s'.nw = s.nw)
    (h2 : s'.workers = upd s.workers w x) :
    sumTo (fun w => (s'.workers w).phase.gone) s'.nw + (s.workers w).phase.gone =
      sumTo (fun w => (s.workers w).phase.gone) s.nw + x.phase.gone := by
  rw [h1, h2]
  exact sumTo_upd (fun x : Worker V E => x.phase.gone) s.workers w x hw

theorem Enough.step {p : Prog V E} {s s' : State V E} (hi : Inv p s) (hc : Calm s)
    (h : s.mainPhase ≠ .code → Enough s) {th : Thread} (hs : Sched.step s th = some s')
    (hm : s'.mainPhase ≠ .code) : Enough s' := by
  cases th with
  | main =>
    simp only [Sched.step, Sched.stepMain] at hs
    split at hs
    · simp at hs
    · rename_i j hj
      have hE := h (by rw [hj]; simp)
      split at hs
      · rename_i hj
        split at hs
        · split at hs
          · simp only [Option.some.injEq] at hs
            subst hs; exact hE
          · simp at hs
        · simp only [Option.some.injEq] at hs
          have := gone_upd (s := s) (s' := s') (x := { s.workers j with finished := true }) hj
            (by rw [← hs]) (by rw [← hs])
          have h1 : s'.nw = s.nw := by rw [← hs]
          have h2 : s'.ready = s.ready := by rw [← hs]
          simp only [Enough, h2] at hE ⊢
          simp only at this
          omega
      · simp only [Option.some.injEq] at hs
        subst hs; exact hE
    · rename_i hcode
      split at hs
      · rename_i e he
        exfalso
        split at hs
        · simp only [Option.some.injEq] at hs
          subst hs; exact hm hcode
        · split at hs
          · simp at hs
          · split at hs
            · simp at hs
            · rename_i ht
              simp only [Option.some.injEq] at hs
              subst hs
              exact hm ((apart_takeDone ht).mainPhase.trans hcode)
            · rename_i ht
              simp only [Option.some.injEq] at hs
              subst hs
              exact hm ((apart_takeDone ht).mainPhase.trans hcode)
      · split at hs <;> simp only [Option.some.injEq] at hs <;> subst hs
        · simp only [Enough, sentinels, List.countP_append, List.countP_replicate]
          simp only [Option.isNone_none, if_true]
          omega
        · simp only [Enough, sentinels, List.countP_append, List.countP_replicate]
          simp only [Option.isNone_none, if_true]
          omega
        · exact absurd hcode hm
        · exact absurd hcode hm
  | worker w =>
    simp only [Sched.step] at hs
    split at hs
    swap
    · simp at hs
    rename_i hw
    have hap := apart_worker hs
    have hE := h (by rw [← hap.mainPhase]; exact hm)
    simp only [Sched.stepWorker] at hs
    rcases hc.phase hi w with hp | hp | hp | hp
    · simp only [hp, Option.some.injEq] at hs
      have key : ∀ ph, s' = s.phase w ph → Enough s' := by
        intro ph hs'
        have := gone_upd (s := s) (s' := s') (x := { s.workers w with phase := ph }) hw
          (by rw [hs']; rfl) (by rw [hs']; rfl)
        have h2 : s'.ready = s.ready := by rw [hs']; rfl
        have h3 := hap.nw
        simp only [Enough, h2] at hE ⊢
        rw [hp] at this
        simp only [Phase.gone] at this hE ⊢
        omega
      split at hs
      · exact key _ hs.symm
      · exact key _ hs.symm
    · simp only [hp] at hs
      split at hs
      · simp at hs
      · rename_i it q hq
        cases it with
        | some t => exact absurd (by rw [hq]; exact .head _) (hc.ready t)
        | none =>
          simp only [Option.some.injEq] at hs
          have := gone_upd (s := s) (s' := s') (x := { s.workers w with phase := .took none }) hw
            hap.nw (by rw [← hs]; rfl)
          have h2 : s'.ready = q := by rw [← hs]; rfl
          have h3 := hap.nw
          simp only [Enough, h2] at hE ⊢
          rw [hq] at hE
          rw [hp] at this
          simp only [Phase.gone, sentinels, List.countP_cons, Option.isNone_none, if_true] at this hE ⊢
          omega
    · simp only [hp] at hs
      split at hs
      · simp only [Option.some.injEq] at hs
        have := gone_upd (s := s) (s' := s') (x := { s.workers w with phase := .ended }) hw
          hap.nw (by rw [← hs]; rfl)
        have h2 : s'.ready = s.ready := by rw [← hs]; rfl
        have h3 := hap.nw
        simp only [Enough, h2] at hE ⊢
        rw [hp] at this
        simp only [Phase.gone] at this hE ⊢
        omega
      · simp at hs
    · simp [hp] at hs

theorem Reach.calm {nw : Nat} {p : Prog V E} {s : State V E} (h : Reach nw p s)
    (hm : s.mainPhase ≠ .code) (hn : NoRaise s) : Calm s :=
  h.inv.calm h.dead (h.side.done hm).1 hn

/-- the main thread has nothing to wait for when it leaves its code -/
theorem main_idle {s s' : State V E} (hs : Sched.stepMain s = some s') (hc : s.mainPhase = .code)
    (hm : s'.mainPhase ≠ .code) : s.mainWait = none := by
  simp only [Sched.stepMain, hc] at hs
  split at hs
  · rename_i e he
    exfalso
    split at hs
    · simp only [Option.some.injEq] at hs
      subst hs; exact hm hc
    · split at hs
      · simp at hs
      · split at hs
        · simp at hs
        · rename_i ht
          simp only [Option.some.injEq] at hs
          subst hs
          exact hm ((apart_takeDone ht).mainPhase.trans hc)
        · rename_i ht
          simp only [Option.some.injEq] at hs
          subst hs
          exact hm ((apart_takeDone ht).mainPhase.trans hc)
  · assumption

theorem Reach.enough {nw : Nat} {p : Prog V E} {s : State V E} (h : Reach nw p s)
    (hm : s.mainPhase ≠ .code) (hn : NoRaise s) : Enough s := by
  induction h with
  | init => simp [State.init] at hm
  | @step s s' th hr hs ih =>
    have hn' : NoRaise s := fun e x h => hn e x (log_mono hr.inv hs _ h)
    by_cases hc : s.mainPhase = .code
    · have hth : th = .main := by
        cases th with
        | main => rfl
        | worker w =>
          simp only [Sched.step] at hs
          split at hs
          · exact absurd ((apart_worker hs).mainPhase.trans hc) hm
          · simp at hs
      subst hth
      have hw : s.mainWait = none := main_idle hs hc hm
      exact Enough.step hr.inv (hr.inv.calm hr.dead hw hn') (fun h => absurd hc h) hs hm
    · exact Enough.step hr.inv (hr.calm hc hn') (fun _ => ih hc hn') hs hm

theorem sumTo_le_one {f : Nat → Nat} {n : Nat} (h : ∀ i, i < n → f i ≤ 1) (hn : n ≤ sumTo f n) :
    ∀ i, i < n → f i = 1 := by
  induction n with
  | zero => intro i hi; omega
  | succ n ih =>
    have hb : ∀ m, m ≤ n → sumTo f m ≤ m := by
      intro m
      induction m with
      | zero => intro _; simp [sumTo]
      | succ m ihm =>
        intro hm
        have := ihm (by omega)
        have := h m (by omega)
        simp only [sumTo]
        omega
    have h1 := hb n (Nat.le_refl _)
    have h2 := h n (by omega)
    simp only [sumTo] at hn
    intro i hi
    rcases Nat.lt_or_ge i n with hlt | hge
    · exact ih (fun i hi => h i (by omega)) (by omega) i hlt
    · have : i = n := by omega
      subst this
      omega

/-- The only states of the shutdown in which no thread can move. -/
theorem Reach.shut {nw : Nat} {p : Prog V E} {s : State V E} (h : Reach nw p s)
    (hm : s.mainPhase ≠ .code) (hn : NoRaise s) (hs : ∀ th, Sched.step s th = none) :
    s.mainPhase = .ended ∧ ∀ w, w < nw → (s.workers w).phase = .ended := by
  have hc := h.calm hm hn
  have he := h.enough hm hn
  have hi := h.inv
  have hl := hc.unlocked hi
  have hws : ∀ w, w < nw → (s.workers w).phase = .ended := by
    intro w hw
    have hsw := hs (.worker w)
    simp only [Sched.step, h.nw_eq, hw, if_true, Sched.stepWorker] at hsw
    rcases hc.phase hi w with hp | hp | hp | hp
    · simp [hp] at hsw
    · simp only [hp] at hsw
      split at hsw
      · rename_i hq
        simp only [Enough, hq, sentinels, List.countP_nil, Nat.zero_add, h.nw_eq] at he
        have := sumTo_le_one (fun i _ => by
          cases (s.workers i).phase with
          | took it => cases it <;> simp [Phase.gone]
          | _ => simp [Phase.gone]) he w hw
        rw [hp] at this
        simp [Phase.gone] at this
      · simp at hsw
    · simp [hp, hl] at hsw
    · exact hp
  refine ⟨?_, hws⟩
  have hsm := hs .main
  simp only [Sched.step, Sched.stepMain] at hsm
  cases hp : s.mainPhase with
  | ended => rfl
  | code => exact absurd hp hm
  | joining i =>
    simp only [hp] at hsm
    split at hsm
    · rename_i hi'
      rw [h.nw_eq] at hi'
      split at hsm
      · simp [hws i hi'] at hsm
      · simp at hsm
    · simp at hsm

theorem mainPhase_stays {s s' : State V E} {th : Thread}
    (hs : Sched.step s th = some s') (hm : s.mainPhase ≠ .code) : s'.mainPhase ≠ .code := by
  cases th with
  | worker w =>
    simp only [Sched.step] at hs
    split at hs
    · rw [(apart_worker hs).mainPhase]; exact hm
    · simp at hs
  | main =>
    simp only [Sched.step, Sched.stepMain] at hs
    split at hs
    · simp at hs
    · split at hs
      · split at hs
        · split at hs
          · simp only [Option.some.injEq] at hs
            subst hs; simp
          · simp at hs
        · simp only [Option.some.injEq] at hs
          subst hs; exact hm
      · simp only [Option.some.injEq] at hs
        subst hs; simp
    · contradiction

/-- in the calm state nothing is logged -/
theorem Calm.log {p : Prog V E} {s s' : State V E} (hi : Inv p s) (h : Calm s) (hm : s.mainPhase ≠ .code)
    {th : Thread} (hs : Sched.step s th = some s') : s'.log = s.log := by
  cases th with
  | worker w =>
    simp only [Sched.step] at hs
    split at hs
    swap
    · simp at hs
    simp only [Sched.stepWorker] at hs
    rcases h.phase hi w with hp | hp | hp | hp
    · simp only [hp, Option.some.injEq] at hs
      subst hs
      split <;> rfl
    · simp only [hp] at hs
      split at hs
      · simp at hs
      · simp only [Option.some.injEq] at hs
        subst hs
        simp [State.phase, take_log]
    · simp only [hp] at hs
      split at hs
      · simp only [Option.some.injEq] at hs
        subst hs; rfl
      · simp at hs
    · simp [hp] at hs
  | main =>
    simp only [Sched.step, Sched.stepMain] at hs
    split at hs
    · simp at hs
    · split at hs
      · split at hs
        · split at hs
          · simp only [Option.some.injEq] at hs
            subst hs; rfl
          · simp at hs
        · simp only [Option.some.injEq] at hs
          subst hs; rfl
      · simp only [Option.some.injEq] at hs
        subst hs; rfl
    · contradiction

/-- Under a fair schedule the shutdown comes to its end. -/
theorem Exec.shut {nw : Nat} {p : Prog V E} {s : State V E} {sched : Nat → Thread} {σ : Nat → State V E}
    (hx : Exec s sched σ) (hr : Reach nw p s) (hf : Fair sched σ) (hm : s.mainPhase ≠ .code)
    (hn : NoRaise s) :
    ∃ N, ∀ n, N ≤ n → (σ n).mainPhase = .ended ∧ ∀ w, w < nw → ((σ n).workers w).phase = .ended := by
  have key : ∀ n, (σ n).mainPhase ≠ .code ∧ NoRaise (σ n) := by
    intro n
    induction n with
    | zero => rw [hx.start]; exact ⟨hm, hn⟩
    | succ n ih =>
      rw [hx.next]
      cases hs : Sched.step (σ n) (sched n) with
      | none => exact ih
      | some s' =>
        refine ⟨mainPhase_stays hs ih.1, ?_⟩
        have := ((hx.reach hr n).calm ih.1 ih.2).log (hx.reach hr n).inv ih.1 hs
        intro e x
        simp only [Option.getD_some, this]
        exact ih.2 e x
  obtain ⟨N, hN⟩ := hx.quiet hr
  refine ⟨N, ?_⟩
  have hno : ∀ n, N ≤ n → Sched.step (σ n) (sched n) = none := by
    intro n hnn
    cases hs : Sched.step (σ n) (sched n) with
    | none => rfl
    | some s' =>
      exfalso
      have hnx := hx.next n
      rw [hs] at hnx
      have hreach := hx.reach hr n
      rcases hreach.inv.progress hs with h | ⟨w, hth, ph, l, -, h1, -⟩
      · apply hN n hnn
        rw [hnx]; exact h
      · rcases (hreach.calm (key n).1 (key n).2).phase hreach.inv w with hp | hp | hp | hp <;>
          (rw [hp] at h1; simp [Phase.cyc] at h1)
  have hsame : ∀ n, N ≤ n → σ n = σ N := by
    intro n hnn
    induction n, hnn using Nat.le_induction with
    | base => rfl
    | succ n hnn ih => rw [hx.next, hno n hnn]; exact ih
  intro n hnn
  rw [hsame n hnn]
  apply (hx.reach hr N).shut (key N).1 (key N).2
  intro th
  cases hs : Sched.step (σ N) th with
  | none => rfl
  | some s' =>
    exfalso
    obtain ⟨m, hm, h1, h2⟩ := hf th (fun n => ⟨max n N, by omega, by
      rw [hsame (max n N) (by omega), hs]; rfl⟩) N
    have := hno m hm
    rw [h1] at this
    rw [this] at h2
    simp at h2

end Verif.Sched
