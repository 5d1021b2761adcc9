import Verif.Sched.InvStep

/-! # What the log says about the tasks -/
namespace Verif.Sched

variable {V E : Type}

/-- the task has been started -/
def Status.started : Status → Bool
  | .active _ => true
  | .finished => true
  | .processed => true
  | _ => false

/-- How one step changes the tasks and the log. -/
inductive Change (s s' : State V E) : Prop
  | quiet (hlog : s'.log = s.log)
      (hst : ∀ e i, ((s'.evs e).status i).started = ((s.evs e).status i).started)
      (hres : ∀ e i, (s'.evs e).res i = (s.evs e).res i)
  | start (t : TaskId) (w : Nat) (hlog : s'.log = .start t :: s.log)
      (hheld : (s.evs t.1).status t.2 = .held w)
      (hst : ∀ e i, ((s'.evs e).status i).started =
        if (e, i) = t then true else ((s.evs e).status i).started)
      (hres : ∀ e i, (s'.evs e).res i = (s.evs e).res i)
  | finish (t : TaskId) (r : Except E V) (w : Nat) (hlog : s'.log = .finish t r :: s.log)
      (hact : (s.evs t.1).status t.2 = .active w)
      (hst : ∀ e i, ((s'.evs e).status i).started = ((s.evs e).status i).started)
      (hres : ∀ e i, (s'.evs e).res i = if (e, i) = t then some r else (s.evs e).res i)
  | left (e : Nat) (out : EvalOut V E) (hlog : s'.log = .left e out :: s.log) (hlt : e < s.next)
      (hlive : (s.evs e).live = true) (hdead : (s'.evs e).live = false)
      (hcome : Outcome (s.evs e).n (s.evs e).deps (fun i => Den ((s.evs e).body i)) out)
      (hout : ∀ rs, out = .done rs → ∀ i, i < (s.evs e).n → (s.evs e).status i = .processed ∧
        ∃ v, (i, v) ∈ rs ∧ (s.evs e).res i = some (.ok v))
      (hraised : ∀ x, out = .raised x → ∃ i, i < (s.evs e).n ∧ (s.evs e).res i = some (.error x))
      (hst : ∀ e i, ((s'.evs e).status i).started = ((s.evs e).status i).started)
      (hres : ∀ e i, (s'.evs e).res i = (s.evs e).res i)

/-- How one step changes the state, as far as the log is concerned. -/
structure Delta (s s' : State V E) : Prop where
  next : s.next ≤ s'.next
  static : ∀ e, e < s.next → (s'.evs e).n = (s.evs e).n ∧ (s'.evs e).deps = (s.evs e).deps ∧
    (s'.evs e).body = (s.evs e).body
  processed : ∀ e i, (s.evs e).status i = .processed → (s'.evs e).status i = .processed
  dead : ∀ e, e < s.next → (s.evs e).live = false → (s'.evs e).live = false
  change : Change s s'

/-- The evaluations and the log do not change. -/
theorem Delta.same {s s' : State V E} (h1 : s'.evs = s.evs) (h2 : s'.next = s.next)
    (h3 : s'.log = s.log) : Delta s s' :=
  ⟨by rw [h2]; exact Nat.le_refl _, fun e _ => by simp [h1], fun e i h => by rw [h1]; exact h,
    fun e _ h => by rw [h1]; exact h,
    .quiet h3 (by simp [h1]) (by simp [h1])⟩

theorem Inv.delta_take {p : Prog V E} {s : State V E} (h : Inv p s) {w : Nat} {it : Item}
    {q : List Item} (hq : s.ready = it :: q) (ph : Phase) :
    Delta s ((s.take w it q).phase w ph) := by
  cases it with
  | none => exact .same rfl rfl rfl
  | some t =>
    obtain ⟨e0, i0⟩ := t
    have hst : (s.evs e0).status i0 = .queued := (h.ready_iff e0 i0).mp (by simp [hq])
    have hstat := status_upd (evs := s.evs) (e0 := e0) (i0 := i0) (b := .held w)
      (ev := { s.evs e0 with status := upd (s.evs e0).status i0 (.held w) }) rfl
    have hstatic := static_upd (evs := s.evs) (e0 := e0)
      (ev := { s.evs e0 with status := upd (s.evs e0).status i0 (.held w) }) ⟨rfl, rfl, rfl⟩
    have hlive := live_upd (evs := s.evs) (e0 := e0)
      (ev := { s.evs e0 with status := upd (s.evs e0).status i0 (.held w) }) ⟨rfl, rfl⟩
    refine ⟨Nat.le_refl _, fun e _ => hstatic e, ?_, ?_, .quiet rfl ?_ ?_⟩
    · intro e i hp
      simp only [State.take, State.phase]
      rw [hstat]
      split
      · rename_i hx
        simp only [Prod.mk.injEq] at hx
        rw [hx.1, hx.2, hst] at hp
        simp at hp
      · exact hp
    · intro e _ he
      simp only [State.take, State.phase]
      rw [(hlive e).1]; exact he
    · intro e i
      simp only [State.take, State.phase]
      rw [hstat]
      split
      · rename_i hx
        simp only [Prod.mk.injEq] at hx
        rw [hx.1, hx.2, hst]; rfl
      · rfl
    · intro e i
      simp only [State.take, State.phase]
      by_cases ee : e = e0
      · subst ee; simp [upd_self]
      · simp [upd_ne _ _ ee]

theorem Inv.delta_start {p : Prog V E} {s : State V E} (h : Inv p s) {w : Nat}
    {t : TaskId} (hh : (s.workers w).phase.holds = some t) : Delta s (startTask s w t) := by
  obtain ⟨e0, i0⟩ := t
  have hst : (s.evs e0).status i0 = .held w := (h.held_iff w e0 i0).mp hh
  have hstat := status_upd (evs := s.evs) (e0 := e0) (i0 := i0) (b := .active w)
    (ev := { s.evs e0 with status := upd (s.evs e0).status i0 (.active w) }) rfl
  have hstatic := static_upd (evs := s.evs) (e0 := e0)
    (ev := { s.evs e0 with status := upd (s.evs e0).status i0 (.active w) }) ⟨rfl, rfl, rfl⟩
  have hlive := live_upd (evs := s.evs) (e0 := e0)
    (ev := { s.evs e0 with status := upd (s.evs e0).status i0 (.active w) }) ⟨rfl, rfl⟩
  refine ⟨Nat.le_refl _, fun e _ => hstatic e, ?_, ?_,
    .start (e0, i0) w rfl hst ?_ ?_⟩
  · intro e i hp
    simp only [startTask]
    rw [hstat]
    split
    · rename_i hx
      simp only [Prod.mk.injEq] at hx
      rw [hx.1, hx.2, hst] at hp
      simp at hp
    · exact hp
  · intro e _ he
    simp only [startTask]
    rw [(hlive e).1]; exact he
  · intro e i
    simp only [startTask]
    rw [hstat]
    split
    · rfl
    · rfl
  · intro e i
    simp only [startTask]
    by_cases ee : e = e0
    · subst ee; simp [upd_self]
    · simp [upd_ne _ _ ee]

theorem Inv.delta_finish {p : Prog V E} {s : State V E} (h : Inv p s) {w : Nat}
    {f : Frame V E} {rest : List (Frame V E)} {r : Except E V}
    (hs : (s.workers w).stack = f :: rest) : Delta s (endTask s w f.task r rest) := by
  obtain ⟨⟨e0, i0⟩, prog, wt⟩ := f
  have hst : (s.evs e0).status i0 = .active w := (h.active_iff w e0 i0).mp (by simp [hs])
  have hstat := status_upd (evs := s.evs) (e0 := e0) (i0 := i0) (b := .finished)
    (ev := { s.evs e0 with
      status := upd (s.evs e0).status i0 .finished, res := upd (s.evs e0).res i0 (some r)
      doneQ := (s.evs e0).doneQ ++ [i0] }) rfl
  have hstatic := static_upd (evs := s.evs) (e0 := e0)
    (ev := { s.evs e0 with
      status := upd (s.evs e0).status i0 .finished, res := upd (s.evs e0).res i0 (some r)
      doneQ := (s.evs e0).doneQ ++ [i0] }) ⟨rfl, rfl, rfl⟩
  have hlive := live_upd (evs := s.evs) (e0 := e0)
    (ev := { s.evs e0 with
      status := upd (s.evs e0).status i0 .finished, res := upd (s.evs e0).res i0 (some r)
      doneQ := (s.evs e0).doneQ ++ [i0] }) ⟨rfl, rfl⟩
  refine ⟨Nat.le_refl _, fun e _ => hstatic e, ?_, ?_,
    .finish (e0, i0) r w rfl hst ?_ ?_⟩
  · intro e i hp
    simp only [endTask]
    rw [hstat]
    split
    · rename_i hx
      simp only [Prod.mk.injEq] at hx
      rw [hx.1, hx.2, hst] at hp
      simp at hp
    · exact hp
  · intro e _ he
    simp only [endTask]
    rw [(hlive e).1]; exact he
  · intro e i
    simp only [endTask]
    rw [hstat]
    split
    · rename_i hx
      simp only [Prod.mk.injEq] at hx
      rw [hx.1, hx.2, hst]; rfl
    · rfl
  · intro e i
    simp only [endTask]
    by_cases ee : e = e0
    · subst ee
      by_cases ei : i = i0
      · subst ei; simp [upd]
      · simp [upd, ei]
    · simp [upd_ne _ _ ee, ee]

theorem Inv.delta_spawn {p : Prog V E} {s s' : State V E} (h : Inv p s) {owner : Option Nat} {n : Nat}
    {deps : Nat → List Nat} {body : Nat → Prog V E}
    (h1 : s'.evs = (spawn s owner n deps body).evs) (h2 : s'.next = s.next + 1)
    (h3 : s'.log = s.log) : Delta s s' := by
  obtain ⟨c1, c2, c3, c4, c5, c6, c7⟩ := h.spawn_core owner n deps body
  have hself : (spawn s owner n deps body).evs s.next =
      (enqueue s.next (List.range n) (Ev.begin owner n deps body) s.ready).1 := by
    rw [spawn_eq]; simp only [upd_self]
  have hnew : ∀ i, (s.evs s.next).status i = .new := by
    intro i
    apply Classical.byContradiction
    intro hx
    exact absurd (h.lt_next hx) (Nat.lt_irrefl _)
  have hlt : ∀ e, e < s.next → s'.evs e = s.evs e := by
    intro e he
    rw [h1]; exact c6 e (by omega)
  refine ⟨by omega, fun e he => by simp [hlt e he], ?_, fun e he hd => by rw [hlt e he]; exact hd,
    .quiet h3 ?_ ?_⟩
  · intro e i hp
    rw [hlt e (h.lt_next (i := i) (by simp [hp]))]; exact hp
  · intro e i
    rw [h1]
    by_cases ee : e = s.next
    · subst ee
      rw [hself, enqueue_status, hnew]
      split <;> rfl
    · rw [c6 e ee]
  · intro e i
    rw [h1]
    by_cases ee : e = s.next
    · subst ee
      rw [hself, (enqueue_begin_static _ _ _ _).2.2.2.2.2.2.1]
      simp only [Ev.begin]
      cases hx : (s.evs s.next).res i with
      | none => rfl
      | some r =>
        have := (h.evs s.next).res_done i (by simp [hx])
        rw [hnew] at this
        simp at this
    · rw [c6 e ee]

theorem Inv.delta_takeDone {p : Prog V E} {s s1 s' : State V E} (h : Inv p s) {e i : Nat}
    {rest : List Nat} (hq : (s.evs e).doneQ = i :: rest)
    (ht : takeDone s e i rest = some (none, s1))
    (h1 : s'.evs = s1.evs) (h2 : s'.next = s1.next) (h3 : s'.log = s1.log) : Delta s s' := by
  rw [takeDone_eq] at ht
  split at ht
  · simp at ht
  · simp at ht
  · rename_i v hv
    simp only [Option.some.injEq, Prod.mk.injEq, true_and] at ht
    subst ht
    simp only at h1 h2 h3
    obtain ⟨t1, t2, t3, t4, t5, t6, t7, -⟩ := enqueue_begin_static e ((s.evs e).children i)
      { (s.evs e).took i rest with results := (s.evs e).results ++ [(i, v)] } s.ready
    have hstatus := enqueue_status e ((s.evs e).children i)
      { (s.evs e).took i rest with results := (s.evs e).results ++ [(i, v)] } s.ready
    have hf : (s.evs e).status i = .finished := ((h.evs e).doneQ_iff i).mp (by simp [hq])
    have hst2 : ∀ j, (enqueue e ((s.evs e).children i) { (s.evs e).took i rest with
        results := (s.evs e).results ++ [(i, v)] } s.ready).1.status j = .queued ∧
          (s.evs e).status j = .new ∨
        (enqueue e ((s.evs e).children i) { (s.evs e).took i rest with
        results := (s.evs e).results ++ [(i, v)] } s.ready).1.status j =
          upd (s.evs e).status i .processed j := by
      intro j
      by_cases hc : j ∈ (s.evs e).children i ∧ Ev.canRun { (s.evs e).took i rest with
          results := (s.evs e).results ++ [(i, v)] } j = true
      · left
        rw [hstatus, if_pos hc]
        have h1 := ((canRun_iff _ _).mp hc.2).1
        have hne : j ≠ i := by
          rintro rfl
          simp [Ev.took, upd] at h1
        exact ⟨rfl, by simpa [Ev.took, upd_ne _ _ hne] using h1⟩
      · right
        rw [hstatus, if_neg hc]; rfl
    clear hstatus
    generalize hE : enqueue e ((s.evs e).children i)
      { (s.evs e).took i rest with results := (s.evs e).results ++ [(i, v)] } s.ready = E' at *
    have hstatic := static_upd (evs := s.evs) (e0 := e) (ev := E'.1) ⟨t1, t2, t3⟩
    have hlive := live_upd (evs := s.evs) (e0 := e) (ev := E'.1) ⟨t4, t5⟩
    refine ⟨by omega, fun e _ => by rw [h1]; exact hstatic e, ?_, ?_, .quiet h3 ?_ ?_⟩
    · intro e' j hp
      rw [h1]
      by_cases ee : e' = e
      · subst ee
        rw [upd_self]
        rcases hst2 j with ⟨-, hn⟩ | hx
        · rw [hn] at hp; simp at hp
        · rw [hx]
          by_cases ej : j = i
          · subst ej; simp [upd]
          · rw [upd_ne _ _ ej]; exact hp
      · rw [upd_ne _ _ ee]; exact hp
    · intro e' _ hd
      rw [h1, (hlive e').1]; exact hd
    · intro e' j
      rw [h1]
      by_cases ee : e' = e
      · subst ee
        rw [upd_self]
        rcases hst2 j with ⟨hx, hn⟩ | hx
        · rw [hn, hx]; rfl
        · rw [hx]
          by_cases ej : j = i
          · subst ej; rw [upd_self, hf]; rfl
          · rw [upd_ne _ _ ej]
      · rw [upd_ne _ _ ee]
    · intro e' j
      rw [h1]
      by_cases ee : e' = e
      · subst ee
        rw [upd_self, t7]; rfl
      · rw [upd_ne _ _ ee]

theorem Inv.delta_leave {p : Prog V E} {s s' : State V E} (h : Inv p s) {e : Nat} {ev' : Ev V E}
    {out : EvalOut V E} (hl : LeaveOk s e ev' out) (hres : ev'.res = (s.evs e).res)
    (hlive : (s.evs e).live = true) (hdone : ∀ rs, out = .done rs → rs = (s.evs e).results)
    (hraised : ∀ x, out = .raised x → ∃ i, i < (s.evs e).n ∧ (s.evs e).res i = some (.error x))
    (h1 : s'.evs = upd s.evs e ev') (h2 : s'.next = s.next) (h3 : s'.log = .left e out :: s.log) :
    Delta s s' := by
  have hstatic := static_upd (evs := s.evs) hl.static
  refine ⟨by omega, fun a _ => by rw [h1]; exact hstatic a, ?_, ?_,
    .left e out h3 (h.live_lt hlive) hlive (by rw [h1, upd_self]; exact hl.dead) hl.outcome ?_ hraised ?_ ?_⟩
  · intro a i hp
    rw [h1]
    by_cases ea : a = e
    · subst ea
      rw [upd_self]
      rcases hl.status i with hx | ⟨hx, hy⟩
      · rw [hx]; exact hp
      · exact hy
    · rw [upd_ne _ _ ea]; exact hp
  · intro a _ hd
    rw [h1]
    by_cases ea : a = e
    · subst ea; rw [upd_self]; exact hl.dead
    · rw [upd_ne _ _ ea]; exact hd
  · intro rs hrs i hi
    have ho := hl.outcome
    rw [hrs, hdone rs hrs] at ho
    obtain ⟨x, hx, rfl⟩ := List.mem_map.mp (ho.2 i hi)
    refine ⟨(h.evs e).results_status x hx, x.2, ?_, (h.evs e).results_res x hx⟩
    rw [hdone rs hrs]; exact hx
  · intro a i
    rw [h1]
    by_cases ea : a = e
    · subst ea
      rw [upd_self]
      rcases hl.status i with hx | ⟨hx, hy⟩
      · rw [hx]
      · rw [hx, hy]; rfl
    · rw [upd_ne _ _ ea]
  · intro a i
    rw [h1]
    by_cases ea : a = e
    · subst ea; rw [upd_self, hres]
    · rw [upd_ne _ _ ea]

theorem outcome_done {ev : Ev V E} {rs : List (Nat × V)} (h : ev.outcome = .done rs) :
    rs = ev.results := by
  simp only [Ev.outcome] at h
  split at h
  · simp only [EvalOut.done.injEq] at h; exact h.symm
  · simp at h

theorem outcome_not_raised {ev : Ev V E} {x : E} : ev.outcome ≠ .raised x := by
  simp only [Ev.outcome]
  split <;> simp

theorem Inv.deltaMain {p : Prog V E} {s s' : State V E} (h : Inv p s) (hs : Sched.stepMain s = some s') :
    Delta s s' := by
  simp only [Sched.stepMain] at hs
  split at hs
  · simp at hs
  · split at hs
    · split at hs
      · split at hs
        · simp only [Option.some.injEq] at hs
          subst hs
          exact .same rfl rfl rfl
        · simp at hs
      · simp only [Option.some.injEq] at hs
        subst hs
        exact .same rfl rfl rfl
    · simp only [Option.some.injEq] at hs
      subst hs
      exact .same rfl rfl rfl
  · split at hs
    · rename_i e hw
      obtain ⟨m1, m2, m3, k, m4⟩ := h.main.wait e hw
      split at hs
      · rename_i hc
        simp only [Option.some.injEq] at hs
        subst hs
        exact h.delta_leave (h.leave_count m2 hc) rfl m2 (fun _ => outcome_done) (fun _ hx => absurd hx outcome_not_raised) rfl rfl rfl
      · split at hs
        · simp at hs
        · rename_i i rest hq
          rcases h.takeDone_some hq with ⟨x, hx, ht⟩ | ⟨v, s1, hv, ht⟩
          · rw [ht] at hs
            simp only [Option.some.injEq] at hs
            subst hs
            exact h.delta_leave (h.leave_raised m2 hq hx) rfl m2 (by simp) (by
              intro y hy
              simp only [EvalOut.raised.injEq] at hy
              exact ⟨i, (h.evs e).lt i (by simp [((h.evs e).doneQ_iff i).mp (by simp [hq])]), hy ▸ hx⟩)
              (by simp only [State.leave, upd_self, upd_upd]) rfl rfl
          · rw [ht] at hs
            simp only [Option.some.injEq] at hs
            subst hs
            exact h.delta_takeDone hq ht rfl rfl rfl
    · rename_i hw
      split at hs
      · simp only [Option.some.injEq] at hs
        subst hs
        exact .same rfl rfl rfl
      · simp only [Option.some.injEq] at hs
        subst hs
        exact .same rfl rfl rfl
      · rename_i k hm
        simp only [Option.some.injEq] at hs
        subst hs
        exact .same rfl rfl rfl
      · rename_i n deps body k hm
        simp only [Option.some.injEq] at hs
        subst hs
        exact h.delta_spawn (owner := none) (n := n) (deps := deps) (body := body) rfl rfl rfl

theorem Inv.deltaWorker {p : Prog V E} {s s' : State V E} (h : Inv p s) {w : Nat}
    (hs : Sched.stepWorker s w = some s') : Delta s s' := by
  have hsh := h.shape w
  simp only [Sched.stepWorker] at hs
  split at hs
  · simp at hs
  · simp only [Option.some.injEq] at hs
    subst hs
    split <;> exact .same rfl rfl rfl
  · split at hs
    · simp at hs
    · rename_i it q hq
      simp only [Option.some.injEq] at hs
      subst hs
      exact h.delta_take hq _
  · rename_i it hph
    split at hs
    · split at hs
      · simp only [Option.some.injEq] at hs
        subst hs
        exact .same rfl rfl rfl
      · rename_i t
        simp only [Option.some.injEq] at hs
        subst hs
        exact h.delta_start (by rw [hph]; rfl)
    · simp at hs
  · split at hs
    · simp only [Option.some.injEq] at hs
      subst hs
      exact .same rfl rfl rfl
    · simp at hs
  · split at hs
    · simp only [Option.some.injEq] at hs
      subst hs
      exact .same rfl rfl rfl
    · rename_i it q hq
      simp only [Option.some.injEq] at hs
      subst hs
      exact h.delta_take hq _
  · rename_i it hph
    split at hs
    · split at hs
      · rename_i t
        simp only [Option.some.injEq] at hs
        subst hs
        exact h.delta_start (by rw [hph]; rfl)
      · simp only [Option.some.injEq] at hs
        subst hs
        exact .same rfl rfl rfl
    · simp at hs
  · rename_i hph
    rw [hph] at hsh
    obtain ⟨f, rest, h1, h2, h3⟩ := hsh
    rw [h1] at hs
    simp only at hs
    split at hs
    · rename_i hx; rw [hx] at h2; simp at h2
    · rename_i e he
      obtain ⟨m1, m2, m3, m4, k, m5⟩ := (h.frames w f (by simp [h1])).wait e he
      split at hs
      · simp only [Option.some.injEq] at hs
        subst hs
        exact .same rfl rfl rfl
      · rename_i i dq hq
        rcases h.takeDone_some hq with ⟨x, hx, ht⟩ | ⟨v, s1, hv, ht⟩
        · rw [ht] at hs
          simp only [Option.some.injEq] at hs
          subst hs
          exact h.delta_leave (h.leave_raised m2 hq hx) rfl m2 (by simp) (by
              intro y hy
              simp only [EvalOut.raised.injEq] at hy
              exact ⟨i, (h.evs e).lt i (by simp [((h.evs e).doneQ_iff i).mp (by simp [hq])]), hy ▸ hx⟩)
            (by simp only [State.leave, State.frame, upd_self, upd_upd]) rfl rfl
        · rw [ht] at hs
          simp only [Option.some.injEq] at hs
          subst hs
          exact h.delta_takeDone hq ht rfl rfl rfl
  · rename_i hph
    rw [hph] at hsh
    obtain ⟨f, rest, h1, h3⟩ := hsh
    rw [h1] at hs
    simp only at hs
    split at hs
    · rename_i e he
      obtain ⟨m1, m2, m3, m4, k, m5⟩ := (h.frames w f (by simp [h1])).wait e he
      split at hs
      · rename_i hc
        simp only [Option.some.injEq] at hs
        subst hs
        exact h.delta_leave (h.leave_count m2 hc) rfl m2 (fun _ => outcome_done) (fun _ hx => absurd hx outcome_not_raised) rfl rfl rfl
      · simp only [Option.some.injEq] at hs
        subst hs
        exact .same rfl rfl rfl
    · rename_i he
      split at hs
      · simp only [Option.some.injEq] at hs
        subst hs
        exact h.delta_finish h1
      · simp only [Option.some.injEq] at hs
        subst hs
        exact h.delta_finish h1
      · simp only [Option.some.injEq] at hs
        subst hs
        exact .same rfl rfl rfl
      · rename_i n deps body k hp
        simp only [Option.some.injEq] at hs
        subst hs
        exact h.delta_spawn (owner := some w) (n := n) (deps := deps) (body := body) rfl rfl rfl

theorem Inv.delta {p : Prog V E} {s s' : State V E} (h : Inv p s) {th : Thread}
    (hs : Sched.step s th = some s') : Delta s s' := by
  cases th with
  | main => exact h.deltaMain hs
  | worker w =>
    simp only [Sched.step] at hs
    split at hs
    · exact h.deltaWorker hs
    · simp at hs

/-! ## The log -/

/-- `Task.run` of the task is entered -/
def Note.isStart (t : TaskId) : Note V E → Bool
  | .start t' => t' = t
  | _ => false

/-- how often a task was started -/
def starts (log : List (Note V E)) (t : TaskId) : Nat := log.countP (Note.isStart t)

structure LogInv (s : State V E) : Prop where
  starts : ∀ e i, starts s.log (e, i) = if ((s.evs e).status i).started then 1 else 0
  finish : ∀ e i r, .finish (e, i) r ∈ s.log ↔ (s.evs e).res i = some r
  order : ∀ a e i b, s.log = a ++ .start (e, i) :: b → e < s.next ∧
    ∀ d ∈ (s.evs e).depsOf i, ∃ v, .finish (e, d) (.ok v) ∈ b
  left_done : ∀ e rs, .left e (.done rs) ∈ s.log → e < s.next ∧
    ∀ i, i < (s.evs e).n → (s.evs e).status i = .processed ∧
      ∃ v, (i, v) ∈ rs ∧ (s.evs e).res i = some (.ok v)
  left_raised : ∀ e x, .left e (.raised x) ∈ s.log → e < s.next ∧
    ∃ i, i < (s.evs e).n ∧ (s.evs e).res i = some (.error x)
  left_dead : ∀ e out, .left e out ∈ s.log → e < s.next ∧ (s.evs e).live = false ∧
    Outcome (s.evs e).n (s.evs e).deps (fun i => Den ((s.evs e).body i)) out

theorem LogInv.init (nw : Nat) (p : Prog V E) : LogInv (State.init nw p) := by
  refine ⟨?_, ?_, ?_, ?_, ?_, ?_⟩ <;> simp [State.init, Sched.starts, Status.started]

theorem depsOf_static {a b : Ev V E} (h1 : b.n = a.n) (h2 : b.deps = a.deps) (i : Nat) :
    b.depsOf i = a.depsOf i := by
  simp [Ev.depsOf, h1, h2]

theorem LogInv.step {p : Prog V E} {s s' : State V E} (hi : Inv p s) (h : LogInv s)
    (hd : Delta s s') : LogInv s' := by
  -- results stay
  have hresmono : ∀ e i r, (s.evs e).res i = some r → (s'.evs e).res i = some r := by
    intro e i r hr
    rcases hd.change with ⟨-, -, hres⟩ | ⟨-, -, -, -, -, hres⟩ |
      ⟨t, r', w, -, hact, -, hres⟩ | ⟨-, -, -, -, -, -, -, -, -, -, hres⟩
    · rw [hres]; exact hr
    · rw [hres]; exact hr
    · rw [hres]
      split
      · rename_i ht
        subst ht
        have := (hi.evs e).res_done i (by simp [hr])
        rw [hact] at this
        simp at this
      · exact hr
    · rw [hres]; exact hr
  -- facts about entries that were in the log before
  have horder : ∀ a e i b, s.log = a ++ .start (e, i) :: b → e < s'.next ∧
      ∀ d ∈ (s'.evs e).depsOf i, ∃ v, .finish (e, d) (.ok v) ∈ b := by
    intro a e i b hl
    obtain ⟨h1, h2⟩ := h.order a e i b hl
    refine ⟨by have := hd.next; omega, ?_⟩
    rw [depsOf_static (hd.static e h1).1 (hd.static e h1).2.1]
    exact h2
  have hleft : ∀ e rs, .left e (.done rs) ∈ s.log → e < s'.next ∧
      ∀ i, i < (s'.evs e).n → (s'.evs e).status i = .processed ∧
        ∃ v, (i, v) ∈ rs ∧ (s'.evs e).res i = some (.ok v) := by
    intro e rs hl
    obtain ⟨h1, h2⟩ := h.left_done e rs hl
    refine ⟨by have := hd.next; omega, ?_⟩
    intro i hi
    rw [(hd.static e h1).1] at hi
    obtain ⟨k1, v, k2, k3⟩ := h2 i hi
    exact ⟨hd.processed e i k1, v, k2, hresmono e i _ k3⟩
  have hraise : ∀ e x, .left e (.raised x) ∈ s.log → e < s'.next ∧
      ∃ i, i < (s'.evs e).n ∧ (s'.evs e).res i = some (.error x) := by
    intro e x hl
    obtain ⟨h1, i, h2, h3⟩ := h.left_raised e x hl
    refine ⟨by have := hd.next; omega, i, ?_, hresmono e i _ h3⟩
    rw [(hd.static e h1).1]; exact h2
  have hdead : ∀ e out, .left e out ∈ s.log → e < s'.next ∧ (s'.evs e).live = false ∧
      Outcome (s'.evs e).n (s'.evs e).deps (fun i => Den ((s'.evs e).body i)) out := by
    intro e out hl
    obtain ⟨h1, h2, h3⟩ := h.left_dead e out hl
    refine ⟨by have := hd.next; omega, hd.dead e h1 h2, ?_⟩
    obtain ⟨s1, s2, s3⟩ := hd.static e h1
    rw [s1, s2, s3]
    exact h3
  have hcons : ∀ (x : Note V E), s'.log = x :: s.log → (∀ t, x ≠ .start t) →
      ∀ a e i b, s'.log = a ++ .start (e, i) :: b → e < s'.next ∧
      ∀ d ∈ (s'.evs e).depsOf i, ∃ v, .finish (e, d) (.ok v) ∈ b := by
    intro x hx hns a e i b hl
    rw [hx] at hl
    cases a with
    | nil =>
      simp only [List.nil_append, List.cons.injEq] at hl
      exact absurd hl.1 (hns _)
    | cons y a =>
      simp only [List.cons_append, List.cons.injEq] at hl
      exact horder a e i b hl.2
  rcases hd.change with ⟨hlog, hst, hres⟩ | ⟨t, w, hlog, hheld, hst, hres⟩ |
    ⟨t, r, w, hlog, hact, hst, hres⟩ | ⟨e0, out, hlog, hlt, hlive, hdead0, hcome, hout, hraised, hst, hres⟩
  · refine ⟨?_, ?_, ?_, ?_, ?_, ?_⟩
    · intro e i; rw [hlog, hst]; exact h.starts e i
    · intro e i r; rw [hlog, hres]; exact h.finish e i r
    · rw [hlog]; exact horder
    · rw [hlog]; exact hleft
    · rw [hlog]; exact hraise
    · rw [hlog]; exact hdead
  · obtain ⟨e0, i0⟩ := t
    simp only at hheld
    have he0 : e0 < s.next := hi.lt_next (i := i0) (by simp [hheld])
    refine ⟨?_, ?_, ?_, ?_, ?_, ?_⟩
    · intro e i
      rw [hlog, hst]
      simp only [Sched.starts, List.countP_cons, Note.isStart]
      have := h.starts e i
      simp only [Sched.starts] at this
      rw [this]
      by_cases ht : (e, i) = (e0, i0)
      · rw [if_pos ht]
        have : ((s.evs e).status i).started = false := by
          simp only [Prod.mk.injEq] at ht
          rw [ht.1, ht.2, hheld]; rfl
        rw [this, ht]
        simp
      · rw [if_neg ht]
        simp [Ne.symm ht]
    · intro e i r; rw [hlog, hres]
      simp only [List.mem_cons, reduceCtorEq, false_or]
      exact h.finish e i r
    · intro a e i b hl
      rw [hlog] at hl
      cases a with
      | nil =>
        simp only [List.nil_append, List.cons.injEq, Note.start.injEq, Prod.mk.injEq] at hl
        obtain ⟨⟨rfl, rfl⟩, rfl⟩ := hl
        refine ⟨by have := hd.next; omega, ?_⟩
        intro d hdd
        rw [depsOf_static (hd.static _ he0).1 (hd.static _ he0).2.1] at hdd
        have := (hi.evs e0).deps_done i0 (by simp [hheld]) d hdd
        obtain ⟨x, hx, rfl⟩ := List.mem_map.mp this
        exact ⟨x.2, (h.finish _ _ _).mpr ((hi.evs e0).results_res x hx)⟩
      | cons y a =>
        simp only [List.cons_append, List.cons.injEq] at hl
        exact horder a e i b hl.2
    · intro e rs hm
      rw [hlog] at hm
      simp only [List.mem_cons, reduceCtorEq, false_or] at hm
      exact hleft e rs hm
    · intro e x hm
      rw [hlog] at hm
      simp only [List.mem_cons, reduceCtorEq, false_or] at hm
      exact hraise e x hm
    · intro e out hm
      rw [hlog] at hm
      simp only [List.mem_cons, reduceCtorEq, false_or] at hm
      exact hdead e out hm
  · obtain ⟨e0, i0⟩ := t
    simp only at hact
    refine ⟨?_, ?_, ?_, ?_, ?_, ?_⟩
    · intro e i
      rw [hlog, hst]
      simp only [Sched.starts, List.countP_cons, Note.isStart]
      exact h.starts e i
    · intro e i r'
      rw [hlog, hres]
      simp only [List.mem_cons, Note.finish.injEq]
      by_cases ht : (e, i) = (e0, i0)
      · rw [if_pos ht]
        have hnone : (s.evs e).res i = none := by
          apply Classical.byContradiction
          intro hx
          have := (hi.evs e).res_done i hx
          simp only [Prod.mk.injEq] at ht
          rw [ht.1, ht.2, hact] at this
          simp at this
        have hno : (Note.finish (e, i) r') ∉ s.log := by
          rw [h.finish, hnone]; simp
        simp only [ht, true_and, Option.some.injEq]
        rw [ht] at hno
        exact ⟨fun hx => (hx.resolve_right hno).symm, fun hx => .inl hx.symm⟩
      · rw [if_neg ht]
        simp only [ht, false_and, false_or]
        exact h.finish e i r'
    · exact hcons _ hlog (by simp)
    · intro e rs hm
      rw [hlog] at hm
      simp only [List.mem_cons, reduceCtorEq, false_or] at hm
      exact hleft e rs hm
    · intro e x hm
      rw [hlog] at hm
      simp only [List.mem_cons, reduceCtorEq, false_or] at hm
      exact hraise e x hm
    · intro e out hm
      rw [hlog] at hm
      simp only [List.mem_cons, reduceCtorEq, false_or] at hm
      exact hdead e out hm
  · refine ⟨?_, ?_, ?_, ?_, ?_, ?_⟩
    · intro e i
      rw [hlog, hst]
      simp only [Sched.starts, List.countP_cons, Note.isStart]
      exact h.starts e i
    · intro e i r; rw [hlog, hres]
      simp only [List.mem_cons, reduceCtorEq, false_or]
      exact h.finish e i r
    · exact hcons _ hlog (by simp)
    · intro e rs hm
      rw [hlog] at hm
      simp only [List.mem_cons, Note.left.injEq] at hm
      rcases hm with ⟨rfl, hm⟩ | hm
      · refine ⟨by have := hd.next; omega, ?_⟩
        intro i hi'
        rw [(hd.static _ hlt).1] at hi'
        obtain ⟨k1, v, k2, k3⟩ := hout rs hm.symm i hi'
        exact ⟨hd.processed _ i k1, v, k2, hresmono _ _ _ k3⟩
      · exact hleft e rs hm
    · intro e x hm
      rw [hlog] at hm
      simp only [List.mem_cons, Note.left.injEq] at hm
      rcases hm with ⟨rfl, hm⟩ | hm
      · obtain ⟨i, k1, k2⟩ := hraised x hm.symm
        refine ⟨by have := hd.next; omega, i, ?_, hresmono _ _ _ k2⟩
        rw [(hd.static _ hlt).1]; exact k1
      · exact hraise e x hm
    · intro e out' hm
      rw [hlog] at hm
      simp only [List.mem_cons, Note.left.injEq] at hm
      rcases hm with ⟨rfl, hm⟩ | hm
      · refine ⟨by have := hd.next; omega, hdead0, ?_⟩
        obtain ⟨s1, s2, s3⟩ := hd.static _ hlt
        rw [s1, s2, s3, hm]
        exact hcome
      · exact hdead e out' hm

theorem Reach.logInv {nw : Nat} {p : Prog V E} {s : State V E} (h : Reach nw p s) : LogInv s := by
  induction h with
  | init => exact LogInv.init nw p
  | step th hr hs ih => exact ih.step hr.inv (hr.inv.delta hs)

end Verif.Sched
