import Verif.Sched.Measure

/-! # Every step but those of a polling worker is progress (continued) -/
namespace Verif.Sched

variable {V E : Type}

/-- the phases of a worker that waits inside `_evaluate` -/
def Phase.cyc : Phase → Bool
  | .code => true
  | .poll => true
  | .polled none => true
  | .polled (some none) => true
  | .check => true
  | _ => false

/-- A step of a worker that polls inside `_evaluate`. -/
def Idle (s s' : State V E) (w : Nat) : Prop :=
  ∃ ph l, s' = { s.phase w ph with lock := l } ∧ (s.workers w).phase.cyc = true ∧ ph.cyc = true

/-- Only one worker has changed, and its jobs have not. -/
theorem only_worker {s s' : State V E} {w : Nat} {x : Worker V E} (hw : w < s.nw) (h1 : s'.evs = s.evs)
    (h2 : s'.next = s.next) (h3 : s'.nw = s.nw) (h4 : s'.workers = upd s.workers w x)
    (h5 : s'.mainPhase = s.mainPhase) (h6 : s'.mainWait = s.mainWait) (h7 : s'.main = s.main)
    (hx : x.jobs = (s.workers w).jobs) :
    jobs s' = jobs s ∧ weight s' + (s.workers w).weight + sentinels s.ready =
      weight s + x.weight + sentinels s'.ready := by
  have a1 := total_worker taskJobs Worker.jobs h1 h2 h3 h4 hw
  have a2 := total_worker taskWeight Worker.weight h1 h2 h3 h4 hw
  constructor
  · rw [hx] at a1
    simp only [jobs, add_right_cancel a1, h5, h6, h7]
  · simp only [weight, h5, h3]
    omega

theorem less_phase {s : State V E} {w : Nat} (hw : w < s.nw) {ph : Phase} (l : Option Nat)
    (h : ph.weight < (s.workers w).phase.weight) : Less { s.phase w ph with lock := l } s := by
  right
  obtain ⟨h1, h2⟩ := only_worker (s := s) (s' := { s.phase w ph with lock := l })
    (x := { s.workers w with phase := ph }) hw rfl rfl rfl rfl rfl rfl rfl rfl
  refine ⟨h1, ?_⟩
  have h3 := Nat.add_right_cancel (m := sentinels s.ready) h2
  simp only [Worker.weight] at h3
  exact Nat.lt_of_add_lt_add_right (n := (s.workers w).phase.weight + if (s.workers w).finished then 0 else 1)
    (by rw [h3]; omega)

/-- One worker and the status of one task have changed. -/
theorem only_task {p : Prog V E} {s s' : State V E} (hi : Inv p s) {w e i : Nat} {x : Worker V E}
    {ev : Ev V E} {b : Status} (hw : w < s.nw) (hst : (s.evs e).status i ≠ .new)
    (h1 : s'.evs = upd s.evs e ev) (h2 : s'.next = s.next) (h3 : s'.nw = s.nw)
    (h4 : s'.workers = upd s.workers w x) (h5 : s'.mainPhase = s.mainPhase)
    (h6 : s'.mainWait = s.mainWait) (h7 : s'.main = s.main)
    (e1 : ev.status = upd (s.evs e).status i b) (e2 : ev.body = (s.evs e).body) (e3 : ev.n = (s.evs e).n) :
    jobs s' + (s.workers w).jobs + taskJobs ((s.evs e).status i) ((s.evs e).body i) =
      jobs s + x.jobs + taskJobs b ((s.evs e).body i) ∧
    weight s' + (s.workers w).weight + sentinels s.ready + ((s.evs e).status i).weight =
      weight s + x.weight + sentinels s'.ready + b.weight := by
  have hlt := hi.lt_next hst
  have hin := (hi.evs e).lt i hst
  have a1 := total_both taskJobs Worker.jobs h1 h2 h3 h4 hlt hw
  have a2 := total_both taskWeight Worker.weight h1 h2 h3 h4 hlt hw
  have b1 := evSum_status (taskJobs (V := V) (E := E)) e1 e2 e3 hin
  have b2 := evSum_status (taskWeight (V := V) (E := E)) e1 e2 e3 hin
  constructor
  · simp only [jobs, h5, h6, h7]
    classical
    ext z
    have c1 := congrArg (Multiset.count z) a1
    have c2 := congrArg (Multiset.count z) b1
    simp only [Multiset.count_add] at c1 c2 ⊢
    omega
  · simp only [weight, h5, h3]
    simp only [taskWeight] at b2
    omega

/-- A cut: the jobs of a worker change from those with `z` to those with `t`. -/
theorem less_cut {s s' : State V E} {z : Job V E} {t : Multiset (Job V E)}
    (ht : ∀ y ∈ t, Job.Lt y z) (h : jobs s' + {z} = jobs s + t) : Less s' s := .inl ⟨t, z, ht, h⟩

theorem less_take {p : Prog V E} {s : State V E} (hi : Inv p s) {w : Nat} (hw : w < s.nw) {ph : Phase}
    {it : Item} {q : List Item} (hq : s.ready = it :: q) (h : ph.weight ≤ (s.workers w).phase.weight) :
    Less ((s.take w it q).phase w ph) s := by
  right
  cases it with
  | none =>
    obtain ⟨h1, h2⟩ := only_worker (s := s) (s' := (s.take w none q).phase w ph)
      (x := { s.workers w with phase := ph }) hw rfl rfl rfl rfl rfl rfl rfl rfl
    refine ⟨h1, ?_⟩
    have e3 : sentinels s.ready = sentinels q + 1 := by
      rw [hq]; simp [sentinels]
    have e4 : ((s.take w none q).phase w ph).ready = q := rfl
    rw [e3, e4] at h2
    simp only [Worker.weight] at h2
    omega
  | some t =>
    obtain ⟨e, i⟩ := t
    have hst : (s.evs e).status i = .queued := (hi.ready_iff e i).mp (by simp [hq])
    obtain ⟨h1, h2⟩ := only_task (s := s) (s' := (s.take w (some (e, i)) q).phase w ph) hi
      (x := { s.workers w with phase := ph }) (e := e) (i := i) (b := .held w) hw (by simp [hst])
      rfl rfl rfl rfl rfl rfl rfl rfl rfl rfl
    have e3 : sentinels s.ready = sentinels q := by
      rw [hq]; simp [sentinels]
    have e4 : ((s.take w (some (e, i)) q).phase w ph).ready = q := rfl
    rw [e3, e4, hst] at h2
    rw [hst] at h1
    constructor
    · exact add_right_cancel (add_right_cancel (show _ + (s.workers w).jobs +
        ({.run ((s.evs e).body i)} : Multiset (Job V E)) = _ from h1))
    · simp only [Worker.weight, Status.weight] at h2
      omega

theorem Worker.jobs_cons {x : Worker V E} {f : Frame V E} {rest : List (Frame V E)}
    (h : x.stack = f :: rest) : x.jobs = {f.job} + (rest.map Frame.job : List (Job V E)) := by
  simp only [Worker.jobs, h, List.map_cons]
  rfl

theorem less_start {p : Prog V E} {s : State V E} (hi : Inv p s) {w : Nat} (hw : w < s.nw) {t : TaskId}
    (hh : (s.workers w).phase.holds = some t) : Less (startTask s w t) s := by
  right
  obtain ⟨e, i⟩ := t
  have hst : (s.evs e).status i = .held w := (hi.held_iff w e i).mp hh
  obtain ⟨h1, h2⟩ := only_task (s := s) (s' := startTask s w (e, i)) hi
    (x := { s.workers w with
      phase := .code, stack := ⟨(e, i), (s.evs e).body i, none⟩ :: (s.workers w).stack })
    (e := e) (i := i) (b := .active w) hw (by simp [hst])
    rfl rfl rfl rfl rfl rfl rfl rfl rfl rfl
  rw [hst] at h1 h2
  constructor
  · have e0 : Worker.jobs { s.workers w with
        phase := .code, stack := ⟨(e, i), (s.evs e).body i, none⟩ :: (s.workers w).stack } =
        {.run ((s.evs e).body i)} + (s.workers w).jobs := rfl
    rw [e0] at h1
    simp only [taskJobs] at h1
    classical
    ext z
    have c1 := congrArg (Multiset.count z) h1
    simp only [Multiset.count_add, Multiset.count_zero] at c1
    omega
  · have e4 : (startTask s w (e, i)).ready = s.ready := rfl
    simp only [e4, Worker.weight, Status.weight, Phase.weight] at h2
    omega

/-- The top frame of a worker changes; the events change but not the tasks to be started. -/
theorem less_frame {s s' : State V E} {w : Nat} (hw : w < s.nw) {f : Frame V E}
    {rest rest' : List (Frame V E)} (h1 : (s.workers w).stack = f :: rest)
    {x : Worker V E} {t : Multiset (Job V E)}
    (hnw : s'.nw = s.nw) (hws : s'.workers = upd s.workers w x)
    (hx : x.jobs = t + (rest.map Frame.job : List (Job V E)))
    (hm : mainJobs s'.mainPhase s'.mainWait s'.main = mainJobs s.mainPhase s.mainWait s.main)
    {u : Multiset (Job V E)}
    (hev : sumTo (fun e => evSum taskJobs (s'.evs e)) s'.next =
      sumTo (fun e => evSum taskJobs (s.evs e)) s.next + u)
    (ht : ∀ y ∈ t + u, Job.Lt y f.job) : Less s' s := by
  apply less_cut ht
  simp only [jobs, total, hm, hnw, hws, hev]
  have a := sumTo_upd Worker.jobs s.workers w x hw
  rw [hx, Worker.jobs_cons h1] at a
  classical
  ext z
  have := congrArg (Multiset.count z) a
  simp only [Multiset.count_add] at this ⊢
  omega

theorem sumTo_evs {M : Type} [AddCommMonoid M] [IsRightCancelAdd M] (g : Status → Prog V E → M) {s : State V E}
    {e : Nat} {ev : Ev V E} (he : e < s.next) (h : evSum g ev = evSum g (s.evs e)) :
    sumTo (fun e' => evSum g (upd s.evs e ev e')) s.next = sumTo (fun e' => evSum g (s.evs e')) s.next := by
  have := sumTo_upd (evSum g) s.evs e ev he
  rw [h] at this
  exact add_right_cancel this

/-- The finished task of an evaluation is not among those to be started. -/
theorem took_jobs {ev : Ev V E} (h : EvOk ev) {i : Nat} {rest : List Nat} (hq : ev.doneQ = i :: rest) :
    evSum taskJobs (ev.took i rest) = evSum taskJobs ev := by
  have hst : ev.status i = .finished := (h.doneQ_iff i).mp (by simp [hq])
  have := evSum_status (taskJobs (V := V) (E := E)) (ev := ev) (ev' := ev.took i rest) rfl rfl rfl
    (h.lt i (by simp [hst]))
  rw [hst] at this
  exact add_right_cancel (show _ + (0 : Multiset (Job V E)) = _ + 0 from this)

theorem took_weight {ev : Ev V E} (h : EvOk ev) {i : Nat} {rest : List Nat} (hq : ev.doneQ = i :: rest) :
    evSum taskWeight (ev.took i rest) + 1 = evSum taskWeight ev := by
  have hst : ev.status i = .finished := (h.doneQ_iff i).mp (by simp [hq])
  have := evSum_status (taskWeight (V := V) (E := E)) (ev := ev) (ev' := ev.took i rest) rfl rfl rfl
    (h.lt i (by simp [hst]))
  rw [hst] at this
  exact this

/-- A finished task with a result is taken from the done queue. -/
theorem takeDone_less {p : Prog V E} {s s1 : State V E} (hi : Inv p s) {e i : Nat} {rest : List Nat}
    (he : e < s.next) (hq : (s.evs e).doneQ = i :: rest) (ht : takeDone s e i rest = some (none, s1)) :
    jobs s1 = jobs s ∧ weight s1 < weight s := by
  rw [takeDone_eq] at ht
  split at ht
  · simp at ht
  · simp at ht
  · rename_i v hv
    simp only [Option.some.injEq, Prod.mk.injEq, true_and] at ht
    subst ht
    have t1 := took_jobs (hi.evs e) hq
    have t2 := took_weight (hi.evs e) hq
    have j1 := jobs_enqueue e ((s.evs e).children i)
      { (s.evs e).took i rest with results := (s.evs e).results ++ [(i, v)] } s.ready
    have j2 := weight_enqueue e ((s.evs e).children i)
      { (s.evs e).took i rest with results := (s.evs e).results ++ [(i, v)] } s.ready
    have j3 := enqueue_sentinels e ((s.evs e).children i)
      { (s.evs e).took i rest with results := (s.evs e).results ++ [(i, v)] } s.ready
    have k1 : evSum taskJobs { (s.evs e).took i rest with results := (s.evs e).results ++ [(i, v)] } =
      evSum taskJobs ((s.evs e).took i rest) := rfl
    have k2 : evSum taskWeight
        { (s.evs e).took i rest with results := (s.evs e).results ++ [(i, v)] } =
      evSum taskWeight ((s.evs e).took i rest) := rfl
    generalize enqueue e ((s.evs e).children i)
      { (s.evs e).took i rest with results := (s.evs e).results ++ [(i, v)] } s.ready = r at *
    have a1 := total_ev taskJobs Worker.jobs (s := s)
      (s' := { s with evs := upd s.evs e r.1, ready := r.2 }) rfl rfl rfl rfl he
    have a2 := total_ev taskWeight Worker.weight (s := s)
      (s' := { s with evs := upd s.evs e r.1, ready := r.2 }) rfl rfl rfl rfl he
    constructor
    · simp only [jobs]
      rw [j1, k1, t1] at a1
      rw [add_right_cancel a1]
    · simp only [weight, j3]
      omega

theorem weight_phase {s : State V E} {w : Nat} (hw : w < s.nw) {ph : Phase}
    (h : ph.weight ≤ (s.workers w).phase.weight) :
    jobs (s.phase w ph) = jobs s ∧ weight (s.phase w ph) ≤ weight s := by
  have a1 := total_worker taskJobs Worker.jobs (s := s) (s' := s.phase w ph)
    (x := { s.workers w with phase := ph }) rfl rfl rfl rfl hw
  have a2 := total_worker taskWeight Worker.weight (s := s)
    (s' := s.phase w ph)
    (x := { s.workers w with phase := ph }) rfl rfl rfl rfl hw
  constructor
  · simp only [jobs]
    have : Worker.jobs { s.workers w with phase := ph } = (s.workers w).jobs := rfl
    rw [this] at a1
    rw [add_right_cancel a1]
    rfl
  · simp only [Worker.weight] at a2
    exact Nat.add_le_add_right (by omega) _

theorem mem_sumTo {α : Type} {f : Nat → Multiset α} {n : Nat} {a : α} (h : a ∈ sumTo f n) :
    ∃ i, i < n ∧ a ∈ f i := by
  induction n with
  | zero => simp [sumTo] at h
  | succ n ih =>
    simp only [sumTo, Multiset.mem_add] at h
    rcases h with h | h
    · obtain ⟨i, hi, h⟩ := ih h
      exact ⟨i, by omega, h⟩
    · exact ⟨n, by omega, h⟩

theorem begin_jobs (e : Nat) (is : List Nat) (q : List Item) (owner : Option Nat) (n : Nat)
    (deps : Nat → List Nat) (body : Nat → Prog V E) (k : EvalOut V E → Prog V E) :
    ∀ y ∈ evSum taskJobs (enqueue e is (Ev.begin owner n deps body) q).1,
      Job.Lt y (.run (.eval n deps body k)) := by
  rw [jobs_enqueue]
  intro y hy
  obtain ⟨i, -, hi⟩ := mem_sumTo hy
  simp only [Ev.begin, taskJobs, Multiset.mem_singleton] at hi
  subst hi
  exact .body n deps body k i

theorem Inv.progress_worker {p : Prog V E} {s s' : State V E} (h : Inv p s) {w : Nat} (hw : w < s.nw)
    (hs : Sched.stepWorker s w = some s') : Less s' s ∨ Idle s s' w := by
  have hsh := h.shape w
  simp only [Sched.stepWorker] at hs
  split at hs
  · simp at hs
  · rename_i hph
    simp only [Option.some.injEq] at hs
    subst hs
    left
    split
    · exact less_phase hw s.lock (by simp [hph, Phase.weight])
    · exact less_phase hw s.lock (by simp [hph, Phase.weight])
  · rename_i hph
    left
    split at hs
    · simp at hs
    · rename_i it q hq
      simp only [Option.some.injEq] at hs
      subst hs
      exact less_take h hw hq (by simp [hph, Phase.weight])
  · rename_i it hph
    left
    split at hs
    · rename_i hl
      split at hs
      · simp only [Option.some.injEq] at hs
        subst hs
        exact less_phase hw s.lock (by simp [hph, Phase.weight])
      · rename_i t
        simp only [Option.some.injEq] at hs
        subst hs
        exact less_start h hw (by simp [hph, Phase.holds])
    · simp at hs
  · rename_i hph
    left
    split at hs
    · simp only [Option.some.injEq] at hs
      subst hs
      exact less_phase hw _ (by simp [hph, Phase.weight])
    · simp at hs
  · rename_i hph
    split at hs
    · simp only [Option.some.injEq] at hs
      subst hs
      right
      exact ⟨.polled none, s.lock, rfl, by simp [hph, Phase.cyc], rfl⟩
    · rename_i it q hq
      simp only [Option.some.injEq] at hs
      subst hs
      left
      exact less_take h hw hq (by simp [hph, Phase.weight])
  · rename_i it hph
    split at hs
    · split at hs
      · rename_i t
        simp only [Option.some.injEq] at hs
        subst hs
        left
        exact less_start h hw (by simp [hph, Phase.holds])
      · rename_i hno
        simp only [Option.some.injEq] at hs
        subst hs
        right
        refine ⟨.check, some w, rfl, ?_, rfl⟩
        rw [hph]
        cases it with
        | none => rfl
        | some it =>
          cases it with
          | none => rfl
          | some t => exact absurd rfl (hno t)
    · simp at hs
  · rename_i hph
    rw [hph] at hsh
    obtain ⟨f, rest, h1, h2, h3⟩ := hsh
    rw [h1] at hs
    simp only at hs
    split at hs
    · simp at hs
    · rename_i e he
      obtain ⟨m1, m2, m3, m4, k, m5⟩ := (h.frames w f (by simp [h1])).wait e he
      split at hs
      · simp only [Option.some.injEq] at hs
        subst hs
        right
        exact ⟨.code, s.lock, rfl, by simp [hph, Phase.cyc], rfl⟩
      · rename_i i dq hq
        left
        rcases h.takeDone_some hq with ⟨x, hx, ht⟩ | ⟨v, s1, hv, ht⟩
        · rw [ht] at hs
          simp only [Option.some.injEq] at hs
          subst hs
          have hj : f.job = .wait f.prog := by simp [Frame.job, he]
          refine less_frame (t := {.run (f.prog.resume (.raised x))}) (u := 0)
            (rest' := rest) hw h1 rfl rfl ?_ rfl ?_ ?_
          · rw [Worker.jobs_cons rfl]
            rfl
          · rw [add_zero]
            show sumTo (fun e' => evSum taskJobs (upd (upd s.evs e _) e _ e')) s.next = _
            rw [upd_upd]
            apply sumTo_evs _ m1
            rw [← took_jobs (h.evs e) hq]
            apply evSum_same <;> simp only [upd_self]
          · simp only [add_zero, Multiset.mem_singleton]
            rintro y rfl
            rw [hj, m5]
            exact .resume _ _ _ _ _
        · rw [ht] at hs
          simp only [Option.some.injEq] at hs
          subst hs
          obtain ⟨b1, b2⟩ := takeDone_less h m1 hq ht
          have e1 := takeDone_workers ht
          have e2 := (apart_takeDone ht).nw
          obtain ⟨b3, b4⟩ := weight_phase (s := s1) (w := w) (ph := .code) (by omega)
            (by rw [e1, hph]; simp [Phase.weight])
          exact .inr ⟨b3.trans b1, by omega⟩
  · rename_i hph
    rw [hph] at hsh
    obtain ⟨f, rest, h1, h3⟩ := hsh
    rw [h1] at hs
    simp only at hs
    split at hs
    · rename_i e he
      obtain ⟨m1, m2, m3, m4, k, m5⟩ := (h.frames w f (by simp [h1])).wait e he
      split at hs
      · rename_i hc
        simp only [Option.some.injEq] at hs
        subst hs
        left
        have hj : f.job = .wait f.prog := by simp [Frame.job, he]
        refine less_frame (t := {.run (f.prog.resume (s.evs e).outcome)}) (u := 0)
          (rest' := rest) hw h1 rfl rfl ?_ rfl ?_ ?_
        · rw [Worker.jobs_cons rfl]
          rfl
        · rw [add_zero]
          show sumTo (fun e' => evSum taskJobs (upd s.evs e _ e')) s.next = _
          apply sumTo_evs _ m1
          apply evSum_same <;> rfl
        · simp only [add_zero, Multiset.mem_singleton]
          rintro y rfl
          rw [hj, m5]
          exact .resume _ _ _ _ _
      · simp only [Option.some.injEq] at hs
        subst hs
        right
        exact ⟨.poll, none, rfl, by simp [hph, Phase.cyc], rfl⟩
    · rename_i he
      left
      have hj : f.job = .run f.prog := by simp [Frame.job, he]
      have hact : (s.evs f.task.1).status f.task.2 = .active w :=
        (h.active_iff w f.task.1 f.task.2).mp (by simp [h1])
      have hlt := h.lt_next (e := f.task.1) (i := f.task.2) (by simp [hact])
      have hend : ∀ r, Less (endTask s w f.task r rest) s := by
        intro r
        refine less_frame (t := 0) (u := 0) (rest' := rest) hw h1 rfl rfl ?_ rfl ?_ ?_
        · simp only [Worker.jobs, zero_add]
        · rw [add_zero]
          show sumTo (fun e' => evSum taskJobs (upd s.evs f.task.1 _ e')) s.next = _
          apply sumTo_evs _ hlt
          have := evSum_status (taskJobs (V := V) (E := E)) (ev := s.evs f.task.1)
            (ev' := { s.evs f.task.1 with
              status := upd (s.evs f.task.1).status f.task.2 .finished,
              res := upd (s.evs f.task.1).res f.task.2 (some r),
              doneQ := (s.evs f.task.1).doneQ ++ [f.task.2] }) rfl rfl rfl
            ((h.evs f.task.1).lt f.task.2 (by simp [hact]))
          rw [hact] at this
          exact add_right_cancel (show _ + (0 : Multiset (Job V E)) = _ + 0 from this)
        · simp
      split at hs
      · simp only [Option.some.injEq] at hs
        subst hs
        exact hend _
      · simp only [Option.some.injEq] at hs
        subst hs
        exact hend _
      · rename_i k hp
        simp only [Option.some.injEq] at hs
        subst hs
        refine less_frame (t := {.run k}) (u := 0) (rest' := rest) hw h1 rfl rfl ?_ rfl ?_ ?_
        · rw [Worker.jobs_cons rfl]
          simp [Frame.job, he]
        · rw [add_zero]; rfl
        · simp only [add_zero, Multiset.mem_singleton]
          rintro y rfl
          rw [hj, hp]
          exact .pause k
      · rename_i n deps body k hp
        simp only [Option.some.injEq] at hs
        subst hs
        refine less_frame (t := {.wait f.prog})
          (u := evSum taskJobs (enqueue s.next (List.range n) (Ev.begin (some w) n deps body) s.ready).1)
          (rest' := rest) hw h1 rfl rfl ?_ rfl ?_ ?_
        · rw [Worker.jobs_cons rfl]
          rfl
        · show sumTo (fun e' => evSum taskJobs (upd s.evs s.next _ e')) (s.next + 1) = _
          simp only [sumTo, upd_self]
          congr 1
          apply sumTo_congr
          intro i hi
          rw [upd_ne _ _ (by omega)]
        · intro y hy
          rw [hj]
          rcases Multiset.mem_add.mp hy with hy | hy
          · rw [Multiset.mem_singleton] at hy
            subst hy
            exact .wait _
          · rw [hp]
            exact begin_jobs _ _ _ _ _ _ _ k y hy

/-- The job of the main thread changes. -/
theorem less_main {s s' : State V E} {z : Job V E} {t u : Multiset (Job V E)} (hnw : s'.nw = s.nw)
    (hws : s'.workers = s.workers) (hz : mainJobs s.mainPhase s.mainWait s.main = {z})
    (hz' : mainJobs s'.mainPhase s'.mainWait s'.main = t)
    (hev : sumTo (fun e => evSum taskJobs (s'.evs e)) s'.next =
      sumTo (fun e => evSum taskJobs (s.evs e)) s.next + u)
    (ht : ∀ y ∈ t + u, Job.Lt y z) : Less s' s := by
  apply less_cut ht
  simp only [jobs, total, hnw, hws, hev, hz, hz']
  classical
  ext z
  simp only [Multiset.count_add]
  omega

theorem Inv.progress_main {p : Prog V E} {s s' : State V E} (h : Inv p s)
    (hs : Sched.stepMain s = some s') : Less s' s := by
  simp only [Sched.stepMain] at hs
  split at hs
  · simp at hs
  · rename_i i hp
    split at hs
    · rename_i hlt
      split at hs
      · split at hs
        · simp only [Option.some.injEq] at hs
          subst hs
          refine .inr ⟨?_, ?_⟩
          · simp only [jobs, hp, mainJobs]
            rfl
          · show total _ _ s + (_ + (s.nw - (i + 1) + 1)) < total _ _ s + (_ + s.mainPhase.weight s.nw)
            simp only [hp, MainPhase.weight]
            omega
        · simp at hs
      · rename_i hf
        simp only [Option.some.injEq] at hs
        subst hs
        right
        obtain ⟨h1, h2⟩ := only_worker (s := s)
          (s' := { s with workers := upd s.workers i { s.workers i with finished := true } })
          (x := { s.workers i with finished := true }) hlt rfl rfl rfl rfl rfl rfl rfl rfl
        refine ⟨h1, ?_⟩
        simp only [Worker.weight, hf] at h2
        simp at h2
        omega
    · rename_i hlt
      simp only [Option.some.injEq] at hs
      subst hs
      refine .inr ⟨?_, ?_⟩
      · simp only [jobs, hp, mainJobs]
        rfl
      · show total _ _ s + (_ + 0) < total _ _ s + (_ + s.mainPhase.weight s.nw)
        simp only [hp, MainPhase.weight]
        omega
  · rename_i hp
    split at hs
    · rename_i e he
      obtain ⟨m1, m2, m3, k, m5⟩ := h.main.wait e he
      have hz : mainJobs s.mainPhase s.mainWait s.main = {.wait s.main} := by
        simp only [hp, he, mainJobs]
      split at hs
      · simp only [Option.some.injEq] at hs
        subst hs
        refine less_main (z := .wait s.main) (t := {.run (s.main.resume (s.evs e).outcome)}) (u := 0)
          rfl rfl hz ?_ ?_ ?_
        · show mainJobs s.mainPhase none _ = _
          rw [hp]; rfl
        · rw [add_zero]
          show sumTo (fun e' => evSum taskJobs (upd s.evs e _ e')) s.next = _
          apply sumTo_evs _ m1
          apply evSum_same <;> rfl
        · simp only [add_zero, Multiset.mem_singleton]
          rintro y rfl
          rw [m5]
          exact .resume _ _ _ _ _
      · split at hs
        · simp at hs
        · rename_i i rest hq
          rcases h.takeDone_some hq with ⟨x, hx, ht⟩ | ⟨v, s1, hv, ht⟩
          · rw [ht] at hs
            simp only [Option.some.injEq] at hs
            subst hs
            refine less_main (z := .wait s.main) (t := {.run (s.main.resume (.raised x))}) (u := 0)
              rfl rfl hz ?_ ?_ ?_
            · show mainJobs s.mainPhase none _ = _
              rw [hp]; rfl
            · rw [add_zero]
              show sumTo (fun e' => evSum taskJobs (upd (upd s.evs e _) e _ e')) s.next = _
              rw [upd_upd]
              apply sumTo_evs _ m1
              rw [← took_jobs (h.evs e) hq]
              apply evSum_same <;> simp only [upd_self]
            · simp only [add_zero, Multiset.mem_singleton]
              rintro y rfl
              rw [m5]
              exact .resume _ _ _ _ _
          · rw [ht] at hs
            simp only [Option.some.injEq] at hs
            subst hs
            exact .inr (takeDone_less h m1 hq ht)
    · rename_i hw
      have hz : mainJobs s.mainPhase s.mainWait s.main = {.run s.main} := by
        simp only [hp, hw, mainJobs]
      split at hs <;> simp only [Option.some.injEq] at hs <;> subst hs
      · exact less_main (t := 0) (u := 0) rfl rfl hz rfl (by rw [add_zero]) (by simp)
      · exact less_main (t := 0) (u := 0) rfl rfl hz rfl (by rw [add_zero]) (by simp)
      · rename_i k hm
        refine less_main (t := {.run k}) (u := 0) rfl rfl hz ?_ (by rw [add_zero]) ?_
        · simp only [hp, hw, mainJobs]
        · simp only [add_zero, Multiset.mem_singleton]
          rintro y rfl
          rw [hm]
          exact .pause k
      · rename_i n deps body k hm
        refine less_main (t := {.wait s.main})
          (u := evSum taskJobs (enqueue s.next (List.range n) (Ev.begin none n deps body) s.ready).1)
          rfl rfl hz ?_ ?_ ?_
        · show mainJobs s.mainPhase (some s.next) s.main = _
          simp only [hp, mainJobs]
        · show sumTo (fun e' => evSum taskJobs (upd s.evs s.next _ e')) (s.next + 1) = _
          simp only [sumTo, upd_self]
          congr 1
          apply sumTo_congr
          intro i hi
          rw [upd_ne _ _ (by omega)]
        · intro y hy
          rcases Multiset.mem_add.mp hy with hy | hy
          · rw [Multiset.mem_singleton] at hy
            subst hy
            exact .wait _
          · rw [hm]
            exact begin_jobs _ _ _ _ _ _ _ k y hy

/-- Every step either is progress or one of a worker polling inside `_evaluate`. -/
theorem Inv.progress {p : Prog V E} {s s' : State V E} (h : Inv p s) {th : Thread}
    (hs : Sched.step s th = some s') : Less s' s ∨ ∃ w, th = .worker w ∧ Idle s s' w := by
  cases th with
  | main => exact .inl (h.progress_main hs)
  | worker w =>
    simp only [Sched.step] at hs
    split at hs
    · rename_i hw
      rcases h.progress_worker hw hs with h1 | h1
      · exact .inl h1
      · exact .inr ⟨w, rfl, h1⟩
    · simp at hs

end Verif.Sched
