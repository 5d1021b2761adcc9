import Verif.Sched.Progress

/-! # Under a fair schedule the main program comes to its end -/
namespace Verif.Sched

variable {V E : Type}

/-- An infinite execution from state `s`: at time `n` thread `sched n` moves if it can. -/
structure Exec (s : State V E) (sched : Nat → Thread) (σ : Nat → State V E) : Prop where
  start : σ 0 = s
  next : ∀ n, σ (n + 1) = (step (σ n) (sched n)).getD (σ n)

/-- A thread that is able to move again and again does move again and again. -/
def Fair (sched : Nat → Thread) (σ : Nat → State V E) : Prop :=
  ∀ th, (∀ n, ∃ m, n ≤ m ∧ (step (σ m) th).isSome = true) →
    ∀ n, ∃ m, n ≤ m ∧ sched m = th ∧ (step (σ m) th).isSome = true

theorem Exec.reach {nw : Nat} {p : Prog V E} {s : State V E} {sched : Nat → Thread} {σ : Nat → State V E}
    (hx : Exec s sched σ) (hr : Reach nw p s) (n : Nat) : Reach nw p (σ n) := by
  induction n with
  | zero => rw [hx.start]; exact hr
  | succ n ih =>
    rw [hx.next]
    cases hs : step (σ n) (sched n) with
    | none => exact ih
    | some s' => exact .step _ ih hs

theorem idle_jobs {s s' : State V E} {w : Nat} (hw : w < s.nw) (h : Idle s s' w) :
    jobs s' = jobs s ∧ weight s' = weight s := by
  obtain ⟨ph, l, rfl, h1, h2⟩ := h
  obtain ⟨a1, a2⟩ := only_worker (s := s) (s' := { s.phase w ph with lock := l })
    (x := { s.workers w with phase := ph }) hw rfl rfl rfl rfl rfl rfl rfl rfl
  refine ⟨a1, ?_⟩
  have hz : ∀ ph : Phase, ph.cyc = true → ph.weight = 0 := by
    intro ph h
    cases ph with
    | polled it => rfl
    | _ => simp_all [Phase.cyc, Phase.weight]
  have a3 := Nat.add_right_cancel (m := sentinels s.ready) a2
  simp only [Worker.weight, hz _ h1, hz _ h2] at a3
  exact Nat.add_right_cancel a3

/-- From some time on there is no progress. -/
theorem Exec.quiet {nw : Nat} {p : Prog V E} {s : State V E} {sched : Nat → Thread} {σ : Nat → State V E}
    (hx : Exec s sched σ) (hr : Reach nw p s) : ∃ N, ∀ n, N ≤ n → ¬ Less (σ (n + 1)) (σ n) := by
  obtain ⟨_, ⟨N, rfl⟩, hmin⟩ := Less.wf.has_min (Set.range σ) ⟨σ 0, 0, rfl⟩
  refine ⟨N, ?_⟩
  have same : ∀ n, N ≤ n → jobs (σ n) = jobs (σ N) ∧ weight (σ n) = weight (σ N) := by
    intro n hn
    induction n, hn using Nat.le_induction with
    | base => exact ⟨rfl, rfl⟩
    | succ n hn ih =>
      have hnx := hx.next n
      cases hs : step (σ n) (sched n) with
      | none => rw [hs] at hnx; rw [hnx]; exact ih
      | some s' =>
        rw [hs] at hnx
        rcases (hx.reach hr n).inv.progress hs with h | ⟨w, hth, h⟩
        · exfalso
          apply hmin (σ (n + 1)) ⟨n + 1, rfl⟩
          rw [hnx]
          simp only [Less, ih.1, ih.2, Option.getD_some] at h ⊢
          exact h
        · rw [hth] at hs
          have hw : w < (σ n).nw := by
            simp only [step] at hs
            split at hs
            · assumption
            · simp at hs
          obtain ⟨h1, h2⟩ := idle_jobs hw h
          rw [hnx]
          exact ⟨h1.trans ih.1, h2.trans ih.2⟩
  intro n hn h
  apply hmin (σ (n + 1)) ⟨n + 1, rfl⟩
  simp only [Less, (same n hn).1, (same n hn).2] at h ⊢
  exact h

/-- The steps that are not progress. -/
theorem idle_cases {p : Prog V E} {s s' : State V E} (h : Inv p s) {w : Nat} (hw : w < s.nw)
    (hs : Sched.stepWorker s w = some s') (hn : ¬ Less s' s) :
    ((s.workers w).phase = .code ∧ (s'.workers w).phase = .poll ∧ s'.lock = none ∧
      ∃ f rest e, (s.workers w).stack = f :: rest ∧ f.wait = some e ∧ (s.evs e).count ≠ 0) ∨
    ((s.workers w).phase = .poll ∧ (s'.workers w).phase = .polled none ∧ s.ready = []) ∨
    (((s.workers w).phase = .polled none ∨ (s.workers w).phase = .polled (some none)) ∧
      (s'.workers w).phase = .check) ∨
    ((s.workers w).phase = .check ∧ (s'.workers w).phase = .code ∧
      ∃ f rest e, (s.workers w).stack = f :: rest ∧ f.wait = some e ∧ (s.evs e).doneQ = []) := by
  have hpr := h.progress_worker hw hs
  have hidle : Idle s s' w := hpr.resolve_left hn
  obtain ⟨ph, l, hid, h1, h2⟩ := hidle
  have hsh := h.shape w
  have hph' : (s'.workers w).phase = ph := by rw [hid]; simp [State.phase, upd]
  have hevs : s'.evs = s.evs := by rw [hid]; rfl
  have hnext : s'.next = s.next := by rw [hid]; rfl
  have hlog : s'.log = s.log := by rw [hid]; rfl
  clear hid
  simp only [Sched.stepWorker] at hs
  split at hs
  · simp at hs
  · rename_i hp; rw [hp] at h1; simp [Phase.cyc] at h1
  · rename_i hp; rw [hp] at h1; simp [Phase.cyc] at h1
  · rename_i hp; rw [hp] at h1; simp [Phase.cyc] at h1
  · rename_i hp; rw [hp] at h1; simp [Phase.cyc] at h1
  · rename_i hp
    split at hs
    · rename_i hq
      simp only [Option.some.injEq] at hs
      subst hs
      exact .inr (.inl ⟨hp, by simp [State.phase, upd], hq⟩)
    · rename_i it q hq
      simp only [Option.some.injEq] at hs
      have := less_take h hw (ph := .polled (some it)) hq (by simp [hp, Phase.weight])
      rw [hs] at this
      exact absurd this hn
  · rename_i it hp
    split at hs
    · split at hs
      · rename_i t
        rw [hp] at h1; simp [Phase.cyc] at h1
      · rename_i hno
        simp only [Option.some.injEq] at hs
        subst hs
        refine .inr (.inr (.inl ⟨?_, by simp [State.phase, upd]⟩))
        rw [hp]
        cases it with
        | none => exact .inl rfl
        | some it =>
          cases it with
          | none => exact .inr rfl
          | some t => exact absurd rfl (hno t)
    · simp at hs
  · rename_i hp
    rw [hp] at hsh
    obtain ⟨f, rest, k1, k2, k3⟩ := hsh
    rw [k1] at hs
    simp only at hs
    split at hs
    · simp at hs
    · rename_i e he
      split at hs
      · rename_i hq
        simp only [Option.some.injEq] at hs
        subst hs
        exact .inr (.inr (.inr ⟨hp, by simp [State.phase, upd], f, rest, e, k1, he, hq⟩))
      · rename_i i dq hq
        exfalso
        obtain ⟨m1, m2, m3, m4, k, m5⟩ := (h.frames w f (by simp [k1])).wait e he
        -- the done queue is not the same any more
        have hd : (s'.evs e).doneQ = i :: dq := by rw [hevs]; exact hq
        rcases h.takeDone_some hq with ⟨x, hx, ht⟩ | ⟨v, s1, hv, ht⟩
        · rw [ht] at hs
          simp only [Option.some.injEq] at hs
          subst hs
          simp [State.frame, State.leave, upd_self, Ev.took] at hd
        · rw [ht] at hs
          simp only [Option.some.injEq] at hs
          rw [takeDone_eq, hv] at ht
          simp only [Option.some.injEq, Prod.mk.injEq, true_and] at ht
          subst ht
          subst hs
          obtain ⟨-, -, -, -, -, -, -, hdq⟩ := enqueue_begin_static e ((s.evs e).children i)
            { (s.evs e).took i dq with results := (s.evs e).results ++ [(i, v)] } s.ready
          simp only [State.phase, upd_self, hdq] at hd
          simp [Ev.took] at hd
  · rename_i hp
    rw [hp] at hsh
    obtain ⟨f, rest, k1, k3⟩ := hsh
    rw [k1] at hs
    simp only at hs
    split at hs
    · rename_i e he
      split at hs
      · exfalso
        simp only [Option.some.injEq] at hs
        subst hs
        have := congrArg List.length hlog
        simp [State.frame, State.leave] at this
      · rename_i hc
        simp only [Option.some.injEq] at hs
        subst hs
        exact .inl ⟨hp, by simp [State.phase, upd], rfl, f, rest, e, k1, he, hc⟩
    · rename_i he
      exfalso
      split at hs
      · simp only [Option.some.injEq] at hs
        subst hs
        have := congrArg List.length hlog
        simp [endTask] at this
      · simp only [Option.some.injEq] at hs
        subst hs
        have := congrArg List.length hlog
        simp [endTask] at this
      · simp only [Option.some.injEq] at hs
        subst hs
        simp [State.frame, State.phase, upd_self] at hph'
        rw [← hph'] at h2
        simp [Phase.cyc] at h2
      · simp only [Option.some.injEq] at hs
        subst hs
        simp [State.frame, spawn] at hnext

theorem main_blocked {p : Prog V E} {s : State V E} (h : Inv p s) (hc : s.mainPhase = .code)
    (hs : step s .main = none) :
    ∃ e, s.mainWait = some e ∧ (s.evs e).count ≠ 0 ∧ (s.evs e).doneQ = [] := by
  simp only [step, Sched.stepMain, hc] at hs
  split at hs
  · rename_i e he
    split at hs
    · simp at hs
    · rename_i hn
      split at hs
      · rename_i hq; exact ⟨e, he, hn, hq⟩
      · rename_i i rest hq
        rcases h.takeDone_some hq with ⟨x, hx, ht⟩ | ⟨v, s1, hv, ht⟩
        · rw [ht] at hs; simp at hs
        · rw [ht] at hs; simp at hs
  · split at hs <;> simp at hs

theorem main_blocked' {s : State V E} (hc : s.mainPhase = .code) {e : Nat}
    (h1 : s.mainWait = some e) (h2 : (s.evs e).count ≠ 0) (h3 : (s.evs e).doneQ = []) :
    step s .main = none := by
  simp [step, Sched.stepMain, hc, h1, h2, h3]

/-- when a worker can move -/
theorem worker_enabled {p : Prog V E} {s : State V E} (h : Inv p s) {w : Nat} (hw : w < s.nw)
    (hp : (s.workers w).phase = .top ∨ (s.workers w).phase = .code ∨ (s.workers w).phase = .check ∨
      (s.workers w).phase = .poll ∨ ((s.workers w).phase = .reading ∧ s.ready ≠ []) ∨
      (s.lock = none ∧ ((s.workers w).phase = .paused ∨ (∃ it, (s.workers w).phase = .took it) ∨
        ∃ it, (s.workers w).phase = .polled it))) :
    (step s (.worker w)).isSome = true := by
  have hsh := h.shape w
  simp only [step, hw, if_true, Sched.stepWorker]
  rcases hp with hp | hp | hp | hp | ⟨hp, hq⟩ | ⟨hl, hp | ⟨it, hp⟩ | ⟨it, hp⟩⟩
  · simp [hp]
  · rw [hp] at hsh
    obtain ⟨f, rest, k1, k3⟩ := hsh
    simp only [hp, k1]
    split
    · split <;> rfl
    · split <;> rfl
  · rw [hp] at hsh
    obtain ⟨f, rest, k1, k2, k3⟩ := hsh
    simp only [hp, k1]
    split
    · rename_i hx; rw [hx] at k2; simp at k2
    · split
      · rfl
      · rename_i i dq hq
        rcases h.takeDone_some hq with ⟨x, hx, ht⟩ | ⟨v, s1, hv, ht⟩
        · rw [ht]; rfl
        · rw [ht]; rfl
  · simp only [hp]
    split <;> rfl
  · simp only [hp]
    split
    · contradiction
    · rfl
  · simp [hp, hl]
  · simp only [hp, hl, if_true]
    split <;> rfl
  · simp only [hp, hl, if_true]
    split <;> rfl

/-- What stays while there is no progress. -/
structure Frozen (a b : State V E) : Prop where
  nw : b.nw = a.nw
  ready : b.ready = a.ready
  evs : b.evs = a.evs
  main : b.main = a.main
  mainWait : b.mainWait = a.mainWait
  mainPhase : b.mainPhase = a.mainPhase
  stack : ∀ w, (b.workers w).stack = (a.workers w).stack

theorem Frozen.refl (a : State V E) : Frozen a a := ⟨rfl, rfl, rfl, rfl, rfl, rfl, fun _ => rfl⟩

theorem Frozen.trans {a b c : State V E} (h : Frozen a b) (h' : Frozen b c) : Frozen a c :=
  ⟨h'.nw.trans h.nw, h'.ready.trans h.ready, h'.evs.trans h.evs, h'.main.trans h.main,
    h'.mainWait.trans h.mainWait, h'.mainPhase.trans h.mainPhase,
    fun w => (h'.stack w).trans (h.stack w)⟩

theorem Frozen.idle {a b : State V E} {w : Nat} (h : Idle a b w) : Frozen a b := by
  obtain ⟨ph, l, rfl, -, -⟩ := h
  refine ⟨rfl, rfl, rfl, rfl, rfl, rfl, ?_⟩
  intro w'
  by_cases e : w' = w
  · subst e; simp [State.phase, upd]
  · simp [State.phase, upd, e]

theorem sumTo_eq_zero {f : Nat → Nat} {n : Nat} (h : ∀ i, i < n → f i = 0) : sumTo f n = 0 := by
  induction n with
  | zero => rfl
  | succ n ih => simp only [sumTo, ih (fun i hi => h i (by omega)), h n (by omega)]

/-- The situation after the last progress, under a fair schedule. -/
structure Stuck (nw : Nat) (p : Prog V E) (sched : Nat → Thread) (σ : Nat → State V E) (N : Nat) : Prop where
  reach : ∀ n, Reach nw p (σ n)
  next : ∀ n, σ (n + 1) = (step (σ n) (sched n)).getD (σ n)
  fair : Fair sched σ
  code : ∀ n, (σ n).mainPhase = .code
  quiet : ∀ n, N ≤ n → ¬ Less (σ (n + 1)) (σ n)

namespace Stuck

variable {nw : Nat} {p : Prog V E} {sched : Nat → Thread} {σ : Nat → State V E} {N : Nat}

theorem nw_eq (h : Stuck nw p sched σ N) (n : Nat) : (σ n).nw = nw := (h.reach n).nw_eq

theorem cases (h : Stuck nw p sched σ N) {n : Nat} (hn : N ≤ n) :
    σ (n + 1) = σ n ∨ ∃ w, sched n = .worker w ∧ w < nw ∧
      Sched.stepWorker (σ n) w = some (σ (n + 1)) ∧ Idle (σ n) (σ (n + 1)) w := by
  have hnx := h.next n
  cases hs : step (σ n) (sched n) with
  | none => left; rw [hs] at hnx; exact hnx
  | some s' =>
    rw [hs] at hnx
    simp only [Option.getD_some] at hnx
    rw [← hnx] at hs
    rcases (h.reach n).inv.progress hs with h1 | ⟨w, hth, h1⟩
    · exact absurd h1 (h.quiet n hn)
    · right
      refine ⟨w, hth, ?_⟩
      rw [hth] at hs
      simp only [step] at hs
      split at hs
      · rename_i hw; exact ⟨h.nw_eq n ▸ hw, hs, h1⟩
      · simp at hs

theorem frozen (h : Stuck nw p sched σ N) {n : Nat} (hn : N ≤ n) : Frozen (σ N) (σ n) := by
  induction n, hn using Nat.le_induction with
  | base => exact .refl _
  | succ n hn ih =>
    rcases h.cases hn with h1 | ⟨w, -, -, -, h1⟩
    · rw [h1]; exact ih
    · exact ih.trans (.idle h1)

theorem stay (h : Stuck nw p sched σ N) {n : Nat} (hn : N ≤ n) {w : Nat}
    (hne : ((σ (n + 1)).workers w).phase ≠ ((σ n).workers w).phase) :
    w < nw ∧ Sched.stepWorker (σ n) w = some (σ (n + 1)) := by
  rcases h.cases hn with h1 | ⟨w', h0, h1, h2, h3⟩
  · rw [h1] at hne; exact absurd rfl hne
  · by_cases e : w = w'
    · subst e; exact ⟨h1, h2⟩
    · obtain ⟨ph, l, h4, -, -⟩ := h3
      rw [h4] at hne
      simp [State.phase, upd, e] at hne

/-- A worker that can move again and again while it stays in a phase moves on from it. -/
theorem move (h : Stuck nw p sched σ N) {n : Nat} (hn : N ≤ n) {w : Nat} (hw : w < nw)
    (hen : (∀ m, n ≤ m → ((σ m).workers w).phase = ((σ n).workers w).phase) →
      ∀ k, ∃ m, k ≤ m ∧ (step (σ m) (.worker w)).isSome = true) :
    ∃ m, n ≤ m ∧ ((σ m).workers w).phase = ((σ n).workers w).phase ∧
      Sched.stepWorker (σ m) w = some (σ (m + 1)) := by
  by_cases hall : ∀ m, n ≤ m → ((σ m).workers w).phase = ((σ n).workers w).phase
  · obtain ⟨m, hm, hsm, hen'⟩ := h.fair (.worker w) (hen hall) n
    refine ⟨m, hm, hall m hm, ?_⟩
    have hnx := h.next m
    rw [hsm] at hnx
    obtain ⟨s', hs'⟩ := Option.isSome_iff_exists.mp hen'
    rw [hs'] at hnx
    simp only [step, h.nw_eq m, hw, if_true] at hs'
    rw [hs', hnx]
    rfl
  · -- the first time the phase differs
    have hex : ∃ d, ((σ (n + d)).workers w).phase ≠ ((σ n).workers w).phase := by
      apply Classical.byContradiction
      intro hno
      apply hall
      intro m hm
      apply Classical.byContradiction
      intro hne
      apply hno
      exact ⟨m - n, by rw [Nat.add_sub_cancel' hm]; exact hne⟩
    classical
    let d := Nat.find hex
    have hd : ((σ (n + d)).workers w).phase ≠ ((σ n).workers w).phase := Nat.find_spec hex
    have hd0 : d ≠ 0 := by
      intro h0
      rw [h0] at hd
      exact hd rfl
    obtain ⟨c, hc⟩ := Nat.exists_eq_succ_of_ne_zero hd0
    have hprev : ((σ (n + c)).workers w).phase = ((σ n).workers w).phase := by
      apply Classical.byContradiction
      intro hne
      have := Nat.find_min' hex hne
      have : d ≤ c := this
      omega
    refine ⟨n + c, by omega, hprev, ?_⟩
    have hne : ((σ (n + c + 1)).workers w).phase ≠ ((σ (n + c)).workers w).phase := by
      rw [hprev]
      rw [hc] at hd
      exact hd
    exact (h.stay (by omega) hne).2

/-- … of a phase in which it can always move -/
theorem move_free (h : Stuck nw p sched σ N) {n : Nat} (hn : N ≤ n) {w : Nat} (hw : w < nw)
    (hp : ((σ n).workers w).phase = .top ∨ ((σ n).workers w).phase = .code ∨
      ((σ n).workers w).phase = .check ∨ ((σ n).workers w).phase = .poll ∨
      (((σ n).workers w).phase = .reading ∧ (σ n).ready ≠ [])) :
    ∃ m, n ≤ m ∧ ((σ m).workers w).phase = ((σ n).workers w).phase ∧
      Sched.stepWorker (σ m) w = some (σ (m + 1)) := by
  apply h.move hn hw
  intro hall k
  refine ⟨max n k, by omega, ?_⟩
  apply worker_enabled (h.reach _).inv (by rw [h.nw_eq]; exact hw)
  rw [hall (max n k) (by omega)]
  have hr : (σ (max n k)).ready = (σ n).ready :=
    (h.frozen (by omega)).ready.trans (h.frozen hn).ready.symm
  rw [hr]
  rcases hp with hp | hp | hp | hp | hp
  · exact .inl hp
  · exact .inr (.inl hp)
  · exact .inr (.inr (.inl hp))
  · exact .inr (.inr (.inr (.inl hp)))
  · exact .inr (.inr (.inr (.inr (.inl hp))))

theorem idle (h : Stuck nw p sched σ N) {m : Nat} (hm : N ≤ m) {w : Nat} (hw : w < nw)
    (hs : Sched.stepWorker (σ m) w = some (σ (m + 1))) :
    (((σ m).workers w).phase = .code ∧ ((σ (m + 1)).workers w).phase = .poll ∧ (σ (m + 1)).lock = none ∧
      ∃ f rest e, ((σ m).workers w).stack = f :: rest ∧ f.wait = some e ∧ ((σ m).evs e).count ≠ 0) ∨
    (((σ m).workers w).phase = .poll ∧ ((σ (m + 1)).workers w).phase = .polled none ∧ (σ m).ready = []) ∨
    ((((σ m).workers w).phase = .polled none ∨ ((σ m).workers w).phase = .polled (some none)) ∧
      ((σ (m + 1)).workers w).phase = .check) ∨
    (((σ m).workers w).phase = .check ∧ ((σ (m + 1)).workers w).phase = .code ∧
      ∃ f rest e, ((σ m).workers w).stack = f :: rest ∧ f.wait = some e ∧ ((σ m).evs e).doneQ = []) :=
  idle_cases (h.reach m).inv (by rw [h.nw_eq]; exact hw) hs (h.quiet m hm)

theorem code_poll (h : Stuck nw p sched σ N) {n : Nat} (hn : N ≤ n) {w : Nat} (hw : w < nw)
    (hp : ((σ n).workers w).phase = .code) :
    ∃ m, n ≤ m ∧ ((σ m).workers w).phase = .poll ∧ (σ m).lock = none ∧
      ∃ f rest e, ((σ N).workers w).stack = f :: rest ∧ f.wait = some e ∧ ((σ N).evs e).count ≠ 0 := by
  obtain ⟨m, hm, hpm, hs⟩ := h.move_free hn hw (.inr (.inl hp))
  rw [hp] at hpm
  have hfz := h.frozen (show N ≤ m by omega)
  rcases h.idle (by omega) hw hs with ⟨-, a1, a2, f, rest, e, a3, a4, a5⟩ | ⟨a, -⟩ | ⟨a, -⟩ | ⟨a, -⟩
  · rw [hfz.stack] at a3
    rw [hfz.evs] at a5
    exact ⟨m + 1, by omega, a1, a2, f, rest, e, a3, a4, a5⟩
  · rw [hpm] at a; simp at a
  · rw [hpm] at a; simp at a
  · rw [hpm] at a; simp at a

theorem check_code (h : Stuck nw p sched σ N) {n : Nat} (hn : N ≤ n) {w : Nat} (hw : w < nw)
    (hp : ((σ n).workers w).phase = .check) :
    ∃ m, n ≤ m ∧ ((σ m).workers w).phase = .code ∧
      ∃ f rest e, ((σ N).workers w).stack = f :: rest ∧ f.wait = some e ∧ ((σ N).evs e).doneQ = [] := by
  obtain ⟨m, hm, hpm, hs⟩ := h.move_free hn hw (.inr (.inr (.inl hp)))
  rw [hp] at hpm
  have hfz := h.frozen (show N ≤ m by omega)
  rcases h.idle (by omega) hw hs with ⟨a, -⟩ | ⟨a, -⟩ | ⟨a, -⟩ | ⟨-, a1, f, rest, e, a3, a4, a5⟩
  · rw [hpm] at a; simp at a
  · rw [hpm] at a; simp at a
  · rw [hpm] at a; simp at a
  · rw [hfz.stack] at a3
    rw [hfz.evs] at a5
    exact ⟨m + 1, by omega, a1, f, rest, e, a3, a4, a5⟩

/-- The lock is free again and again. -/
theorem unlocked (h : Stuck nw p sched σ N) {n : Nat} (hn : N ≤ n) : ∃ m, n ≤ m ∧ (σ m).lock = none := by
  cases hl : (σ n).lock with
  | none => exact ⟨n, Nat.le_refl _, hl⟩
  | some w =>
    have hlk := ((h.reach n).inv.lock_iff w).mp hl
    have hw : w < nw := by
      apply Classical.byContradiction
      intro hge
      have := (h.reach n).inv.outside w (by rw [h.nw_eq]; omega)
      rw [this] at hlk
      simp [Phase.locked] at hlk
    have : ((σ n).workers w).phase = .code ∨ ((σ n).workers w).phase = .check := by
      revert hlk
      cases ((σ n).workers w).phase <;> simp [Phase.locked]
    rcases this with hp | hp
    · obtain ⟨m, hm, -, h1, -⟩ := h.code_poll hn hw hp
      exact ⟨m, hm, h1⟩
    · obtain ⟨m, hm, hp', -⟩ := h.check_code hn hw hp
      obtain ⟨m', hm', -, h1, -⟩ := h.code_poll (by omega) hw hp'
      exact ⟨m', by omega, h1⟩

/-- … of a phase in which it can move when the lock is free -/
theorem move_lock (h : Stuck nw p sched σ N) {n : Nat} (hn : N ≤ n) {w : Nat} (hw : w < nw)
    (hp : ((σ n).workers w).phase = .paused ∨ (∃ it, ((σ n).workers w).phase = .took it) ∨
        ∃ it, ((σ n).workers w).phase = .polled it) :
    ∃ m, n ≤ m ∧ ((σ m).workers w).phase = ((σ n).workers w).phase ∧
      Sched.stepWorker (σ m) w = some (σ (m + 1)) := by
  apply h.move hn hw
  intro hall k
  obtain ⟨m, hm, hl⟩ := h.unlocked (show N ≤ max n k by omega)
  refine ⟨m, by omega, ?_⟩
  apply worker_enabled (h.reach _).inv (by rw [h.nw_eq]; exact hw)
  rw [hall m (by omega)]
  exact .inr (.inr (.inr (.inr (.inr ⟨hl, hp⟩))))

/-- Every worker waits for a task, or polls. -/
theorem phases (h : Stuck nw p sched σ N) {n : Nat} (hn : N ≤ n) {w : Nat} (hw : w < nw) :
    ((σ n).workers w).phase = .reading ∨ ((σ n).workers w).phase = .code ∨
    ((σ n).workers w).phase = .poll ∨ ((σ n).workers w).phase = .polled none ∨
    ((σ n).workers w).phase = .check := by
  have hlate := (((h.reach n).side.quiet (h.code n)).2 w).2
  have contra : (∃ m, n ≤ m ∧ ((σ m).workers w).phase = ((σ n).workers w).phase ∧
      Sched.stepWorker (σ m) w = some (σ (m + 1))) →
      ((σ n).workers w).phase.cyc = true := by
    rintro ⟨m, hm, hpm, hs⟩
    rw [← hpm]
    rcases h.idle (by omega) hw hs with ⟨a, -⟩ | ⟨a, -⟩ | ⟨a | a, -⟩ | ⟨a, -⟩ <;> rw [a] <;> rfl
  cases hp : ((σ n).workers w).phase with
  | top =>
    have := contra (h.move_free hn hw (.inl hp))
    rw [hp] at this; simp [Phase.cyc] at this
  | reading => simp
  | took it =>
    have := contra (h.move_lock hn hw (.inr (.inl ⟨it, hp⟩)))
    rw [hp] at this; simp [Phase.cyc] at this
  | code => simp
  | paused =>
    have := contra (h.move_lock hn hw (.inl hp))
    rw [hp] at this; simp [Phase.cyc] at this
  | poll => simp
  | polled it =>
    cases it with
    | none => simp
    | some it =>
      cases it with
      | none => rw [hp] at hlate; simp [Phase.late] at hlate
      | some t =>
        have := contra (h.move_lock hn hw (.inr (.inr ⟨_, hp⟩)))
        rw [hp] at this; simp [Phase.cyc] at this
  | check => simp
  | ended => rw [hp] at hlate; simp [Phase.late] at hlate

/-- A polling worker waits for an evaluation without finished tasks, and the ready queue is empty. -/
theorem polling (h : Stuck nw p sched σ N) {w : Nat} (hw : w < nw)
    (hp : ((σ N).workers w).phase ≠ .reading) :
    (σ N).ready = [] ∧ ∃ f rest e, ((σ N).workers w).stack = f :: rest ∧ f.wait = some e ∧
      ((σ N).evs e).count ≠ 0 ∧ ((σ N).evs e).doneQ = [] := by
  have fromCode : ∀ n, N ≤ n → ((σ n).workers w).phase = .code →
      (σ N).ready = [] ∧ ∃ f rest e, ((σ N).workers w).stack = f :: rest ∧ f.wait = some e ∧
      ((σ N).evs e).count ≠ 0 ∧ ((σ N).evs e).doneQ = [] := by
    intro n hn hc
    obtain ⟨m1, hm1, p1, -, f, rest, e, a1, a2, a3⟩ := h.code_poll hn hw hc
    obtain ⟨m2, hm2, q2, hs2⟩ := h.move_free (show N ≤ m1 by omega) hw (.inr (.inr (.inr (.inl p1))))
    rw [p1] at q2
    obtain ⟨p3, hready⟩ : ((σ (m2 + 1)).workers w).phase = .polled none ∧ (σ m2).ready = [] := by
      rcases h.idle (by omega) hw hs2 with ⟨a, -⟩ | ⟨-, a, b⟩ | ⟨a, -⟩ | ⟨a, -⟩
      · rw [q2] at a; simp at a
      · exact ⟨a, b⟩
      · rw [q2] at a; simp at a
      · rw [q2] at a; simp at a
    obtain ⟨m4, hm4, q4, hs4⟩ := h.move_lock (show N ≤ m2 + 1 by omega) hw (.inr (.inr ⟨_, p3⟩))
    rw [p3] at q4
    have p5 : ((σ (m4 + 1)).workers w).phase = .check := by
      rcases h.idle (by omega) hw hs4 with ⟨a, -⟩ | ⟨a, -⟩ | ⟨-, a⟩ | ⟨a, -⟩
      · rw [q4] at a; simp at a
      · rw [q4] at a; simp at a
      · exact a
      · rw [q4] at a; simp at a
    obtain ⟨m6, hm6, p6, f', rest', e', b1, b2, b3⟩ := h.check_code (show N ≤ m4 + 1 by omega) hw p5
    rw [a1] at b1
    simp only [List.cons.injEq] at b1
    obtain ⟨rfl, rfl⟩ := b1
    rw [a2] at b2
    simp only [Option.some.injEq] at b2
    subst b2
    refine ⟨?_, f, rest, e, a1, a2, a3, b3⟩
    rw [← (h.frozen (show N ≤ m2 by omega)).ready]; exact hready
  rcases h.phases (Nat.le_refl N) hw with q | q | q | q | q
  · exact absurd q hp
  · exact fromCode N (Nat.le_refl _) q
  · obtain ⟨m2, hm2, q2, hs2⟩ := h.move_free (Nat.le_refl N) hw (.inr (.inr (.inr (.inl q))))
    rw [q] at q2
    have p3 : ((σ (m2 + 1)).workers w).phase = .polled none := by
      rcases h.idle (by omega) hw hs2 with ⟨a, -⟩ | ⟨-, a, b⟩ | ⟨a, -⟩ | ⟨a, -⟩
      · rw [q2] at a; simp at a
      · exact a
      · rw [q2] at a; simp at a
      · rw [q2] at a; simp at a
    obtain ⟨m4, hm4, q4, hs4⟩ := h.move_lock (show N ≤ m2 + 1 by omega) hw (.inr (.inr ⟨_, p3⟩))
    rw [p3] at q4
    have p5 : ((σ (m4 + 1)).workers w).phase = .check := by
      rcases h.idle (by omega) hw hs4 with ⟨a, -⟩ | ⟨a, -⟩ | ⟨-, a⟩ | ⟨a, -⟩
      · rw [q4] at a; simp at a
      · rw [q4] at a; simp at a
      · exact a
      · rw [q4] at a; simp at a
    obtain ⟨m6, hm6, p6, -⟩ := h.check_code (show N ≤ m4 + 1 by omega) hw p5
    exact fromCode m6 (by omega) p6
  · obtain ⟨m4, hm4, q4, hs4⟩ := h.move_lock (Nat.le_refl N) hw (.inr (.inr ⟨_, q⟩))
    rw [q] at q4
    have p5 : ((σ (m4 + 1)).workers w).phase = .check := by
      rcases h.idle (by omega) hw hs4 with ⟨a, -⟩ | ⟨a, -⟩ | ⟨-, a⟩ | ⟨a, -⟩
      · rw [q4] at a; simp at a
      · rw [q4] at a; simp at a
      · exact a
      · rw [q4] at a; simp at a
    obtain ⟨m6, hm6, p6, -⟩ := h.check_code (show N ≤ m4 + 1 by omega) hw p5
    exact fromCode m6 (by omega) p6
  · obtain ⟨m6, hm6, p6, -⟩ := h.check_code (Nat.le_refl N) hw q
    exact fromCode m6 (by omega) p6

theorem ready_nil (h : Stuck nw p sched σ N) (hnw : 1 ≤ nw) : (σ N).ready = [] := by
  apply Classical.byContradiction
  intro hne
  by_cases hp : ((σ N).workers 0).phase = .reading
  · obtain ⟨m, hm, hpm, hs⟩ := h.move_free (Nat.le_refl N) (w := 0) (by omega)
      (.inr (.inr (.inr (.inr ⟨hp, hne⟩))))
    rw [hp] at hpm
    rcases h.idle (by omega) (by omega) hs with ⟨a, -⟩ | ⟨a, -⟩ | ⟨a | a, -⟩ | ⟨a, -⟩ <;>
      (rw [hpm] at a; simp at a)
  · exact hne (h.polling (by omega) hp).1

theorem main_waits (h : Stuck nw p sched σ N) : ∃ e, (σ N).mainWait = some e ∧
    ((σ N).evs e).count ≠ 0 ∧ ((σ N).evs e).doneQ = [] := by
  apply main_blocked (h.reach N).inv (h.code N)
  apply Classical.byContradiction
  intro hne
  have hen : ∀ n, N ≤ n → (step (σ n) .main).isSome = true := by
    intro n hn
    apply Classical.byContradiction
    intro hno
    have hno' : step (σ n) .main = none := by
      cases hs : step (σ n) .main with
      | none => rfl
      | some s' => rw [hs] at hno; simp at hno
    obtain ⟨e, h1, h2, h3⟩ := main_blocked (h.reach n).inv (h.code n) hno'
    have hfz := h.frozen hn
    rw [hfz.mainWait] at h1
    rw [hfz.evs] at h2 h3
    exact hne (main_blocked' (h.code N) h1 h2 h3)
  obtain ⟨m, hm, hsm, hs⟩ := h.fair .main (fun n => ⟨max n N, by omega, hen _ (by omega)⟩) N
  obtain ⟨s', hs'⟩ := Option.isSome_iff_exists.mp hs
  have hnx := h.next m
  rw [hsm, hs'] at hnx
  have := (h.reach m).inv.progress_main hs'
  rw [show s' = σ (m + 1) from hnx.symm] at this
  exact h.quiet m hm this

/-- some thread is inside `_evaluate` with this activation -/
def Waited (s : State V E) (nw : Nat) (e : Nat) : Prop :=
  s.mainWait = some e ∨ ∃ w, w < nw ∧ ∃ f ∈ (s.workers w).stack, f.wait = some e

theorem waited_lt (h : Stuck nw p sched σ N) {e : Nat} (he : Waited (σ N) nw e) : e < (σ N).next := by
  rcases he with h1 | ⟨w, -, f, h1, h2⟩
  · exact ((h.reach N).inv.main.wait e h1).1
  · exact (((h.reach N).inv.frames w f h1).wait e h2).1

theorem no_wait (h : Stuck nw p sched σ N) (hnw : 1 ≤ nw) (d : Nat) : ∀ e, (σ N).next ≤ e + d →
    ¬ Waited (σ N) nw e := by
  induction d with
  | zero =>
    intro e hd he
    have := h.waited_lt he
    omega
  | succ d ih =>
    intro e hd he
    have inv := (h.reach N).inv
    have hmax : ∀ e', e < e' → ¬ Waited (σ N) nw e' := fun e' hlt => ih e' (by omega)
    have hready := h.ready_nil hnw
    -- what the thread waiting for it knows
    have hcnt : ((σ N).evs e).count ≠ 0 ∧ ((σ N).evs e).doneQ = [] := by
      rcases he with h1 | ⟨w, hw, f, h1, h2⟩
      · obtain ⟨e', a1, a2, a3⟩ := h.main_waits
        rw [h1] at a1
        simp only [Option.some.injEq] at a1
        subst a1
        exact ⟨a2, a3⟩
      · have hp : ((σ N).workers w).phase ≠ .reading := by
          intro hp
          have := inv.shape w
          rw [hp] at this
          have : ((σ N).workers w).stack = [] := this
          rw [this] at h1
          simp at h1
        obtain ⟨-, f0, rest, e0, b1, b2, b3, b4⟩ := h.polling hw hp
        have hy := inv.younger w
        rw [b1] at h1 hy
        rcases List.mem_cons.mp h1 with rfl | h1
        · rw [h2] at b2
          simp only [Option.some.injEq] at b2
          subst b2
          exact ⟨b3, b4⟩
        · have hlt : e < e0 := (List.pairwise_cons.mp hy).1 f h1 e0 b2 e h2
          exact absurd (.inr ⟨w, hw, f0, by simp [b1], b2⟩) (hmax e0 hlt)
    obtain ⟨c1, c2⟩ := hcnt
    have hex : ∃ i, i < ((σ N).evs e).n ∧ (((σ N).evs e).status i).outstanding ≠ 0 := by
      apply Classical.byContradiction
      intro hno
      apply c1
      rw [(inv.evs e).count]
      apply sumTo_eq_zero
      intro i hi
      apply Classical.byContradiction
      intro hne
      exact hno ⟨i, hi, hne⟩
    obtain ⟨i, hi, ho⟩ := hex
    have hphase : ∀ w, ((σ N).workers w).phase.holds = none := by
      intro w
      by_cases hw : w < nw
      · rcases h.phases (Nat.le_refl N) hw with q | q | q | q | q <;> rw [q] <;> rfl
      · rw [inv.outside w (by rw [h.nw_eq]; omega)]; rfl
    cases hst : ((σ N).evs e).status i with
    | new => rw [hst] at ho; simp [Status.outstanding] at ho
    | queued =>
      have := (inv.ready_iff e i).mpr hst
      rw [hready] at this
      simp at this
    | held w =>
      have := (inv.held_iff w e i).mpr hst
      rw [hphase w] at this
      simp at this
    | active w =>
      have hm := (inv.active_iff w e i).mpr hst
      obtain ⟨f, hf, hft⟩ := List.mem_map.mp hm
      have hw : w < nw := by
        apply Classical.byContradiction
        intro hge
        have h1 := inv.outside w (by rw [h.nw_eq]; omega)
        have h2 := inv.shape w
        rw [h1] at h2
        have h2 : ((σ N).workers w).stack = [] := h2
        rw [h2] at hf
        simp at hf
      have hp : ((σ N).workers w).phase ≠ .reading := by
        intro hp
        have h2 := inv.shape w
        rw [hp] at h2
        have h2 : ((σ N).workers w).stack = [] := h2
        rw [h2] at hf
        simp at hf
      obtain ⟨-, f0, rest, e0, b1, b2, -, -⟩ := h.polling hw hp
      have hbelow : Below rest := by
        have h2 := inv.shape w
        rcases h.phases (Nat.le_refl N) hw with q | q | q | q | q
        · exact absurd q hp
        · rw [q] at h2
          obtain ⟨f', rest', k1, k2⟩ := h2
          rw [b1] at k1; simp only [List.cons.injEq] at k1; rw [k1.2]; exact k2
        · rw [q] at h2
          obtain ⟨f', rest', k1, -, k2⟩ := h2
          rw [b1] at k1; simp only [List.cons.injEq] at k1; rw [k1.2]; exact k2
        · rw [q] at h2
          obtain ⟨f', rest', k1, -, k2⟩ := h2
          rw [b1] at k1; simp only [List.cons.injEq] at k1; rw [k1.2]; exact k2
        · rw [q] at h2
          obtain ⟨f', rest', k1, -, k2⟩ := h2
          rw [b1] at k1; simp only [List.cons.injEq] at k1; rw [k1.2]; exact k2
      have hwait : ∃ e', f.wait = some e' := by
        have hf' := hf
        rw [b1] at hf'
        rcases List.mem_cons.mp hf' with rfl | hf'
        · exact ⟨e0, b2⟩
        · exact Option.isSome_iff_exists.mp (hbelow f hf')
      obtain ⟨e', he'⟩ := hwait
      have := ((inv.frames w f hf).wait e' he').2.2.2.1
      rw [hft] at this
      exact hmax e' this (.inr ⟨w, hw, f, hf, he'⟩)
    | finished =>
      have := ((inv.evs e).doneQ_iff i).mpr hst
      rw [c2] at this
      simp at this
    | processed => rw [hst] at ho; simp [Status.outstanding] at ho

end Stuck

/-- Under a fair schedule the main program is left. -/
theorem Exec.leaves {nw : Nat} {p : Prog V E} {s : State V E} {sched : Nat → Thread} {σ : Nat → State V E}
    (hx : Exec s sched σ) (hr : Reach nw p s) (hf : Fair sched σ) (hnw : 1 ≤ nw) :
    ∃ n, (σ n).mainPhase ≠ .code := by
  apply Classical.byContradiction
  intro hno
  obtain ⟨N, hN⟩ := hx.quiet hr
  have hst : Stuck nw p sched σ N :=
    ⟨hx.reach hr, hx.next, hf, fun n => Classical.byContradiction (fun h => hno ⟨n, h⟩), hN⟩
  obtain ⟨e, h1, -⟩ := hst.main_waits
  exact hst.no_wait hnw (σ N).next e (by omega) (.inl h1)

end Verif.Sched
