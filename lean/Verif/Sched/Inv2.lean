import Verif.Sched.Inv

/-! # The invariant: beginning and leaving an evaluation -/
namespace Verif.Sched

variable {V E : Type}

theorem Inv.build {p : Prog V E} {s s' : State V E} (h : Inv p s) (hnw : s'.nw = s.nw)
    (hlock : s'.lock = s.lock)
    (hph : ∀ w, (s'.workers w).phase.holds = (s.workers w).phase.holds ∧
      (s'.workers w).phase.locked = (s.workers w).phase.locked)
    (hout : ∀ w, s.nw ≤ w → (s'.workers w).phase = (s.workers w).phase)
    (htask : ∀ w, (s'.workers w).stack.map Frame.task = (s.workers w).stack.map Frame.task)
    (hst : ∀ e i w, ((s'.evs e).status i = .held w ↔ (s.evs e).status i = .held w) ∧
      ((s'.evs e).status i = .active w ↔ (s.evs e).status i = .active w))
    (evs : ∀ e, EvOk (s'.evs e))
    (fresh : ∀ e, s'.next ≤ e → (s'.evs e).n = 0 ∧ (s'.evs e).live = false)
    (ready_iff : ∀ e i, some (e, i) ∈ s'.ready ↔ (s'.evs e).status i = .queued)
    (ready_nodup : (s'.ready.filterMap id).Nodup)
    (shape : ∀ w, Shape (s'.workers w).phase (s'.workers w).stack)
    (frames : ∀ w, ∀ f ∈ (s'.workers w).stack, FrameOk s'.next s'.evs w f)
    (younger : ∀ w, (s'.workers w).stack.Pairwise Younger)
    (main : MainOk p s'.next s'.evs s'.main s'.mainWait)
    (live_main : ∀ e, (s'.evs e).live = true → (s'.evs e).owner = none → s'.mainWait = some e)
    (live_worker : ∀ e w, (s'.evs e).live = true → (s'.evs e).owner = some w →
      ∃ f ∈ (s'.workers w).stack, f.wait = some e) : Inv p s' where
  evs := evs
  fresh := fresh
  ready_iff := ready_iff
  ready_nodup := ready_nodup
  held_iff w e i := by rw [(hph w).1, (hst e i w).1]; exact h.held_iff w e i
  active_iff w e i := by rw [htask, (hst e i w).2]; exact h.active_iff w e i
  active_nodup w := by rw [htask]; exact h.active_nodup w
  shape := shape
  outside w hw := by
    rw [hnw] at hw
    rw [hout w hw]
    exact h.outside w hw
  lock_iff w := by rw [hlock, (hph w).2]; exact h.lock_iff w
  frames := frames
  younger := younger
  main := main
  live_main := live_main
  live_worker := live_worker

/-- The top frame of a worker in `code` is replaced, keeping its task. -/
theorem Inv.frame {p : Prog V E} {s : State V E} (h : Inv p s) {w : Nat} (hw : w < s.nw)
    {f g : Frame V E} {rest : List (Frame V E)}
    (hph : (s.workers w).phase = .code)
    (hs : (s.workers w).stack = f :: rest) (ht : g.task = f.task) (hfw : f.wait = none)
    (hgw : g.wait = none) (hb : Below rest) (hd : ∀ r, Den g.prog r → Den f.prog r) :
    Inv p { s.frame w .paused g rest with lock := none } := by
  have hfm : f ∈ (s.workers w).stack := by simp [hs]
  refine ⟨h.evs, h.fresh, h.ready_iff, h.ready_nodup, ?_, ?_, ?_, ?_, ?_, ?_, ?_, ?_, h.main,
    h.live_main, ?_⟩
  · intro w' e i
    simp only [State.frame]
    rw [← h.held_iff]
    by_cases ew : w' = w
    · subst ew; simp [upd_self, hph, Phase.holds]
    · simp only [upd_ne _ _ ew]
  · intro w' e i
    simp only [State.frame]
    rw [← h.active_iff]
    by_cases ew : w' = w
    · subst ew; simp [upd_self, hs, ht]
    · simp only [upd_ne _ _ ew]
  · intro w'
    simp only [State.frame]
    have := h.active_nodup w'
    by_cases ew : w' = w
    · subst ew; simpa [upd_self, hs, ht] using this
    · simpa only [upd_ne _ _ ew] using this
  · intro w'
    simp only [State.frame]
    by_cases ew : w' = w
    · subst ew; simp only [upd_self]; exact ⟨g, rest, rfl, hgw, hb⟩
    · simp only [upd_ne _ _ ew]; exact h.shape w'
  · intro w' hw'
    have ew : w' ≠ w := by
      have : s.nw ≤ w' := hw'
      omega
    simp only [State.frame, upd_ne _ _ ew]; exact h.outside w' hw'
  · exact h.lock_release (by rw [hph]; rfl) rfl
  · intro w' f' hf'
    simp only [State.frame] at hf'
    by_cases ew : w' = w
    · subst ew
      simp only [upd_self, List.mem_cons] at hf'
      rcases hf' with rfl | hf'
      · have := h.frames w' f hfm
        refine ⟨by rw [ht]; exact this.task_lt, by simp [hgw], ?_⟩
        intro r hr
        rw [ht]
        exact this.sound r (hd r hr)
      · exact h.frames w' f' (by simp [hs, hf'])
    · simp only [upd_ne _ _ ew] at hf'
      exact h.frames w' f' hf'
  · intro w'
    simp only [State.frame]
    have := h.younger w'
    by_cases ew : w' = w
    · subst ew
      rw [hs, List.pairwise_cons] at this
      simp only [upd_self, List.pairwise_cons]
      exact ⟨fun x _ => by simp [Younger, hgw], this.2⟩
    · simpa only [upd_ne _ _ ew] using this
  · intro e w' h1 h2
    obtain ⟨f', hf', hfe⟩ := h.live_worker e w' h1 h2
    refine ⟨f', ?_, hfe⟩
    simp only [State.frame]
    by_cases ew : w' = w
    · subst ew
      rw [hs, List.mem_cons] at hf'
      rcases hf' with rfl | hf'
      · simp [hfw] at hfe
      · simp [upd_self, hf']
    · simpa only [upd_ne _ _ ew] using hf'

/-! ## Beginning an evaluation -/

/-- the evaluation as it is before the first task is queued -/
def Ev.begin (owner : Option Nat) (n : Nat) (deps : Nat → List Nat) (body : Nat → Prog V E) : Ev V E :=
  ⟨n, deps, body, fun _ => .new, fun _ => none, [], 0, [], true, owner⟩

theorem Ev.begin_ok (owner : Option Nat) (n : Nat) (deps : Nat → List Nat) (body : Nat → Prog V E)
    (e : Nat) (q : List Item) :
    EvOk (enqueue e (List.range n) (Ev.begin owner n deps body) q).1 := by
  apply EvOk0.enqueue'
  · refine ⟨?_, ?_, ?_, ?_, ?_, ?_, ?_, ?_, ?_, ?_, ?_, ?_, ?_⟩ <;> simp [Ev.begin]
    induction n with
    | zero => rfl
    | succ n ih => simp only [sumTo]; rw [← ih]; rfl
  · intro i hi; exact List.mem_range.mp hi
  · rfl
  · intro i hi hn
    exact absurd (List.mem_range.mpr hi) hn

theorem spawn_eq (s : State V E) (owner : Option Nat) (n : Nat) (deps : Nat → List Nat)
    (body : Nat → Prog V E) :
    spawn s owner n deps body = { s with
      evs := upd s.evs s.next (enqueue s.next (List.range n) (Ev.begin owner n deps body) s.ready).1
      ready := (enqueue s.next (List.range n) (Ev.begin owner n deps body) s.ready).2
      next := s.next + 1 } := rfl

theorem enqueue_begin_static (e : Nat) (is : List Nat) (ev : Ev V E) (q : List Item) :
    (enqueue e is ev q).1.n = ev.n ∧ (enqueue e is ev q).1.deps = ev.deps ∧
    (enqueue e is ev q).1.body = ev.body ∧ (enqueue e is ev q).1.live = ev.live ∧
    (enqueue e is ev q).1.owner = ev.owner ∧ (enqueue e is ev q).1.results = ev.results ∧
    (enqueue e is ev q).1.res = ev.res ∧ (enqueue e is ev q).1.doneQ = ev.doneQ := by
  obtain ⟨st, c, h⟩ := enqueue_static e is ev q
  rw [h]
  simp

/-- What `spawn` does to statuses and the ready queue. -/
theorem Inv.spawn_core {p : Prog V E} {s : State V E} (h : Inv p s) (owner : Option Nat) (n : Nat)
    (deps : Nat → List Nat) (body : Nat → Prog V E) :
    let s1 := spawn s owner n deps body
    (∀ e i w, ((s1.evs e).status i = .held w ↔ (s.evs e).status i = .held w) ∧
      ((s1.evs e).status i = .active w ↔ (s.evs e).status i = .active w)) ∧
    (∀ e, EvOk (s1.evs e)) ∧
    (∀ e, s1.next ≤ e → (s1.evs e).n = 0 ∧ (s1.evs e).live = false) ∧
    (∀ e i, some (e, i) ∈ s1.ready ↔ (s1.evs e).status i = .queued) ∧
    (s1.ready.filterMap id).Nodup ∧
    (∀ e, e ≠ s.next → s1.evs e = s.evs e) ∧
    ((s1.evs s.next).n = n ∧ (s1.evs s.next).deps = deps ∧ (s1.evs s.next).body = body ∧
      (s1.evs s.next).live = true ∧ (s1.evs s.next).owner = owner) := by
  intro s1
  have hs1 : s1 = _ := spawn_eq s owner n deps body
  have hne : ∀ e, e ≠ s.next → s1.evs e = s.evs e := by
    intro e he; rw [hs1]; simp only [upd_ne _ _ he]
  have hself : s1.evs s.next =
      (enqueue s.next (List.range n) (Ev.begin owner n deps body) s.ready).1 := by
    rw [hs1]; simp only [upd_self]
  have hnew : ∀ i, (s.evs s.next).status i = .new := by
    intro i
    apply Classical.byContradiction
    intro hx
    exact absurd (h.lt_next hx) (Nat.lt_irrefl _)
  have hstatus : ∀ i, (s1.evs s.next).status i = .queued ∨ (s1.evs s.next).status i = .new := by
    intro i
    rw [hself, enqueue_status]
    split
    · exact .inl rfl
    · exact .inr rfl
  refine ⟨?_, ?_, ?_, ?_, ?_, hne, ?_⟩
  · intro e i w
    by_cases he : e = s.next
    · subst he
      rw [hnew i]
      rcases hstatus i with hx | hx <;> rw [hx] <;> simp
    · rw [hne e he]; simp
  · intro e
    by_cases he : e = s.next
    · subst he; rw [hself]; exact Ev.begin_ok _ _ _ _ _ _
    · rw [hne e he]; exact h.evs e
  · intro e he
    have h1 : s1.next = s.next + 1 := by rw [hs1]
    have he' : e ≠ s.next := by omega
    rw [hne e he']
    exact h.fresh e (by omega)
  · intro e i
    have h1 : s1.ready = (enqueue s.next (List.range n) (Ev.begin owner n deps body) s.ready).2 := by
      rw [hs1]
    rw [h1, enqueue_mem]
    by_cases he : e = s.next
    · subst he
      rw [hself, enqueue_status, h.ready_iff, hnew i]
      constructor
      · rintro (hx | ⟨j, h1, h2, h3⟩)
        · simp at hx
        · simp only [Option.some.injEq, Prod.mk.injEq, true_and] at h1
          subst h1
          rw [if_pos ⟨h2, h3⟩]
      · intro hx
        right
        refine ⟨i, rfl, ?_⟩
        apply Classical.byContradiction
        intro hc
        rw [if_neg hc] at hx
        simp [Ev.begin] at hx
    · rw [hne e he, h.ready_iff]
      constructor
      · rintro (hx | ⟨j, h1, h2, h3⟩)
        · exact hx
        · simp only [Option.some.injEq, Prod.mk.injEq] at h1
          exact absurd h1.1 he
      · exact .inl
  · have h1 : s1.ready = (enqueue s.next (List.range n) (Ev.begin owner n deps body) s.ready).2 := by
      rw [hs1]
    rw [h1]
    apply enqueue_nodup _ _ _ _ h.ready_nodup
    intro i hi
    rw [h.ready_iff, hnew i] at hi
    simp at hi
  · rw [hself]
    obtain ⟨h1, h2, h3, h4, h5, -⟩ := enqueue_begin_static s.next (List.range n)
      (Ev.begin owner n deps body) s.ready
    rw [h1, h2, h3, h4, h5]
    exact ⟨rfl, rfl, rfl, rfl, rfl⟩

/-- The main thread begins an evaluation. -/
theorem Inv.spawn_main {p : Prog V E} {s : State V E} (h : Inv p s) {n : Nat} {deps : Nat → List Nat}
    {body : Nat → Prog V E} {k : EvalOut V E → Prog V E} (hm : s.main = .eval n deps body k)
    (hw : s.mainWait = none) :
    Inv p { spawn s none n deps body with mainWait := some s.next } := by
  obtain ⟨c1, c2, c3, c4, c5, c6, c7⟩ := h.spawn_core none n deps body
  have hlt : ∀ e, e < s.next → ((spawn s none n deps body).evs e).n = (s.evs e).n ∧
      ((spawn s none n deps body).evs e).deps = (s.evs e).deps ∧
      ((spawn s none n deps body).evs e).body = (s.evs e).body := by
    intro e he
    rw [c6 e (by omega)]; simp
  refine h.build rfl rfl (fun _ => ⟨rfl, rfl⟩) (fun _ _ => rfl) (fun _ => rfl) c1 c2 c3 c4 c5 h.shape
    ?_ h.younger ?_ ?_ ?_
  · intro w f hf
    apply (h.frames w f hf).mono (Nat.le_succ _) hlt
    intro e he
    have := ((h.frames w f hf).wait e he).1
    rw [c6 e (by omega)]; simp
  · refine ⟨?_, h.main.sound⟩
    intro e he
    simp only [Option.some.injEq] at he
    subst he
    obtain ⟨d1, d2, d3, d4, d5⟩ := c7
    exact ⟨Nat.lt_succ_self _, d4, d5, k, by simp only; rw [d1, d2, d3]; exact hm⟩
  · intro e h1 h2
    by_cases he : e = s.next
    · rw [he]
    · simp only at h1 h2
      rw [c6 e he] at h1 h2
      have := h.live_main e h1 h2
      rw [hw] at this
      simp at this
  · intro e w h1 h2
    by_cases he : e = s.next
    · subst he
      rw [show _ = none from c7.2.2.2.2] at h2
      simp at h2
    · simp only at h1 h2
      rw [c6 e he] at h1 h2
      exact h.live_worker e w h1 h2

/-- A worker begins an evaluation. -/
theorem Inv.spawn_worker {p : Prog V E} {s : State V E} (h : Inv p s) {w : Nat} (hw : w < s.nw)
    {f : Frame V E} {rest : List (Frame V E)}
    (hph : (s.workers w).phase = .code)
    (hs : (s.workers w).stack = f :: rest) (hfw : f.wait = none) (hb : Below rest)
    {n : Nat} {deps : Nat → List Nat}
    {body : Nat → Prog V E} {k : EvalOut V E → Prog V E} (hm : f.prog = .eval n deps body k) :
    Inv p ((spawn s (some w) n deps body).frame w .code { f with wait := some s.next } rest) := by
  have hfm : f ∈ (s.workers w).stack := by simp [hs]
  have hff := h.frames w f hfm
  obtain ⟨c1, c2, c3, c4, c5, c6, c7⟩ := h.spawn_core (some w) n deps body
  have hlt : ∀ e, e < s.next → ((spawn s (some w) n deps body).evs e).n = (s.evs e).n ∧
      ((spawn s (some w) n deps body).evs e).deps = (s.evs e).deps ∧
      ((spawn s (some w) n deps body).evs e).body = (s.evs e).body := by
    intro e he
    rw [c6 e (by omega)]; simp
  have hold : ∀ w' g, g ∈ (s.workers w').stack →
      FrameOk (s.next + 1) (spawn s (some w) n deps body).evs w' g := by
    intro w' g hg
    apply (h.frames w' g hg).mono (Nat.le_succ _) hlt
    intro e he
    have := ((h.frames w' g hg).wait e he).1
    rw [c6 e (by omega)]; simp
  have hwk : ∀ w', w' ≠ w → ((spawn s (some w) n deps body).frame w .code
      { f with wait := some s.next } rest).workers w' = s.workers w' := by
    intro w' ew
    simp only [State.frame, upd_ne _ _ ew]; rfl
  have hwk' : ((spawn s (some w) n deps body).frame w .code
      { f with wait := some s.next } rest).workers w =
      { s.workers w with phase := .code, stack := { f with wait := some s.next } :: rest } := by
    simp only [State.frame, upd_self]; rfl
  refine h.build rfl rfl ?_ ?_ ?_ c1 c2 c3 c4 c5 ?_ ?_ ?_ ?_ ?_ ?_
  · intro w'
    by_cases ew : w' = w
    · subst ew; rw [hwk', hph]; exact ⟨rfl, rfl⟩
    · rw [hwk w' ew]; exact ⟨rfl, rfl⟩
  · intro w' hw'
    rw [hwk w' (by omega)]
  · intro w'
    by_cases ew : w' = w
    · subst ew; rw [hwk', hs]; rfl
    · rw [hwk w' ew]
  · intro w'
    by_cases ew : w' = w
    · subst ew; rw [hwk']; exact ⟨_, _, rfl, hb⟩
    · rw [hwk w' ew]; exact h.shape w'
  · intro w' g hg
    by_cases ew : w' = w
    · subst ew
      rw [hwk'] at hg
      simp only [List.mem_cons] at hg
      rcases hg with rfl | hg
      · refine ⟨Nat.lt_succ_of_lt hff.task_lt, ?_, ?_⟩
        · intro e he
          simp only [Option.some.injEq] at he
          subst he
          obtain ⟨d1, d2, d3, d4, d5⟩ := c7
          refine ⟨Nat.lt_succ_self _, d4, d5, hff.task_lt, k, ?_⟩
          simp only [State.frame]
          rw [d1, d2, d3]; exact hm
        · intro r hr
          simp only [State.frame]
          rw [show _ = (s.evs f.task.1).body from (hlt _ hff.task_lt).2.2]
          exact hff.sound r hr
      · exact hold w' g (by simp [hs, hg])
    · rw [hwk w' ew] at hg
      exact hold w' g hg
  · intro w'
    have hy := h.younger w'
    by_cases ew : w' = w
    · subst ew
      rw [hwk']
      rw [hs, List.pairwise_cons] at hy
      simp only [List.pairwise_cons]
      refine ⟨?_, hy.2⟩
      intro g hg a ha b hb
      simp only [Option.some.injEq] at ha
      subst ha
      exact ((h.frames w' g (by simp [hs, hg])).wait b hb).1
    · rw [hwk w' ew]; exact hy
  · apply h.main.mono (Nat.le_succ _) hlt
    intro e he
    have := (h.main.wait e he).1
    rw [c6 e (by omega)]; simp
  · intro e h1 h2
    simp only [State.frame] at h1 h2
    by_cases he : e = s.next
    · subst he
      rw [show _ = some w from c7.2.2.2.2] at h2
      simp at h2
    · rw [show _ = s.evs e from c6 e he] at h1 h2
      exact h.live_main e h1 h2
  · intro e w' h1 h2
    simp only [State.frame] at h1 h2
    by_cases he : e = s.next
    · subst he
      rw [show _ = some w from c7.2.2.2.2] at h2
      simp only [Option.some.injEq] at h2
      subst h2
      exact ⟨_, by rw [hwk']; exact List.mem_cons_self, rfl⟩
    · rw [show _ = s.evs e from c6 e he] at h1 h2
      obtain ⟨g, hg, hge⟩ := h.live_worker e w' h1 h2
      by_cases ew : w' = w
      · subst ew
        rw [hs, List.mem_cons] at hg
        rcases hg with rfl | hg
        · rw [hfw] at hge; simp at hge
        · exact ⟨g, by rw [hwk']; exact List.mem_cons_of_mem _ hg, hge⟩
      · exact ⟨g, by rw [hwk w' ew]; exact hg, hge⟩

/-! ## A finished task is processed -/

theorem takeDone_eq (s : State V E) (e i : Nat) (rest : List Nat) :
    takeDone s e i rest = match (s.evs e).res i with
      | none => none
      | some (.error x) => some (some x, { s with evs := upd s.evs e ((s.evs e).took i rest) })
      | some (.ok v) => some (none, { s with
          evs := upd s.evs e (enqueue e ((s.evs e).children i)
            { (s.evs e).took i rest with results := (s.evs e).results ++ [(i, v)] } s.ready).1
          ready := (enqueue e ((s.evs e).children i)
            { (s.evs e).took i rest with results := (s.evs e).results ++ [(i, v)] } s.ready).2 }) := by
  simp only [takeDone]
  split <;> rename_i hx <;> simp only [hx] <;> rfl

/-- … which had a result -/
theorem Inv.takeDone_ok {p : Prog V E} {s s1 : State V E} (h : Inv p s) {e i : Nat} {rest : List Nat}
    (hl : (s.evs e).live = true) (hq : (s.evs e).doneQ = i :: rest)
    (ht : takeDone s e i rest = some (none, s1)) : Inv p s1 ∧ s1.workers = s.workers ∧ s1.nw = s.nw ∧
      s1.lock = s.lock := by
  rw [takeDone_eq] at ht
  split at ht
  · simp at ht
  · simp at ht
  · rename_i v hv
    simp only [Option.some.injEq, Prod.mk.injEq, true_and] at ht
    subst ht
    refine ⟨?_, rfl, rfl, rfl⟩
    have hok := (h.evs e).took_enqueue hl hq hv e s.ready
    obtain ⟨t1, t2, t3, t4, t5, -⟩ := enqueue_begin_static e ((s.evs e).children i)
      { (s.evs e).took i rest with results := (s.evs e).results ++ [(i, v)] } s.ready
    have hstatus := enqueue_status e ((s.evs e).children i)
      { (s.evs e).took i rest with results := (s.evs e).results ++ [(i, v)] } s.ready
    have hmem := enqueue_mem e ((s.evs e).children i)
      { (s.evs e).took i rest with results := (s.evs e).results ++ [(i, v)] } s.ready
    have hnd := enqueue_nodup e ((s.evs e).children i)
      { (s.evs e).took i rest with results := (s.evs e).results ++ [(i, v)] } s.ready h.ready_nodup
    have hst2 : ∀ j, (∃ j' ∈ (s.evs e).children i, j' = j ∧ Ev.canRun { (s.evs e).took i rest with
          results := (s.evs e).results ++ [(i, v)] } j' = true) ∧
          (enqueue e ((s.evs e).children i) { (s.evs e).took i rest with
            results := (s.evs e).results ++ [(i, v)] } s.ready).1.status j = .queued ∧
          (s.evs e).status j = .new ∧ j ≠ i ∨
        (¬ ∃ j' ∈ (s.evs e).children i, j' = j ∧ Ev.canRun { (s.evs e).took i rest with
          results := (s.evs e).results ++ [(i, v)] } j' = true) ∧
          (enqueue e ((s.evs e).children i) { (s.evs e).took i rest with
            results := (s.evs e).results ++ [(i, v)] } s.ready).1.status j =
            upd (s.evs e).status i .processed j := by
      intro j
      by_cases hc : j ∈ (s.evs e).children i ∧ Ev.canRun { (s.evs e).took i rest with
          results := (s.evs e).results ++ [(i, v)] } j = true
      · left
        have h1 := ((canRun_iff _ _).mp hc.2).1
        have hne : j ≠ i := by
          rintro rfl
          simp [Ev.took, upd] at h1
        refine ⟨⟨j, hc.1, rfl, hc.2⟩, ?_, by simpa [Ev.took, upd_ne _ _ hne] using h1, hne⟩
        rw [hstatus, if_pos hc]
      · right
        refine ⟨?_, ?_⟩
        · rintro ⟨j', h1, rfl, h2⟩
          exact hc ⟨h1, h2⟩
        · rw [hstatus, if_neg hc]; rfl
    clear hstatus
    generalize hE : enqueue e ((s.evs e).children i)
      { (s.evs e).took i rest with results := (s.evs e).results ++ [(i, v)] } s.ready = E' at *
    have hf : (s.evs e).status i = .finished := ((h.evs e).doneQ_iff i).mp (by simp [hq])
    have hstatic := static_upd (evs := s.evs) (e0 := e) (ev := E'.1) ⟨t1, t2, t3⟩
    have hlive := live_upd (evs := s.evs) (e0 := e) (ev := E'.1) ⟨t4, t5⟩
    simp only [Ev.took] at hnd
    refine h.build rfl rfl (fun _ => ⟨rfl, rfl⟩) (fun _ _ => rfl) (fun _ => rfl) ?_ ?_ ?_ ?_ ?_ h.shape
      ?_ h.younger ?_ ?_ ?_
    · intro e' i' w
      by_cases ee : e' = e
      · subst ee
        simp only [upd_self]
        rcases hst2 i' with ⟨-, h1, h2, -⟩ | ⟨-, h1⟩
        · rw [h1, h2]; simp
        · rw [h1]
          by_cases ei : i' = i
          · subst ei; simp [upd, hf]
          · simp [upd_ne _ _ ei]
      · simp [upd_ne _ _ ee]
    · intro e'
      by_cases ee : e' = e
      · subst ee; simp only [upd_self]; exact hok
      · simp only [upd_ne _ _ ee]; exact h.evs e'
    · intro e' he'
      simp only
      rw [(hstatic e').1, (hlive e').1]
      exact h.fresh e' he'
    · intro e' i'
      simp only
      rw [hmem]
      by_cases ee : e' = e
      · subst ee
        simp only [upd_self]
        rcases hst2 i' with ⟨⟨j', h1, rfl, h2⟩, h3, h4, -⟩ | ⟨hnc, h1⟩
        · exact ⟨fun _ => h3, fun _ => .inr ⟨j', rfl, h1, h2⟩⟩
        · rw [h1]
          constructor
          · rintro (hx | ⟨j, g1, g2, g3⟩)
            · have hx' := (h.ready_iff _ _).mp hx
              by_cases ei : i' = i
              · subst ei; rw [hf] at hx'; simp at hx'
              · rw [upd_ne _ _ ei]; exact hx'
            · simp only [Option.some.injEq, Prod.mk.injEq, true_and] at g1
              subst g1
              exact absurd ⟨_, g2, rfl, g3⟩ hnc
          · intro hx
            by_cases ei : i' = i
            · subst ei; simp [upd] at hx
            · rw [upd_ne _ _ ei] at hx
              exact .inl ((h.ready_iff _ _).mpr hx)
      · rw [upd_ne _ _ ee, ← h.ready_iff]
        constructor
        · rintro (hx | ⟨j, h1, -⟩)
          · exact hx
          · simp only [Option.some.injEq, Prod.mk.injEq] at h1
            exact absurd h1.1 ee
        · exact .inl
    · apply hnd
      intro j hj
      have := (h.ready_iff _ _).mp hj
      by_cases ei : j = i
      · subst ei; simp [upd]
      · rw [upd_ne _ _ ei, this]; simp
    · intro w f hf
      exact (h.frames w f hf).mono (Nat.le_refl _) (fun e _ => hstatic e) (fun e _ => hlive e)
    · exact h.main.mono (Nat.le_refl _) (fun e _ => hstatic e) (fun e _ => hlive e)
    · intro e' h1 h2
      simp only at h1 h2
      rw [(hlive e').1] at h1
      rw [(hlive e').2] at h2
      exact h.live_main e' h1 h2
    · intro e' w h1 h2
      simp only at h1 h2
      rw [(hlive e').1] at h1
      rw [(hlive e').2] at h2
      exact h.live_worker e' w h1 h2

/-! ## Leaving an evaluation -/

/-- The statuses that matter to others do not change when an evaluation is left. -/
structure LeaveOk (s : State V E) (e : Nat) (ev' : Ev V E) (out : EvalOut V E) : Prop where
  ok : EvOk ev'
  static : ev'.n = (s.evs e).n ∧ ev'.deps = (s.evs e).deps ∧ ev'.body = (s.evs e).body
  dead : ev'.live = false
  owner : ev'.owner = (s.evs e).owner
  status : ∀ i, ev'.status i = (s.evs e).status i ∨
    ((s.evs e).status i = .finished ∧ ev'.status i = .processed)
  outcome : Outcome (s.evs e).n (s.evs e).deps (fun i => Den ((s.evs e).body i)) out

theorem Inv.leave_count {p : Prog V E} {s : State V E} (h : Inv p s) {e : Nat}
    (hl : (s.evs e).live = true) (hc : (s.evs e).count = 0) :
    LeaveOk s e { s.evs e with live := false } (s.evs e).outcome where
  ok := (h.evs e).toEvOk0.leave
  static := ⟨rfl, rfl, rfl⟩
  dead := rfl
  owner := rfl
  status _ := .inl rfl
  outcome := (h.evs e).outcome hl hc

theorem Inv.leave_raised {p : Prog V E} {s : State V E} (h : Inv p s) {e i : Nat} {rest : List Nat}
    {x : E} (hl : (s.evs e).live = true) (hq : (s.evs e).doneQ = i :: rest)
    (hx : (s.evs e).res i = some (.error x)) :
    LeaveOk s e { (s.evs e).took i rest with live := false } (.raised x) where
  ok := (h.evs e).toEvOk0.took_leave hq
  static := ⟨rfl, rfl, rfl⟩
  dead := rfl
  owner := rfl
  status j := by
    have hf : (s.evs e).status i = .finished := ((h.evs e).doneQ_iff i).mp (by simp [hq])
    by_cases ej : j = i
    · subst ej; right; simp [Ev.took, upd, hf]
    · left; simp [Ev.took, upd, ej]
  outcome := by
    have hf : (s.evs e).status i = .finished := ((h.evs e).doneQ_iff i).mp (by simp [hq])
    refine ⟨(s.evs e).results, i, (h.evs e).toEvOk0.runs, (h.evs e).lt i (by simp [hf]), ?_,
      (h.evs e).sound i _ hx⟩
    intro d hd hdn
    exact (h.evs e).deps_done i (by simp [hf]) d (by simp [Ev.depsOf, hd, hdn])

theorem Den.resume {pr : Prog V E} {n : Nat} {deps : Nat → List Nat} {body : Nat → Prog V E}
    {k : EvalOut V E → Prog V E} {out : EvalOut V E} (hp : pr = .eval n deps body k)
    (ho : Outcome n deps (fun i => Den (body i)) out) {r : Except E V} (hr : Den (pr.resume out) r) :
    Den pr r := by
  subst hp
  exact ⟨out, ho, hr⟩

theorem Inv.leave_core {p : Prog V E} {s : State V E} (h : Inv p s) {e : Nat} {ev' : Ev V E}
    {out : EvalOut V E} (hl : LeaveOk s e ev' out) :
    (∀ a i w, ((upd s.evs e ev' a).status i = .held w ↔ (s.evs a).status i = .held w) ∧
      ((upd s.evs e ev' a).status i = .active w ↔ (s.evs a).status i = .active w)) ∧
    (∀ a, EvOk (upd s.evs e ev' a)) ∧
    (∀ a, s.next ≤ a → (upd s.evs e ev' a).n = 0 ∧ (upd s.evs e ev' a).live = false) ∧
    (∀ a i, some (a, i) ∈ s.ready ↔ (upd s.evs e ev' a).status i = .queued) := by
  refine ⟨?_, ?_, ?_, ?_⟩
  · intro a i w
    by_cases ea : a = e
    · subst ea
      simp only [upd_self]
      rcases hl.status i with hx | ⟨h1, h2⟩
      · rw [hx]; simp
      · rw [h1, h2]; simp
    · simp [upd_ne _ _ ea]
  · intro a
    by_cases ea : a = e
    · subst ea; simp only [upd_self]; exact hl.ok
    · simp only [upd_ne _ _ ea]; exact h.evs a
  · intro a ha
    have := h.fresh a ha
    by_cases ea : a = e
    · subst ea
      simp only [upd_self]
      exact ⟨hl.static.1.trans this.1, hl.dead⟩
    · simp only [upd_ne _ _ ea]; exact this
  · intro a i
    rw [h.ready_iff]
    by_cases ea : a = e
    · subst ea
      simp only [upd_self]
      rcases hl.status i with hx | ⟨h1, h2⟩
      · rw [hx]
      · rw [h1, h2]; simp
    · simp [upd_ne _ _ ea]

/-- The main thread leaves the evaluation. -/
theorem Inv.leave_main {p : Prog V E} {s : State V E} (h : Inv p s) {e : Nat} {ev' : Ev V E}
    {out : EvalOut V E} (hl : LeaveOk s e ev' out) (hw : s.mainWait = some e)
    {lg : List (Note V E)} :
    Inv p { s with evs := upd s.evs e ev', main := s.main.resume out, mainWait := none, log := lg } := by
  obtain ⟨c1, c2, c3, c4⟩ := h.leave_core hl
  obtain ⟨m1, m2, m3, k, m4⟩ := h.main.wait e hw
  have hstatic := static_upd (evs := s.evs) hl.static
  refine h.build rfl rfl (fun _ => ⟨rfl, rfl⟩) (fun _ _ => rfl) (fun _ => rfl) c1 c2 c3 c4
    h.ready_nodup h.shape ?_ h.younger ?_ ?_ ?_
  · intro w f hf
    apply (h.frames w f hf).mono (Nat.le_refl _) (fun a _ => hstatic a)
    intro a ha
    have hne : a ≠ e := by
      rintro rfl
      have := ((h.frames w f hf).wait a ha).2.2.1
      rw [m3] at this; simp at this
    simp [upd_ne _ _ hne]
  · refine ⟨by simp, ?_⟩
    intro r hr
    exact h.main.sound r (Den.resume m4 hl.outcome hr)
  · intro a h1 h2
    by_cases ea : a = e
    · subst ea
      simp only [upd_self, hl.dead] at h1
      simp at h1
    · simp only [upd_ne _ _ ea] at h1 h2
      have := h.live_main a h1 h2
      rw [hw] at this
      simp at this
      exact absurd this.symm ea
  · intro a w h1 h2
    by_cases ea : a = e
    · subst ea
      simp only [upd_self, hl.dead] at h1
      simp at h1
    · simp only [upd_ne _ _ ea] at h1 h2
      exact h.live_worker a w h1 h2

/-- A worker leaves the evaluation. -/
theorem Inv.leave_worker {p : Prog V E} {s : State V E} (h : Inv p s) {w : Nat} (hw : w < s.nw)
    {e : Nat} {ev' : Ev V E}
    {out : EvalOut V E} (hl : LeaveOk s e ev' out)
    {f : Frame V E} {rest : List (Frame V E)}
    (hph : (s.workers w).phase = .code ∨ (s.workers w).phase = .check)
    (hs : (s.workers w).stack = f :: rest) (hfw : f.wait = some e) (hb : Below rest)
    {lg : List (Note V E)} :
    Inv p ({ s with evs := upd s.evs e ev', log := lg }.frame w .code
      { f with prog := f.prog.resume out, wait := none } rest) := by
  have hfm : f ∈ (s.workers w).stack := by simp [hs]
  have hff := h.frames w f hfm
  obtain ⟨m1, m2, m3, m3', k, m4⟩ := hff.wait e hfw
  obtain ⟨c1, c2, c3, c4⟩ := h.leave_core hl
  have hstatic := static_upd (evs := s.evs) hl.static
  have hy := h.younger w
  rw [hs, List.pairwise_cons] at hy
  -- nobody else waits for this evaluation
  have hother : ∀ w' g, g ∈ (s.workers w').stack → g.wait = some e → w' = w ∧ g ∉ rest := by
    intro w' g hg hge
    have h1 := ((h.frames w' g hg).wait e hge).2.2.1
    rw [m3] at h1
    simp only [Option.some.injEq] at h1
    refine ⟨h1.symm, fun hr => ?_⟩
    have := hy.1 g hr e hfw e hge
    omega
  have hwk : ∀ w', w' ≠ w → ({ s with evs := upd s.evs e ev', log := lg }.frame w .code
      { f with prog := f.prog.resume out, wait := none } rest).workers w' = s.workers w' := by
    intro w' ew
    simp only [State.frame, upd_ne _ _ ew]
  have hwk' : ({ s with evs := upd s.evs e ev', log := lg }.frame w .code
      { f with prog := f.prog.resume out, wait := none } rest).workers w =
      { s.workers w with
        phase := .code, stack := { f with prog := f.prog.resume out, wait := none } :: rest } := by
    simp only [State.frame, upd_self]
  refine h.build rfl rfl ?_ ?_ ?_ c1 c2 c3 c4 h.ready_nodup ?_ ?_ ?_ ?_ ?_ ?_
  · intro w'
    by_cases ew : w' = w
    · subst ew
      rw [hwk']
      rcases hph with hph | hph <;> rw [hph] <;> exact ⟨rfl, rfl⟩
    · rw [hwk w' ew]; exact ⟨rfl, rfl⟩
  · intro w' hw'
    rw [hwk w' (by omega)]
  · intro w'
    by_cases ew : w' = w
    · subst ew; rw [hwk', hs]; rfl
    · rw [hwk w' ew]
  · intro w'
    by_cases ew : w' = w
    · subst ew; rw [hwk']; exact ⟨_, _, rfl, hb⟩
    · rw [hwk w' ew]; exact h.shape w'
  · intro w' g hg
    have hold : ∀ w' g, g ∈ (s.workers w').stack → g.wait ≠ some e →
        FrameOk s.next (upd s.evs e ev') w' g := by
      intro w' g hg hge
      apply (h.frames w' g hg).mono (Nat.le_refl _) (fun a _ => hstatic a)
      intro a ha
      have hne : a ≠ e := by
        rintro rfl
        exact hge ha
      simp [upd_ne _ _ hne]
    by_cases ew : w' = w
    · subst ew
      rw [hwk'] at hg
      simp only [List.mem_cons] at hg
      rcases hg with rfl | hg
      · refine ⟨hff.task_lt, by simp, ?_⟩
        intro r hr
        simp only [State.frame]
        rw [(hstatic _).2.2]
        exact hff.sound r (Den.resume m4 hl.outcome hr)
      · have hg' : g ∈ (s.workers w').stack := by simp [hs, hg]
        exact hold w' g hg' (fun hx => (hother w' g hg' hx).2 hg)
    · rw [hwk w' ew] at hg
      exact hold w' g hg (fun hx => ew (hother w' g hg hx).1)
  · intro w'
    by_cases ew : w' = w
    · subst ew
      rw [hwk']
      simp only [List.pairwise_cons]
      exact ⟨fun g _ => by simp [Younger], hy.2⟩
    · rw [hwk w' ew]; exact h.younger w'
  · apply h.main.mono (Nat.le_refl _) (fun a _ => hstatic a)
    intro a ha
    have hne : a ≠ e := by
      rintro rfl
      have := (h.main.wait a ha).2.2.1
      rw [m3] at this; simp at this
    simp [upd_ne _ _ hne]
  · intro a h1 h2
    simp only [State.frame] at h1 h2
    by_cases ea : a = e
    · subst ea
      simp only [upd_self, hl.dead] at h1
      simp at h1
    · simp only [upd_ne _ _ ea] at h1 h2
      exact h.live_main a h1 h2
  · intro a w' h1 h2
    simp only [State.frame] at h1 h2
    by_cases ea : a = e
    · subst ea
      simp only [upd_self, hl.dead] at h1
      simp at h1
    · simp only [upd_ne _ _ ea] at h1 h2
      obtain ⟨g, hg, hge⟩ := h.live_worker a w' h1 h2
      by_cases ew : w' = w
      · subst ew
        rw [hs, List.mem_cons] at hg
        rcases hg with rfl | hg
        · rw [hfw] at hge
          simp at hge
          exact absurd hge.symm ea
        · exact ⟨g, by rw [hwk']; exact List.mem_cons_of_mem _ hg, hge⟩
      · exact ⟨g, by rw [hwk w' ew]; exact hg, hge⟩

end Verif.Sched
