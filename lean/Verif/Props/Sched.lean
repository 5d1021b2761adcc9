import Verif.Sched.Side
import Verif.Sched.Graph

/-!
# Properties of the scheduler (C26-C29, C31-C34)

`Reach nw p s`: state `s` occurs when the main program `p` runs on a scheduler with `nw` threads, under
some schedule.  `s.result` is the result of the main program, `s.log` the history.
-/
namespace Verif.Sched

variable {V E S : Type}

/-- the caller returns what it made of the list, or lets the exception pass -/
def finish (pack : List V → V) : Except E (List V) → Prog V E
  | .ok vs => .ret (pack vs)
  | .error x => .raise x

/-! ## C26 -/

/-- The task computes `v`: it returns nothing else and does not raise. -/
def Computes (p : Prog V E) (v : V) : Prop := ∀ r, Den p r → r = .ok v

theorem computes_map (lp : List (S × S) → E) {f : S → Prog V E} {g : S → V} {srcs : List S}
    (pack : List V → V) (hf : ∀ s ∈ srcs, Computes (f s) (g s)) :
    Computes (mapP lp f srcs (finish pack)) (pack (srcs.map g)) := by
  intro r hr
  rcases (den_map lp f srcs _ r).mp hr with ⟨vs, h1, h2, h3⟩ | ⟨s, hs, x, h1, -⟩
  · have : vs = srcs.map g := by
      apply List.ext_getElem
      · simp [h1]
      · intro i hi hi'
        have hs : i < srcs.length := by omega
        have hm : (srcs[i], vs[i]) ∈ srcs.zip vs :=
          List.mem_iff_getElem.mpr ⟨i, by simp; omega, by simp⟩
        have := hf srcs[i] (List.getElem_mem hs) _ (h2 _ hm)
        simpa using this
    subst this
    exact h3
  · have := hf s hs _ h1
    simp at this

/-- C26: `map(f, srcs)` gives the results in the order of the sources, for every number of threads and
every schedule. -/
theorem C26_map (lp : List (S × S) → E) (f : S → Prog V E) (g : S → V) (srcs : List S)
    (pack : List V → V) (hf : ∀ s ∈ srcs, Computes (f s) (g s)) {nw : Nat} {s : State V E}
    (h : Reach nw (mapP lp f srcs (finish pack)) s) {r : Except E V} (hr : s.result = some r) :
    r = .ok (pack (srcs.map g)) :=
  computes_map lp pack hf r (h.result hr)

/-- Maps nested to any depth, in the shape of a tree. -/
inductive Tree (V : Type) where
  | leaf (v : V)
  | node (ts : List (Tree V))

/-- a task that maps over subtrees -/
def Tree.prog (lp : List (Prog V E × Prog V E) → E) (pack : List V → V) : Tree V → Prog V E
  | .leaf v => .pause (.ret v)
  | .node ts => mapP lp id (ts.attach.map (fun ⟨t, _⟩ => t.prog lp pack)) (finish pack)

/-- what it should compute -/
def Tree.value (pack : List V → V) : Tree V → V
  | .leaf v => v
  | .node ts => pack (ts.attach.map (fun ⟨t, _⟩ => t.value pack))

theorem Tree.computes (lp : List (Prog V E × Prog V E) → E) (pack : List V → V) :
    ∀ t : Tree V, Computes (t.prog lp pack) (t.value pack)
  | .leaf v => by
    intro r hr
    simp only [Tree.prog, Den] at hr
    simpa only [Tree.value] using hr
  | .node ts => by
    have ih : ∀ t ∈ ts, Computes (t.prog lp pack) (t.value pack) :=
      fun t _ => Tree.computes lp pack t
    intro r hr
    rw [Tree.prog] at hr
    rw [Tree.value]
    rcases (den_map lp id _ _ r).mp hr with ⟨vs, h1, h2, h3⟩ | ⟨p, hp, x, h1, -⟩
    · have : vs = ts.attach.map (fun ⟨t, _⟩ => t.value pack) := by
        apply List.ext_getElem
        · simpa using h1
        · intro i hi hi'
          have hs : i < ts.length := by simpa using hi'
          have hm : (ts[i].prog lp pack, vs[i]) ∈
              (ts.attach.map (fun ⟨t, _⟩ => t.prog lp pack)).zip vs :=
            List.mem_iff_getElem.mpr ⟨i, by simp; omega, by simp⟩
          have := ih ts[i] (List.getElem_mem hs) _ (h2 _ hm)
          simpa using this
      subst this
      exact h3
    · obtain ⟨⟨t, ht⟩, -, rfl⟩ := List.mem_map.mp hp
      have := ih t ht _ h1
      simp at this
termination_by t => t

/-- C26, nested: maps in the tasks of maps. -/
theorem C26_nested (lp : List (Prog V E × Prog V E) → E) (pack : List V → V) (t : Tree V) {nw : Nat}
    {s : State V E} (h : Reach nw (t.prog lp pack) s) {r : Except E V} (hr : s.result = some r) :
    r = .ok (t.value pack) :=
  t.computes lp pack r (h.result hr)

/-! ## C27 -/

/-- C27: no task is started twice. -/
theorem C27_at_most_once {nw : Nat} {p : Prog V E} {s : State V E} (h : Reach nw p s) (t : TaskId) :
    starts s.log t ≤ 1 := by
  rw [h.logInv.starts]
  split <;> omega

/-- C27: once an evaluation has been left normally each of its tasks has been started exactly once and
has finished with the result that the evaluation gives for it. -/
theorem C27_exactly_once {nw : Nat} {p : Prog V E} {s : State V E} (h : Reach nw p s) {e : Nat}
    {rs : List (Nat × V)} (hl : .left e (.done rs) ∈ s.log) {i : Nat} (hi : i < (s.evs e).n) :
    starts s.log (e, i) = 1 ∧ ∃ v, .finish (e, i) (.ok v) ∈ s.log ∧ (i, v) ∈ rs := by
  obtain ⟨-, h2⟩ := h.logInv.left_done e rs hl
  obtain ⟨h3, v, h4, h5⟩ := h2 i hi
  refine ⟨?_, v, (h.logInv.finish e i _).mpr h5, h4⟩
  rw [h.logInv.starts]
  simp [h3, Status.started]

/-! ## C28 -/

/-- C28: when a task is started its dependencies have finished without exception before. -/
theorem C28_dependencies_first {nw : Nat} {p : Prog V E} {s : State V E} (h : Reach nw p s)
    {later earlier : List (Note V E)} {e i : Nat} (hl : s.log = later ++ .start (e, i) :: earlier)
    {d : Nat} (hd : d ∈ (s.evs e).deps i) (hn : d < (s.evs e).n) :
    ∃ v, .finish (e, d) (.ok v) ∈ earlier :=
  (h.logInv.order later e i earlier hl).2 d (by simp [Ev.depsOf, hd, hn])

/-! ## C29, C31 -/

/-- `depends` gives the dependencies `D s`, and does not raise. -/
def Depends (depends : S → Prog V E) (decode : V → List S) (srcs : List S) (D : S → List S) : Prop :=
  ∀ s ∈ srcs, ∀ r, Den (depends s) r → ∃ v, r = .ok v ∧ decode v = D s

theorem Depends.mem [DecidableEq S] {lp : List (S × S) → E} {depends : S → Prog V E}
    {decode : V → List S} {srcs : List S} {rs : List (Nat × V)} {D : S → List S}
    (hp : Depends depends decode srcs D)
    (hr : Runs srcs.length (fun _ => []) (fun i => Den (nth lp depends srcs i)) rs)
    (ha : ∀ i, i < srcs.length → i ∈ rs.map Prod.fst) :
    Dep (depList decode srcs rs) srcs = Dep D srcs := by
  funext a b
  apply propext
  simp only [Dep]
  constructor
  · rintro ⟨h1, h2, h3⟩
    obtain ⟨m, hm⟩ := depList_copies (D := D) (fun s hs v hv => by
      obtain ⟨v', h1, h2⟩ := hp s hs _ hv
      simp only [Except.ok.injEq] at h1
      exact h1 ▸ h2) hr ha a h1
    rw [hm] at h3
    obtain ⟨l, hl, hx⟩ := List.mem_flatten.mp h3
    obtain ⟨-, rfl⟩ := List.mem_replicate.mp hl
    exact ⟨h1, h2, (List.mem_filter.mp hx).1⟩
  · rintro ⟨h1, h2, h3⟩
    obtain ⟨m, hm⟩ := depList_copies (D := D) (fun s hs v hv => by
      obtain ⟨v', h1, h2⟩ := hp s hs _ hv
      simp only [Except.ok.injEq] at h1
      exact h1 ▸ h2) hr ha a h1
    refine ⟨h1, h2, ?_⟩
    rw [hm, List.replicate_succ, List.flatten_cons]
    simp [h2, h3]

/-- C29: the result list is `f` over a list of sources that is determined by the sources and their
dependencies, in which every source occurs once, after its dependencies. -/
theorem C29_order [DecidableEq S] : ∃ order : (S → List S) → List S → List S,
    ∀ (lp : List (S × S) → E) (depends : S → Prog V E) (decode : V → List S) (f : S → Prog V E)
      (srcs : List S) (pack : List V → V) (D : S → List S) (g : S → V),
      Depends depends decode srcs D → (∀ s ∈ srcs, Computes (f s) (g s)) →
      (∀ s, ¬ OnLoop D srcs s) →
      (order D srcs).Nodup ∧ (∀ s, s ∈ order D srcs ↔ s ∈ srcs) ∧
      (∀ a s b, order D srcs = a ++ s :: b → ∀ d ∈ D s, d ∈ srcs → d ∈ a) ∧
      ∀ (nw : Nat) (st : State V E) (r : Except E V),
        Reach nw (mapDepsP lp depends decode f srcs (finish pack)) st → st.result = some r →
        r = .ok (pack ((order D srcs).map g)) := by
  refine ⟨fun D srcs => dfs (fun s => (D s).filter (· ∈ srcs)) srcs, ?_⟩
  intro lp depends decode f srcs pack D g hD hf hac
  have hac' : ∀ s, ¬ OnLoop (fun s => (D s).filter (· ∈ srcs)) srcs s := by
    intro s hs
    apply hac s
    have : Dep (fun s => (D s).filter (· ∈ srcs)) srcs = Dep D srcs := by
      funext a b
      apply propext
      simp only [Dep, List.mem_filter, decide_eq_true_eq]
      constructor
      · rintro ⟨h1, h2, h3, -⟩; exact ⟨h1, h2, h3⟩
      · rintro ⟨h1, h2, h3⟩; exact ⟨h1, h2, h3, h2⟩
    simpa only [OnLoop, this] using hs
  obtain ⟨s1, s2, s3⟩ := dfs_spec hac' (fun s _ y hy => by simpa using (List.mem_filter.mp hy).2)
  refine ⟨s1, s2, ?_, ?_⟩
  · intro a s b hab d hd hm
    exact s3 a s b hab d (by simp [hd, hm])
  · intro nw st r hreach hres
    rcases den_mapDeps (hreach.result hres) with ⟨s, hs, x, h1, -⟩ | ⟨rs, h1, h2, h3⟩
    · obtain ⟨v, hv, -⟩ := hD s hs _ h1
      simp at hv
    · rcases h3 with ⟨s, hs, x, h3, -⟩ | ⟨⟨s, h3⟩, -⟩ | ⟨-, vs, h4, h5, h6⟩
      · have := hf s hs _ h3
        simp at this
      · have hm := hD.mem h1 h2
        simp only [OnLoop, hm] at h3
        exact absurd h3 (hac s)
      · have hdfs : dfs (depList decode srcs rs) srcs = dfs (fun s => (D s).filter (· ∈ srcs)) srcs := by
          apply dfs_copies
          · intro s hs
            exact depList_copies (D := D) (fun s hs v hv => by
              obtain ⟨v', h1, h2⟩ := hD s hs _ hv
              simp only [Except.ok.injEq] at h1
              exact h1 ▸ h2) h1 h2 s hs
          · intro s y hy
            simpa using (List.mem_filter.mp hy).2
        rw [hdfs] at h4 h5
        have : vs = (dfs (fun s => (D s).filter (· ∈ srcs)) srcs).map g := by
          generalize hl : dfs (fun s => (D s).filter (· ∈ srcs)) srcs = l at *
          apply List.ext_getElem
          · simp [h4]
          · intro i hi hi'
            have hs : i < l.length := by omega
            have hm : (l[i], vs[i]) ∈ l.zip vs :=
              List.mem_iff_getElem.mpr ⟨i, by simp; omega, by simp⟩
            have := hf l[i] ((s2 _).mp (List.getElem_mem hs)) _ (h5 _ hm)
            simpa using this
        subst this
        exact h6

/-- C31, in part: if no call of `depends` and no task raises, `map_with_dependencies` raises a
`DependencyLoop` exactly when the dependencies among the sources have a loop.  The pairs of sources it
names are those that depend on each other directly.

Missing: that it names the sources on a loop; see `C31_names_violated`. -/
theorem C31_loop_partial [DecidableEq S] (lp : List (S × S) → E) (depends : S → Prog V E)
    (decode : V → List S) (f : S → Prog V E) (srcs : List S) (pack : List V → V) (D : S → List S)
    (hD : Depends depends decode srcs D) (hf : ∀ s ∈ srcs, ∀ r, Den (f s) r → ∃ v, r = .ok v)
    {nw : Nat} {st : State V E} {r : Except E V}
    (hreach : Reach nw (mapDepsP lp depends decode f srcs (finish pack)) st)
    (hres : st.result = some r) :
    ((∃ s, OnLoop D srcs s) → ∃ named, r = .error (lp named) ∧
      ∀ a b, (a, b) ∈ named ↔ Dep D srcs a b ∧ Dep D srcs b a) ∧
    ((∀ s, ¬ OnLoop D srcs s) → ∃ v, r = .ok v) := by
  rcases den_mapDeps (hreach.result hres) with ⟨s, hs, x, h1, -⟩ | ⟨rs, h1, h2, h3⟩
  · obtain ⟨v, hv, -⟩ := hD s hs _ h1
    simp at hv
  · have hm := hD.mem h1 h2
    simp only [OnLoop, hm] at h3
    rcases h3 with ⟨s, hs, x, h3, -⟩ | ⟨⟨s, h3⟩, named, h4, h5⟩ | ⟨h3, vs, h4, h5, h6⟩
    · obtain ⟨v, hv⟩ := hf s hs _ h3
      simp at hv
    · exact ⟨fun _ => ⟨named, h5, h4⟩, fun h => absurd h3 (h s)⟩
    · refine ⟨?_, fun _ => ⟨_, h6⟩⟩
      rintro ⟨s, hs⟩
      exact absurd hs (h3 s)

/-! ## C32 -/

/-- C32: if a task of an evaluation raised, the evaluation is not left normally. -/
theorem C32_not_normal {nw : Nat} {p : Prog V E} {s : State V E} (h : Reach nw p s) {e i : Nat} {x : E}
    (hf : .finish (e, i) (.error x) ∈ s.log) (rs : List (Nat × V)) :
    .left e (.done rs) ∉ s.log := by
  intro hl
  have hres := (h.logInv.finish e i _).mp hf
  have hlt : i < (s.evs e).n := by
    apply (h.inv.evs e).lt
    rcases (h.inv.evs e).res_done i (by simp [hres]) with h1 | h1 <;> simp [h1]
  obtain ⟨-, v, -, h2⟩ := (h.logInv.left_done e rs hl).2 i hlt
  rw [hres] at h2
  simp at h2

/-- C32: the exception with which an evaluation is left was raised by one of its tasks. -/
theorem C32_own_exception {nw : Nat} {p : Prog V E} {s : State V E} (h : Reach nw p s) {e : Nat} {x : E}
    (hl : .left e (.raised x) ∈ s.log) : ∃ i, i < (s.evs e).n ∧ .finish (e, i) (.error x) ∈ s.log := by
  obtain ⟨-, i, h1, h2⟩ := h.logInv.left_raised e x hl
  exact ⟨i, h1, (h.logInv.finish e i _).mpr h2⟩

/-- C32 for `map`: with a task that raises there is an exception, and the exception is one that a task
may raise. -/
theorem C32_map (lp : List (S × S) → E) (f : S → Prog V E) (srcs : List S) (pack : List V → V) {nw : Nat}
    {st : State V E} {r : Except E V} (h : Reach nw (mapP lp f srcs (finish pack)) st)
    (hr : st.result = some r) :
    ((∃ s ∈ srcs, ∀ v, ¬ Den (f s) (.ok v)) → ∃ x, r = .error x) ∧
    (∀ x, r = .error x → ∃ s ∈ srcs, Den (f s) (.error x)) := by
  rcases (den_map lp f srcs _ r).mp (h.result hr) with ⟨vs, h1, h2, h3⟩ | ⟨s, hs, x, h1, h2⟩
  · constructor
    · rintro ⟨s, hs, hn⟩
      obtain ⟨i, hi, rfl⟩ := List.mem_iff_getElem.mp hs
      have hm : (srcs[i], vs[i]'(by omega)) ∈ srcs.zip vs :=
        List.mem_iff_getElem.mpr ⟨i, by simp; omega, by simp⟩
      exact absurd (h2 _ hm) (hn _)
    · rintro x rfl
      simp [finish, Den] at h3
  · simp only [finish, Den] at h2
    subst h2
    refine ⟨fun _ => ⟨x, rfl⟩, ?_⟩
    rintro y hy
    simp only [Except.error.injEq] at hy
    exact ⟨s, hs, hy ▸ h1⟩

/-! ## C33 -/

/-- C33, in part: a task that depends on a failed task is never started.

Missing: a task that does not depend on the failed task and was put into the ready queue before the
failure was noticed is started even after `map` has raised; see `C33_violated`. -/
theorem C33_dependents_partial {nw : Nat} {p : Prog V E} {s : State V E} (h : Reach nw p s)
    {e d i : Nat} {x : E} (hf : .finish (e, d) (.error x) ∈ s.log) (hd : d ∈ (s.evs e).deps i) :
    starts s.log (e, i) = 0 := by
  have hres := (h.logInv.finish e d _).mp hf
  have hlt : d < (s.evs e).n := by
    apply (h.inv.evs e).lt
    rcases (h.inv.evs e).res_done d (by simp [hres]) with h1 | h1 <;> simp [h1]
  have h0 := h.logInv.starts e i
  rw [h0]
  split
  · rename_i hst
    have hne : (s.evs e).status i ≠ .new := by
      intro hn
      rw [hn] at hst
      simp [Status.started] at hst
    have hm := (h.inv.evs e).deps_done i hne d (by simp [Ev.depsOf, hd, hlt])
    obtain ⟨y, hy, rfl⟩ := List.mem_map.mp hm
    have := (h.inv.evs e).results_res y hy
    rw [hres] at this
    simp at this
  · rfl

/-! ## C34 -/

/-- C34, in part: at most one worker runs the code of a task outside of an interruptible section.

Missing: `interruptible` called by the main thread while a worker runs a task; see `C34_violated`. -/
theorem C34_one_worker_partial {nw : Nat} {p : Prog V E} {s : State V E} (h : Reach nw p s) {w w' : Nat}
    (h1 : (s.workers w).phase = .code) (h2 : (s.workers w').phase = .code) : w = w' := by
  have a1 := (h.inv.lock_iff w).mpr (by simp [h1, Phase.locked])
  have a2 := (h.inv.lock_iff w').mpr (by simp [h2, Phase.locked])
  rw [a1] at a2
  simpa using a2

end Verif.Sched
