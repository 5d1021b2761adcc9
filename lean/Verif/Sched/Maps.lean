import Verif.Sched.Spec

/-! # `Scheduler.map` and `Scheduler.map_with_dependencies` -/
namespace Verif.Sched

variable {V E S : Type}

/-- The code of the task with a number.  (There is no task without a source; `E` has no default value,
hence the exception.) -/
def nth (lp : List (S × S) → E) (f : S → Prog V E) (srcs : List S) (i : Nat) : Prog V E :=
  match srcs[i]? with
  | some s => f s
  | none => .raise (lp [])

/-- The pairs of sources that a `DependencyLoop` names. -/
def names (srcs : List S) (named : List (Nat × Nat)) : List (S × S) :=
  named.filterMap (fun x => match srcs[x.1]?, srcs[x.2]? with
    | some a, some b => some (a, b)
    | _, _ => none)

/-- A call of `map(f, srcs)` (sched.py:139-145) followed by `k`, which gets the list of results or the
exception.  `lp` makes a `DependencyLoop`. -/
def mapP (lp : List (S × S) → E) (f : S → Prog V E) (srcs : List S)
    (k : Except E (List V) → Prog V E) : Prog V E :=
  .eval srcs.length (fun _ => []) (nth lp f srcs) (fun
    | .done rs => k (.ok ((rs.mergeSort (fun a b => decide (a.1 ≤ b.1))).map Prod.snd))
    | .raised x => k (.error x)
    | .loop named => k (.error (lp (names srcs named))))

/-- The keys of the dictionary `tasks` (sched.py:155-157), in the order in which they were inserted. -/
def keys [DecidableEq S] : List S → List S
  | [] => []
  | s :: ss => s :: (keys ss).filter (fun x => x ≠ s)

/-- `f(task)` (sched.py:183-190); the state are `visited` and `results`, with the task in the place of
its result.  `Verif.Sched.dfs_spec` shows that the bound on the depth is not reached. -/
def visit [DecidableEq S] (d : S → List S) : Nat → List S × List S → S → List S × List S
  | 0, st, _ => st
  | fuel + 1, st, t =>
    if t ∈ st.1 then st
    else
      let st1 := (d t).foldl (visit d fuel) (t :: st.1, st.2)
      (st1.1, st1.2 ++ [t])

/-- lines 180-193 -/
def dfs [DecidableEq S] (d : S → List S) (srcs : List S) : List S :=
  (srcs.foldl (visit d ((keys srcs).length + 1)) ([], [])).2

/-- `task.dependencies` (lines 160-172) of the task of source `s`, given the finished tasks of the first
evaluation: the results of all tasks for this source, without the sources that were not given. -/
def depList [DecidableEq S] (decode : V → List S) (srcs : List S) (rs : List (Nat × V)) (s : S) :
    List S :=
  rs.flatMap (fun x => if srcs[x.1]? = some s then (decode x.2).filter (· ∈ keys srcs) else [])

/-- A call of `map_with_dependencies(depends, f, srcs)` (sched.py:147-195) followed by `k`.
`decode` is the list of sources that a result of `depends` stands for. -/
def mapDepsP [DecidableEq S] (lp : List (S × S) → E) (depends : S → Prog V E) (decode : V → List S)
    (f : S → Prog V E) (srcs : List S) (k : Except E (List V) → Prog V E) : Prog V E :=
  .eval srcs.length (fun _ => []) (nth lp depends srcs) (fun
    | .raised x => k (.error x)
    | .loop named => k (.error (lp (names srcs named)))
    | .done rs =>
      let ks := keys srcs
      let deps := depList decode srcs rs
      .eval ks.length
        (fun i => match ks[i]? with
          | some s => (deps s).map (fun d => ks.idxOf d)
          | none => [])
        (nth lp f ks) (fun
        | .raised x => k (.error x)
        | .loop named => k (.error (lp (names ks named)))
        | .done rs2 => k (.ok ((dfs deps srcs).filterMap (fun s => rs2.lookup (ks.idxOf s))))))

/-! ## `map` -/

theorem sorted_range {l : List Nat} {n : Nat} (h1 : l.Pairwise (· ≤ ·)) (h2 : l.Nodup)
    (h3 : ∀ i, i ∈ l ↔ i < n) : l = List.range n := by
  apply List.Perm.eq_of_pairwise (le := (· ≤ ·)) (fun a b _ _ h h' => Nat.le_antisymm h h') h1
  · exact List.pairwise_lt_range.imp Nat.le_of_lt
  · rw [List.perm_ext_iff_of_nodup h2 List.nodup_range]
    intro i
    rw [h3, List.mem_range]

theorem sort_range {n : Nat} {deps : Nat → List Nat} {R : Nat → Except E V → Prop}
    {rs : List (Nat × V)} (h : Runs n deps R rs) (ha : ∀ i, i < n → i ∈ rs.map Prod.fst) :
    (rs.mergeSort (fun a b => decide (a.1 ≤ b.1))).map Prod.fst = List.range n := by
  have hp := List.mergeSort_perm rs (fun a b => decide (a.1 ≤ b.1))
  apply sorted_range
  · have := List.pairwise_mergeSort (le := fun (a b : Nat × V) => decide (a.1 ≤ b.1))
      (fun a b c h1 h2 => by simp at *; omega) (fun a b => by simp; omega) rs
    rw [List.pairwise_map]
    exact this.imp (by simp)
  · exact ((hp.map Prod.fst).nodup_iff).mpr h.nodup
  · intro i
    rw [(hp.map Prod.fst).mem_iff]
    constructor
    · intro hm
      obtain ⟨x, hx, rfl⟩ := List.mem_map.mp hm
      exact h.lt x hx
    · exact ha i

/-- The results `map` may have: one result of each task in the order of the sources, or an exception of
one of the tasks. -/
theorem den_map (lp : List (S × S) → E) (f : S → Prog V E) (srcs : List S)
    (k : Except E (List V) → Prog V E) (r : Except E V) :
    Den (mapP lp f srcs k) r ↔
      (∃ vs, vs.length = srcs.length ∧ (∀ x ∈ srcs.zip vs, Den (f x.1) (.ok x.2)) ∧
        Den (k (.ok vs)) r) ∨
      (∃ s ∈ srcs, ∃ x, Den (f s) (.error x) ∧ Den (k (.error x)) r) := by
  constructor
  · rintro ⟨out, ho, hr⟩
    cases out with
    | done rs =>
      left
      obtain ⟨h1, h2⟩ := ho
      have hs := sort_range h1 h2
      have hp := List.mergeSort_perm rs (fun a b => decide (a.1 ≤ b.1))
      refine ⟨_, ?_, ?_, hr⟩
      · have := congrArg List.length hs
        simpa using this
      · intro x hx
        generalize rs.mergeSort (fun a b => decide (a.1 ≤ b.1)) = l at *
        obtain ⟨i, hi, hxi⟩ := List.mem_iff_getElem.mp hx
        rw [List.getElem_zip] at hxi
        simp only [List.length_zip, List.length_map] at hi
        have hil : i < l.length := by omega
        have hfst : l[i].1 = i := by
          have : (l.map Prod.fst)[i]? = (List.range srcs.length)[i]? := by rw [hs]
          rw [List.getElem?_map, List.getElem?_eq_getElem hil,
            List.getElem?_eq_getElem (by simp; omega)] at this
          simpa using this
        have hm : l[i] ∈ rs := hp.mem_iff.mp (List.getElem_mem hil)
        have hd := h1.res _ hm
        rw [hfst] at hd
        simp only [nth, List.getElem?_eq_getElem (show i < srcs.length by omega)] at hd
        subst hxi
        simpa using hd
    | raised x =>
      right
      obtain ⟨rs, i, h1, h2, h3, h4⟩ := ho
      simp only [nth, List.getElem?_eq_getElem h2] at h4
      exact ⟨srcs[i], List.getElem_mem h2, x, h4, hr⟩
    | loop named =>
      obtain ⟨rs, h1, ⟨i, h2, h3⟩, h4, -⟩ := ho
      obtain ⟨d, hd, -⟩ := h4 i h2 h3
      simp at hd
  · rintro (⟨vs, h1, h2, h3⟩ | ⟨s, hs, x, h1, h2⟩)
    · refine ⟨.done ((List.range srcs.length).zip vs), ?_, ?_⟩
      · have hfst : ((List.range srcs.length).zip vs).map Prod.fst = List.range srcs.length := by
          rw [List.map_fst_zip]; simp [h1]
        refine ⟨⟨?_, ?_, ?_, by simp⟩, ?_⟩
        · intro x hx
          have := (List.of_mem_zip hx).1
          simpa using this
        · rw [hfst]; exact List.nodup_range
        · intro x hx
          obtain ⟨i, hi, hxi⟩ := List.mem_iff_getElem.mp hx
          rw [List.getElem_zip] at hxi
          simp only [List.length_zip, List.length_range] at hi
          subst hxi
          simp only [List.getElem_range, nth, List.getElem?_eq_getElem (show i < srcs.length by omega)]
          apply h2 (srcs[i], vs[i])
          apply List.mem_iff_getElem.mpr
          refine ⟨i, by simp; omega, by simp⟩
        · intro i hi
          rw [hfst]; simpa using hi
      · have : ((List.range srcs.length).zip vs).mergeSort (fun a b => decide (a.1 ≤ b.1)) =
            (List.range srcs.length).zip vs := by
          apply List.mergeSort_of_pairwise
          have hfst : ((List.range srcs.length).zip vs).map Prod.fst = List.range srcs.length := by
            rw [List.map_fst_zip]; simp [h1]
          have hpw : (((List.range srcs.length).zip vs).map Prod.fst).Pairwise (· ≤ ·) := by
            rw [hfst]
            exact List.pairwise_lt_range.imp Nat.le_of_lt
          rw [List.pairwise_map] at hpw
          exact hpw.imp (by simp)
        simp only [this]
        rw [List.map_snd_zip (by simp [h1])]
        exact h3
    · obtain ⟨i, hi, rfl⟩ := List.mem_iff_getElem.mp hs
      refine ⟨.raised x, ⟨[], i, ⟨by simp, by simp, by simp, by simp⟩, hi, by simp, ?_⟩, h2⟩
      simpa [nth, List.getElem?_eq_getElem hi] using h1

end Verif.Sched
