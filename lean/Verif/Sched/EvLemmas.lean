import Verif.Sched.Spec
import Mathlib.Algebra.Group.Defs
import Mathlib.Algebra.Group.Basic
import Mathlib.Algebra.Group.Nat.Defs

/-! # What holds of the variables of one `_evaluate` at any time -/
namespace Verif.Sched

variable {V E : Type}

/-- `f 0 + … + f (n-1)` -/
def sumTo {M : Type} [AddCommMonoid M] (f : Nat → M) : Nat → M
  | 0 => 0
  | n + 1 => sumTo f n + f n

theorem sumTo_congr {M : Type} [AddCommMonoid M] {f g : Nat → M} {n : Nat}
    (h : ∀ i, i < n → f i = g i) : sumTo f n = sumTo g n := by
  induction n with
  | zero => rfl
  | succ n ih =>
    simp only [sumTo]
    rw [ih (fun i hi => h i (by omega)), h n (by omega)]

theorem sumTo_upd {M α : Type} [AddCommMonoid M] (g : α → M) (st : Nat → α) (i : Nat) (v : α)
    {n : Nat} (hi : i < n) :
    sumTo (fun j => g (upd st i v j)) n + g (st i) = sumTo (fun j => g (st j)) n + g v := by
  induction n with
  | zero => omega
  | succ n ih =>
    simp only [sumTo]
    by_cases h : i = n
    · subst h
      have h1 : sumTo (fun j => g (upd st i v j)) i = sumTo (fun j => g (st j)) i :=
        sumTo_congr (fun j hj => by simp [upd, Nat.ne_of_lt hj])
      rw [h1]
      simp only [upd, if_true]
      rw [add_assoc, add_comm (g v), ← add_assoc]
    · have h1 := ih (by omega)
      have h2 : upd st i v n = st n := by simp [upd, Ne.symm h]
      rw [h2, add_right_comm, h1, add_right_comm]

theorem upd_self {α : Type} (f : Nat → α) (i : Nat) (v : α) : upd f i v i = v := by simp [upd]

theorem upd_ne {α : Type} (f : Nat → α) {i j : Nat} (v : α) (h : j ≠ i) : upd f i v j = f j := by
  simp [upd, h]

/-- on its way: counted by `count` -/
def Status.outstanding : Status → Nat
  | .new => 0
  | .processed => 0
  | _ => 1

/-- between the ready queue and the done queue -/
def Status.mid : Status → Prop
  | .queued => True
  | .held _ => True
  | .active _ => True
  | _ => False

theorem Status.mid_facts {a : Status} (h : a.mid) :
    a ≠ .new ∧ a ≠ .processed ∧ a ≠ .finished ∧ a.outstanding = 1 := by
  cases a <;> simp_all [Status.mid, Status.outstanding]

/-- The facts about one activation of `_evaluate` that hold between any two steps, except for the tasks
that can run being queued. -/
structure EvOk0 (ev : Ev V E) : Prop where
  lt : ∀ i, ev.status i ≠ .new → i < ev.n
  doneQ_iff : ∀ i, i ∈ ev.doneQ ↔ ev.status i = .finished
  doneQ_nodup : ev.doneQ.Nodup
  count : ev.count = sumTo (fun i => (ev.status i).outstanding) ev.n
  deps_done : ∀ i, ev.status i ≠ .new → ∀ d ∈ ev.depsOf i, d ∈ ev.results.map Prod.fst
  results_nodup : (ev.results.map Prod.fst).Nodup
  results_status : ∀ x ∈ ev.results, ev.status x.1 = .processed
  results_res : ∀ x ∈ ev.results, ev.res x.1 = some (.ok x.2)
  results_order : ∀ a x b, ev.results = a ++ x :: b → ∀ d ∈ ev.depsOf x.1, d ∈ a.map Prod.fst
  has_res : ∀ i, ev.status i = .finished → ∃ r, ev.res i = some r
  sound : ∀ i r, ev.res i = some r → Den (ev.body i) r
  processed : ev.live = true → ∀ i, ev.status i = .processed → i ∈ ev.results.map Prod.fst
  res_done : ∀ i, ev.res i ≠ none → ev.status i = .finished ∨ ev.status i = .processed

structure EvOk (ev : Ev V E) : Prop extends EvOk0 ev where
  waiting : ev.live = true → ∀ i, i < ev.n → ev.status i = .new →
    ∃ d ∈ ev.depsOf i, ev.status d ≠ .processed

/-- A task moves between the ready queue and the done queue. -/
theorem EvOk.mid {ev : Ev V E} (h : EvOk ev) {i : Nat} {b : Status}
    (ha : (ev.status i).mid) (hb : b.mid) : EvOk { ev with status := upd ev.status i b } := by
  obtain ⟨a1, a2, a3, a4⟩ := Status.mid_facts ha
  obtain ⟨b1, b2, b3, b4⟩ := Status.mid_facts hb
  have hi := h.lt i a1
  refine ⟨⟨?_, ?_, h.doneQ_nodup, ?_, ?_, h.results_nodup, ?_, h.results_res, h.results_order, ?_,
    h.sound, ?_, ?_⟩, ?_⟩
  · intro j hj
    by_cases e : j = i
    · exact e ▸ hi
    · exact h.lt j (by simpa [upd, e] using hj)
  · intro j
    by_cases e : j = i
    · subst e
      simp [upd, b3, h.doneQ_iff, a3]
    · simp [upd, e, h.doneQ_iff]
  · have := sumTo_upd Status.outstanding ev.status i b hi
    have hc := h.count
    simp only at *
    omega
  · intro j hj d hd
    by_cases e : j = i
    · exact h.deps_done j (e ▸ a1) d hd
    · exact h.deps_done j (by simpa [upd, e] using hj) d hd
  · intro x hx
    have := h.results_status x hx
    by_cases e : x.1 = i
    · exact absurd (e ▸ this) a2
    · simpa [upd, e] using this
  · intro j hj
    by_cases e : j = i
    · subst e; simp [upd, b3] at hj
    · exact h.has_res j (by simpa [upd, e] using hj)
  · intro hl j hj
    by_cases e : j = i
    · subst e; simp [upd, b2] at hj
    · exact h.processed hl j (by simpa [upd, e] using hj)
  · intro j hj
    have := h.res_done j hj
    by_cases e : j = i
    · subst e; exact absurd this (by simp [a2, a3])
    · simpa [upd, e] using this
  · intro hl j hj hn
    by_cases e : j = i
    · subst e; simp [upd, b1] at hn
    · obtain ⟨d, hd, hp⟩ := h.waiting hl j hj (by simpa [upd, e] using hn)
      refine ⟨d, hd, ?_⟩
      by_cases e : d = i
      · subst e; simpa [upd] using b2
      · simpa [upd, e] using hp

/-- A task finishes. -/
theorem EvOk.finish {ev : Ev V E} (h : EvOk ev) {i w : Nat} {r : Except E V}
    (ha : ev.status i = .active w) (hr : Den (ev.body i) r) :
    EvOk { ev with
      status := upd ev.status i .finished, res := upd ev.res i (some r), doneQ := ev.doneQ ++ [i] } := by
  have hi := h.lt i (by simp [ha])
  refine ⟨⟨?_, ?_, ?_, ?_, ?_, h.results_nodup, ?_, ?_, h.results_order, ?_, ?_, ?_, ?_⟩, ?_⟩
  · intro j hj
    by_cases e : j = i
    · exact e ▸ hi
    · exact h.lt j (by simpa [upd, e] using hj)
  · intro j
    by_cases e : j = i
    · subst e; simp [upd]
    · simp [upd, e, h.doneQ_iff]
  · have : i ∉ ev.doneQ := by simp [h.doneQ_iff, ha]
    have := h.doneQ_nodup
    simp only [List.nodup_append]
    simp_all
    intro a ha' e
    simp_all
  · have := sumTo_upd Status.outstanding ev.status i .finished hi
    have hc := h.count
    rw [ha] at this
    simp only [Status.outstanding] at *
    omega
  · intro j hj d hd
    by_cases e : j = i
    · exact h.deps_done j (by simp [e, ha]) d hd
    · exact h.deps_done j (by simpa [upd, e] using hj) d hd
  · intro x hx
    have := h.results_status x hx
    by_cases e : x.1 = i
    · rw [e, ha] at this; simp at this
    · simpa [upd, e] using this
  · intro x hx
    have := h.results_status x hx
    by_cases e : x.1 = i
    · rw [e, ha] at this; simp at this
    · simpa [upd, e] using h.results_res x hx
  · intro j hj
    by_cases e : j = i
    · subst e; simp [upd]
    · simpa [upd, e] using h.has_res j (by simpa [upd, e] using hj)
  · intro j r' hj
    by_cases e : j = i
    · subst e
      simp [upd] at hj
      exact hj ▸ hr
    · exact h.sound j r' (by simpa [upd, e] using hj)
  · intro hl j hj
    by_cases e : j = i
    · subst e; simp [upd] at hj
    · exact h.processed hl j (by simpa [upd, e] using hj)
  · intro j hj
    by_cases e : j = i
    · subst e; simp [upd]
    · simpa [upd, e] using h.res_done j (by simpa [upd, e] using hj)
  · intro hl j hj hn
    by_cases e : j = i
    · subst e; simp [upd] at hn
    · obtain ⟨d, hd, hp⟩ := h.waiting hl j hj (by simpa [upd, e] using hn)
      refine ⟨d, hd, ?_⟩
      by_cases e : d = i
      · subst e; simp [upd]
      · simpa [upd, e] using hp

/-- the evaluation is left -/
theorem EvOk0.leave {ev : Ev V E} (h : EvOk0 ev) : EvOk { ev with live := false } := by
  refine ⟨⟨h.lt, h.doneQ_iff, h.doneQ_nodup, h.count, h.deps_done, h.results_nodup, h.results_status,
    h.results_res, h.results_order, h.has_res, h.sound, ?_, h.res_done⟩, ?_⟩ <;> simp

/-! ## Queueing -/

theorem enqueue_static (e : Nat) (is : List Nat) (ev : Ev V E) (q : List Item) :
    ∃ st c, (enqueue e is ev q).1 = { ev with status := st, count := c } := by
  induction is generalizing ev q with
  | nil => exact ⟨_, _, rfl⟩
  | cons i is ih =>
    simp only [enqueue]
    split
    · obtain ⟨st, c, h⟩ := ih { ev with status := upd ev.status i .queued, count := ev.count + 1 }
        (some (e, i) :: q)
      exact ⟨st, c, h⟩
    · exact ih ev q

theorem canRun_iff (ev : Ev V E) (i : Nat) :
    ev.canRun i = true ↔ ev.status i = .new ∧ ∀ d ∈ ev.depsOf i, ev.status d = .processed := by
  simp [Ev.canRun]

theorem canRun_queued {ev : Ev V E} {i : Nat} (h : ev.canRun i = true) (j c : Nat) :
    Ev.canRun { ev with status := upd ev.status i .queued, count := c } j = true ↔
      j ≠ i ∧ ev.canRun j = true := by
  rw [canRun_iff] at h
  rw [canRun_iff, canRun_iff]
  simp only [Ev.depsOf]
  constructor
  · rintro ⟨h1, h2⟩
    have hj : j ≠ i := by
      rintro rfl
      simp [upd] at h1
    refine ⟨hj, by simpa [upd, hj] using h1, ?_⟩
    intro d hd
    have := h2 d hd
    by_cases e : d = i
    · subst e; simp [upd] at this
    · simpa [upd, e] using this
  · rintro ⟨hj, h1, h2⟩
    refine ⟨by simpa [upd, hj] using h1, ?_⟩
    intro d hd
    have := h2 d hd
    by_cases e : d = i
    · subst e; rw [h.1] at this; simp at this
    · simpa [upd, e] using this

theorem enqueue_status (e : Nat) (is : List Nat) (ev : Ev V E) (q : List Item) (j : Nat) :
    (enqueue e is ev q).1.status j = if j ∈ is ∧ ev.canRun j = true then .queued else ev.status j := by
  induction is generalizing ev q with
  | nil => simp [enqueue]
  | cons i is ih =>
    simp only [enqueue]
    split
    · rename_i hc
      rw [ih]
      simp only [canRun_queued hc, List.mem_cons]
      by_cases e : j = i
      · subst e; simp [upd, hc]
      · simp [e, upd]
    · rename_i hc
      rw [ih]
      by_cases e : j = i
      · subst e; simp [hc]
      · simp [e]

theorem enqueue_mem (e : Nat) (is : List Nat) (ev : Ev V E) (q : List Item) (it : Item) :
    it ∈ (enqueue e is ev q).2 ↔ it ∈ q ∨ ∃ j, it = some (e, j) ∧ j ∈ is ∧ ev.canRun j = true := by
  induction is generalizing ev q with
  | nil => simp [enqueue]
  | cons i is ih =>
    simp only [enqueue]
    split
    · rename_i hc
      rw [ih]
      simp only [canRun_queued hc, List.mem_cons]
      constructor
      · rintro ((h | h) | ⟨j, h1, h2, h3, h4⟩)
        · exact .inr ⟨i, h, .inl rfl, hc⟩
        · exact .inl h
        · exact .inr ⟨j, h1, .inr h2, h4⟩
      · rintro (h | ⟨j, h1, h2 | h2, h3⟩)
        · exact .inl (.inr h)
        · exact .inl (.inl (h2 ▸ h1))
        · by_cases e : j = i
          · exact .inl (.inl (e ▸ h1))
          · exact .inr ⟨j, h1, h2, e, h3⟩
    · rename_i hc
      rw [ih]
      constructor
      · rintro (h | ⟨j, h1, h2, h3⟩)
        · exact .inl h
        · exact .inr ⟨j, h1, List.mem_cons_of_mem _ h2, h3⟩
      · rintro (h | ⟨j, h1, h2, h3⟩)
        · exact .inl h
        · rcases List.mem_cons.mp h2 with h2 | h2
          · subst h2; exact absurd h3 hc
          · exact .inr ⟨j, h1, h2, h3⟩

theorem enqueue_nodup (e : Nat) (is : List Nat) (ev : Ev V E) (q : List Item)
    (h : (q.filterMap id).Nodup) (hq : ∀ i, some (e, i) ∈ q → ev.status i ≠ .new) :
    ((enqueue e is ev q).2.filterMap id).Nodup := by
  induction is generalizing ev q with
  | nil => exact h
  | cons i is ih =>
    simp only [enqueue]
    split
    · rename_i hc
      apply ih
      · simp only [List.filterMap_cons, id]
        rw [List.nodup_cons]
        refine ⟨?_, h⟩
        intro hm
        have : some (e, i) ∈ q := by simpa using hm
        exact hq i this ((canRun_iff ev i).mp hc).1
      · intro j hj
        by_cases e' : j = i
        · subst e'; simp [upd]
        · simp only [upd, e', if_false]
          apply hq j
          simpa [e'] using hj
    · exact ih ev q h hq

/-- number of `None`s in the ready queue -/
def sentinels (q : List Item) : Nat := q.countP (·.isNone)

theorem enqueue_sentinels (e : Nat) (is : List Nat) (ev : Ev V E) (q : List Item) :
    sentinels (enqueue e is ev q).2 = sentinels q := by
  induction is generalizing ev q with
  | nil => rfl
  | cons i is ih =>
    simp only [enqueue]
    split
    · rw [ih]; simp [sentinels]
    · exact ih ev q

theorem EvOk0.enqueue1 {ev : Ev V E} (h : EvOk0 ev) {i : Nat} (hi : i < ev.n) (hl : ev.live = true)
    (hc : ev.canRun i = true) :
    EvOk0 { ev with status := upd ev.status i .queued, count := ev.count + 1 } := by
  obtain ⟨hn, hd⟩ := (canRun_iff ev i).mp hc
  refine ⟨?_, ?_, h.doneQ_nodup, ?_, ?_, h.results_nodup, ?_, h.results_res, h.results_order, ?_,
    h.sound, ?_, ?_⟩
  · intro j hj
    by_cases e : j = i
    · exact e ▸ hi
    · exact h.lt j (by simpa [upd, e] using hj)
  · intro j
    by_cases e : j = i
    · subst e; simp [upd, h.doneQ_iff, hn]
    · simp [upd, e, h.doneQ_iff]
  · have := sumTo_upd Status.outstanding ev.status i .queued hi
    have hc := h.count
    rw [hn] at this
    simp only [Status.outstanding] at *
    omega
  · intro j hj d hdj
    by_cases e : j = i
    · subst e; exact h.processed hl d (hd d hdj)
    · exact h.deps_done j (by simpa [upd, e] using hj) d hdj
  · intro x hx
    have := h.results_status x hx
    by_cases e : x.1 = i
    · rw [e, hn] at this; simp at this
    · simpa [upd, e] using this
  · intro j hj
    by_cases e : j = i
    · subst e; simp [upd] at hj
    · exact h.has_res j (by simpa [upd, e] using hj)
  · intro hl j hj
    by_cases e : j = i
    · subst e; simp [upd] at hj
    · exact h.processed hl j (by simpa [upd, e] using hj)
  · intro j hj
    have := h.res_done j hj
    by_cases e : j = i
    · subst e; exact absurd this (by simp [hn])
    · simpa [upd, e] using this

theorem EvOk0.enqueue {ev : Ev V E} (h : EvOk0 ev) (e : Nat) (is : List Nat) (q : List Item)
    (hi : ∀ i ∈ is, i < ev.n) (hl : ev.live = true) : EvOk0 (enqueue e is ev q).1 := by
  induction is generalizing ev q with
  | nil => exact h
  | cons i is ih =>
    simp only [Sched.enqueue]
    split
    · rename_i hc
      exact ih (h.enqueue1 (hi i List.mem_cons_self) hl hc) _
        (fun j hj => hi j (List.mem_cons_of_mem _ hj)) hl
    · exact ih h _ (fun j hj => hi j (List.mem_cons_of_mem _ hj)) hl

/-- After queueing, the tasks that are new wait for another one, provided this holds of the tasks that
were not looked at. -/
theorem EvOk0.enqueue' {ev : Ev V E} (h : EvOk0 ev) (e : Nat) (is : List Nat) (q : List Item)
    (hi : ∀ i ∈ is, i < ev.n) (hl : ev.live = true)
    (hw : ∀ i, i < ev.n → i ∉ is → ev.status i = .new → ∃ d ∈ ev.depsOf i, ev.status d ≠ .processed) :
    EvOk (Sched.enqueue e is ev q).1 := by
  refine ⟨h.enqueue e is q hi hl, ?_⟩
  intro hl' i hin hs
  obtain ⟨st, c, hst⟩ := enqueue_static e is ev q
  have hdeps : (Sched.enqueue e is ev q).1.depsOf i = ev.depsOf i := by rw [hst]; rfl
  have hn : (Sched.enqueue e is ev q).1.n = ev.n := by rw [hst]
  rw [hn] at hin
  rw [hdeps]
  rw [enqueue_status] at hs
  have key : ∃ d ∈ ev.depsOf i, ev.status d ≠ .processed := by
    by_cases him : i ∈ is
    · by_cases hc : ev.canRun i = true
      · simp [him, hc] at hs
      · simp only [him, hc, and_false, if_false, Bool.false_eq_true] at hs
        apply Classical.byContradiction
        intro hx
        apply hc
        rw [canRun_iff]
        refine ⟨hs, fun d hd => ?_⟩
        apply Classical.byContradiction
        intro hp
        exact hx ⟨d, hd, hp⟩
    · simp only [him, false_and, if_false] at hs
      exact hw i hin him hs
  obtain ⟨d, hd, hp⟩ := key
  refine ⟨d, hd, ?_⟩
  rw [enqueue_status]
  split
  · simp
  · exact hp

theorem mem_children (ev : Ev V E) (d i : Nat) : i ∈ ev.children d ↔ i < ev.n ∧ d ∈ ev.depsOf i := by
  simp only [Ev.children, List.mem_flatMap, List.mem_range, List.mem_map, List.mem_filter]
  constructor
  · rintro ⟨j, hj, x, ⟨hx, hxd⟩, rfl⟩
    simp at hxd
    exact ⟨hj, hxd ▸ hx⟩
  · rintro ⟨h1, h2⟩
    exact ⟨i, h1, d, ⟨h2, by simp⟩, rfl⟩

/-- a finished task is taken from the done queue -/
def Ev.took (ev : Ev V E) (i : Nat) (rest : List Nat) : Ev V E :=
  { ev with doneQ := rest, count := ev.count - 1, status := upd ev.status i .processed }

theorem EvOk0.took_results {ev : Ev V E} (h : EvOk0 ev) {i : Nat} {rest : List Nat} {v : V}
    (hq : ev.doneQ = i :: rest) (hv : ev.res i = some (.ok v)) :
    EvOk0 { ev.took i rest with results := ev.results ++ [(i, v)] } := by
  have hf : ev.status i = .finished := (h.doneQ_iff i).mp (by simp [hq])
  have hi := h.lt i (by simp [hf])
  have hnd := h.doneQ_nodup
  rw [hq, List.nodup_cons] at hnd
  have hnot : i ∉ ev.results.map Prod.fst := by
    intro hm
    obtain ⟨x, hx, rfl⟩ := List.mem_map.mp hm
    have := h.results_status x hx
    rw [hf] at this; simp at this
  refine ⟨?_, ?_, hnd.2, ?_, ?_, ?_, ?_, ?_, ?_, ?_, h.sound, ?_, ?_⟩
  · intro j hj
    by_cases e : j = i
    · exact e ▸ hi
    · exact h.lt j (by simpa [upd, e, Ev.took] using hj)
  · intro j
    have := h.doneQ_iff j
    rw [hq] at this
    by_cases e : j = i
    · subst e; simp [Ev.took, upd, hnd.1]
    · simpa [upd, e, Ev.took] using this
  · have := sumTo_upd Status.outstanding ev.status i .processed hi
    have hc := h.count
    rw [hf] at this
    simp only [Status.outstanding, Ev.took] at *
    omega
  · intro j hj d hd
    simp only [List.map_append, List.mem_append]
    left
    by_cases e : j = i
    · exact h.deps_done j (by simp [e, hf]) d hd
    · exact h.deps_done j (by simpa [upd, e, Ev.took] using hj) d hd
  · simp only [List.map_append, List.map_cons, List.map_nil, List.nodup_append]
    refine ⟨h.results_nodup, by simp, ?_⟩
    intro a ha b hb e
    simp at hb
    subst hb; subst e
    exact hnot ha
  · intro x hx
    simp only [List.mem_append, List.mem_singleton] at hx
    by_cases e : x.1 = i
    · simp [Ev.took, upd, e]
    · rcases hx with hx | hx
      · simpa [Ev.took, upd, e] using h.results_status x hx
      · subst hx; simp at e
  · intro x hx
    simp only [List.mem_append, List.mem_singleton] at hx
    rcases hx with hx | hx
    · exact h.results_res x hx
    · subst hx; exact hv
  · intro a x b hab d hd
    rcases List.eq_nil_or_concat b with rfl | ⟨b', y, rfl⟩
    · have : ev.results ++ [(i, v)] = a ++ [x] := hab
      obtain ⟨h1, h2⟩ := List.append_inj' this rfl
      simp at h2
      subst h1; subst h2
      exact h.deps_done i (by simp [hf]) d hd
    · have : ev.results ++ [(i, v)] = (a ++ x :: b') ++ [y] := by
        rw [show ev.results ++ [(i, v)] = _ from hab]; simp
      obtain ⟨h1, h2⟩ := List.append_inj' this rfl
      exact h.results_order a x b' h1 d hd
  · intro j hj
    by_cases e : j = i
    · subst e; simp [upd, Ev.took] at hj
    · exact h.has_res j (by simpa [upd, e, Ev.took] using hj)
  · intro hl j hj
    by_cases e : j = i
    · subst e; simp
    · have := h.processed hl j (by simpa [upd, e, Ev.took] using hj)
      simp only [List.map_append, List.mem_append]
      exact .inl this
  · intro j hj
    by_cases e : j = i
    · subst e; simp [upd, Ev.took]
    · simpa [upd, e, Ev.took] using h.res_done j hj

/-- … and it had raised an exception, so the evaluation is left -/
theorem EvOk0.took_leave {ev : Ev V E} (h : EvOk0 ev) {i : Nat} {rest : List Nat}
    (hq : ev.doneQ = i :: rest) : EvOk { ev.took i rest with live := false } := by
  have hf : ev.status i = .finished := (h.doneQ_iff i).mp (by simp [hq])
  have hi := h.lt i (by simp [hf])
  have hnd := h.doneQ_nodup
  rw [hq, List.nodup_cons] at hnd
  refine ⟨⟨?_, ?_, hnd.2, ?_, ?_, h.results_nodup, ?_, h.results_res, h.results_order, ?_, h.sound,
    ?_, ?_⟩, ?_⟩
  · intro j hj
    by_cases e : j = i
    · exact e ▸ hi
    · exact h.lt j (by simpa [upd, e, Ev.took] using hj)
  · intro j
    have := h.doneQ_iff j
    rw [hq] at this
    by_cases e : j = i
    · subst e; simp [Ev.took, upd, hnd.1]
    · simpa [upd, e, Ev.took] using this
  · have := sumTo_upd Status.outstanding ev.status i .processed hi
    have hc := h.count
    rw [hf] at this
    simp only [Status.outstanding, Ev.took] at *
    omega
  · intro j hj d hd
    by_cases e : j = i
    · exact h.deps_done j (by simp [e, hf]) d hd
    · exact h.deps_done j (by simpa [upd, e, Ev.took] using hj) d hd
  · intro x hx
    have := h.results_status x hx
    by_cases e : x.1 = i
    · rw [e, hf] at this; simp at this
    · simpa [Ev.took, upd, e] using this
  · intro j hj
    by_cases e : j = i
    · subst e; simp [upd, Ev.took] at hj
    · exact h.has_res j (by simpa [upd, e, Ev.took] using hj)
  · simp
  · intro j hj
    by_cases e : j = i
    · subst e; simp [upd, Ev.took]
    · simpa [upd, e, Ev.took] using h.res_done j hj
  · simp

theorem EvOk.took_enqueue {ev : Ev V E} (h : EvOk ev) {i : Nat} {rest : List Nat} {v : V}
    (hl : ev.live = true) (hq : ev.doneQ = i :: rest) (hv : ev.res i = some (.ok v)) (e : Nat)
    (q : List Item) :
    EvOk (enqueue e (ev.children i) { ev.took i rest with results := ev.results ++ [(i, v)] } q).1 := by
  apply (h.toEvOk0.took_results hq hv).enqueue'
  · intro j hj
    exact ((mem_children ev i j).mp hj).1
  · exact hl
  · intro j hj hnc hs
    have hne : j ≠ i := by
      rintro rfl
      simp [Ev.took, upd] at hs
    obtain ⟨d, hd, hp⟩ := h.waiting hl j hj (by simpa [Ev.took, upd, hne] using hs)
    refine ⟨d, hd, ?_⟩
    by_cases e : d = i
    · subst e
      exact absurd ((mem_children ev d j).mpr ⟨hj, hd⟩) hnc
    · simpa [Ev.took, upd, e] using hp

/-! ## The outcome -/

theorem EvOk0.runs {ev : Ev V E} (h : EvOk0 ev) :
    Runs ev.n ev.deps (fun i => Den (ev.body i)) ev.results where
  lt x hx := h.lt _ (by simp [h.results_status x hx])
  nodup := h.results_nodup
  res x hx := h.sound _ _ (h.results_res x hx)
  order a x b hab d hd hdn := h.results_order a x b hab d (by simp [Ev.depsOf, hd, hdn])

theorem sumTo_zero {f : Nat → Nat} {n : Nat} (h : sumTo f n = 0) : ∀ i, i < n → f i = 0 := by
  induction n with
  | zero => intro i hi; omega
  | succ n ih =>
    simp only [sumTo] at h
    intro i hi
    by_cases e : i = n
    · subst e; omega
    · exact ih (by omega) i (by omega)

theorem Nodup.length_le {l : List Nat} {n : Nat} (h : l.Nodup) (hl : ∀ i ∈ l, i < n) :
    l.length ≤ n := by
  have hs : l ⊆ List.range n := fun i hi => List.mem_range.mpr (hl i hi)
  have := h.length_le_of_subset hs
  simpa using this

theorem EvOk.outcome {ev : Ev V E} (h : EvOk ev) (hl : ev.live = true) (hc : ev.count = 0) :
    Outcome ev.n ev.deps (fun i => Den (ev.body i)) ev.outcome := by
  have h0 : ∀ i, i < ev.n → (ev.status i).outstanding = 0 := by
    have := h.count
    exact sumTo_zero (by rw [← this, hc])
  have hor : ∀ i, i < ev.n → ev.status i = .new ∨ ev.status i = .processed := by
    intro i hi
    have := h0 i hi
    cases hs : ev.status i <;> simp_all [Status.outstanding]
  have hpr : ∀ i, i < ev.n → (i ∈ ev.results.map Prod.fst ↔ ev.status i = .processed) := by
    intro i hi
    constructor
    · intro hm
      obtain ⟨x, hx, rfl⟩ := List.mem_map.mp hm
      exact h.results_status x hx
    · exact h.processed hl i
  have hruns := h.toEvOk0.runs
  simp only [Ev.outcome]
  split
  · rename_i hlen
    refine ⟨hruns, ?_⟩
    intro i hi
    apply Classical.byContradiction
    intro hni
    have := Nodup.length_le (l := i :: ev.results.map Prod.fst) (n := ev.n)
      (List.nodup_cons.mpr ⟨hni, h.results_nodup⟩)
      (by
        intro j hj
        rcases List.mem_cons.mp hj with rfl | hj
        · exact hi
        · obtain ⟨x, hx, rfl⟩ := List.mem_map.mp hj
          exact hruns.lt x hx)
    simp at this
    omega
  · rename_i hlen
    refine ⟨ev.results, hruns, ?_, ?_, ?_⟩
    · apply Classical.byContradiction
      intro hx
      apply hlen
      have hall : ∀ i, i < ev.n → i ∈ ev.results.map Prod.fst := by
        intro i hi
        apply Classical.byContradiction
        intro hni
        exact hx ⟨i, hi, hni⟩
      have h1 := List.nodup_range.length_le_of_subset
        (fun i hi => hall i (List.mem_range.mp hi) : List.range ev.n ⊆ _)
      have h2 := Nodup.length_le (l := ev.results.map Prod.fst) (n := ev.n) h.results_nodup
        (by
          intro j hj
          obtain ⟨x, hx, rfl⟩ := List.mem_map.mp hj
          exact hruns.lt x hx)
      simp at h1 h2
      omega
    · intro i hi hni
      have hnp : ev.status i ≠ .processed := fun e => hni ((hpr i hi).mpr e)
      have hnew : ev.status i = .new := (hor i hi).resolve_right hnp
      obtain ⟨d, hd, hdp⟩ := h.waiting hl i hi hnew
      simp only [Ev.depsOf, List.mem_filter, decide_eq_true_eq] at hd
      exact ⟨d, hd.1, hd.2, fun hm => hdp ((hpr d hd.2).mp hm)⟩
    · intro i j
      simp only [List.mem_flatMap, List.mem_range]
      constructor
      · rintro ⟨a, ha, hm⟩
        split at hm
        · simp at hm
        · rename_i hp
          simp only [List.mem_map, List.mem_filter] at hm
          obtain ⟨b, ⟨hb1, hb2⟩, hb3⟩ := hm
          simp only [Prod.mk.injEq] at hb3
          obtain ⟨rfl, rfl⟩ := hb3
          obtain ⟨hb, hd⟩ := (mem_children ev a b).mp hb1
          simp only [Ev.depsOf, List.mem_filter, decide_eq_true_eq] at hb2 hd
          exact ⟨ha, hb, fun hm => hp ((hpr a ha).mp hm), hb2.1, hd.1⟩
      · rintro ⟨hi, hj, hni, hji, hij⟩
        refine ⟨i, hi, ?_⟩
        rw [if_neg (fun e => hni ((hpr i hi).mpr e))]
        simp only [List.mem_map, List.mem_filter]
        refine ⟨j, ⟨(mem_children ev i j).mpr ⟨hj, ?_⟩, ?_⟩, rfl⟩
        · simp [Ev.depsOf, hij, hi]
        · simp [Ev.depsOf, hji, hj]

end Verif.Sched
