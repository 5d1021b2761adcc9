import Verif.Sched.Shutdown

/-! # There is a fair schedule from every state -/
namespace Verif.Sched

variable {V E : Type}

/-- the threads of a scheduler with `nw` workers -/
def threads (nw : Nat) : List Thread := .main :: (List.range nw).map .worker

/-- The first thread of the list that can move moves, and goes to the end of the list. -/
def turn : List Thread × State V E → List Thread × State V E
  | (ths, s) =>
    match ths.find? (fun th => (step s th).isSome) with
    | none => (ths, s)
    | some th => (ths.erase th ++ [th], (step s th).getD s)

def turnThread : List Thread × State V E → Thread
  | (ths, s) => (ths.find? (fun th => (step s th).isSome)).getD .main

/-- the number of threads before this one -/
def ahead (th : Thread) (ths : List Thread) : Nat := ths.idxOf th

theorem turn_ahead {ths : List Thread} {s : State V E} {th : Thread} (hnd : ths.Nodup) (hm : th ∈ ths)
    (hne : ths.find? (fun th => (step s th).isSome) ≠ some th) :
    ahead th (turn (ths, s)).1 ≤ ahead th ths ∧
    ((step s th).isSome = true → ahead th (turn (ths, s)).1 < ahead th ths) := by
  simp only [turn]
  split
  · rename_i hf
    refine ⟨Nat.le_refl _, ?_⟩
    intro hs
    have := List.find?_eq_none.mp hf th hm
    exact absurd hs this
  · rename_i t hf
    have htn : t ≠ th := by
      intro h
      subst h
      exact hne hf
    obtain ⟨h1, l1, l2, h2, h3⟩ := List.find?_eq_some_iff_append.mp hf
    subst h2
    have hn1 : t ∉ l1 := by
      intro h
      have := (List.nodup_append.mp hnd).2.2 t h t (by simp)
      exact this rfl
    have her : (l1 ++ t :: l2).erase t = l1 ++ l2 := by
      rw [List.erase_append_right _ hn1]
      simp
    simp only [her, ahead]
    rw [List.append_assoc]
    by_cases hin : th ∈ l1
    · rw [List.idxOf_append_of_mem hin, List.idxOf_append_of_mem hin]
      refine ⟨Nat.le_refl _, ?_⟩
      intro hs
      have := h3 th hin
      simp [hs] at this
    · rw [List.idxOf_append_of_notMem hin, List.idxOf_append_of_notMem hin]
      have h2 : th ∈ l2 := by
        simp only [List.mem_append, List.mem_cons] at hm
        rcases hm with h | h | h
        · exact absurd h hin
        · exact absurd h.symm htn
        · exact h
      rw [List.idxOf_append_of_mem h2, List.idxOf_cons_ne l2 htn]
      omega

/-- the execution in turns -/
def turns (ths : List Thread) (s : State V E) : Nat → List Thread × State V E
  | 0 => (ths, s)
  | n + 1 => turn (turns ths s n)

theorem turn_nodup {x : List Thread × State V E} (h : x.1.Nodup) : (turn x).1.Nodup := by
  obtain ⟨ths, s⟩ := x
  simp only [turn]
  split
  · exact h
  · rename_i t hf
    have hm := List.mem_of_find?_eq_some hf
    rw [List.nodup_append]
    refine ⟨h.erase t, by simp, ?_⟩
    intro a ha b hb
    simp only [List.mem_singleton] at hb
    subst hb
    intro hab
    subst hab
    exact (List.Nodup.not_mem_erase h) ha

theorem turn_mem {x : List Thread × State V E} (th : Thread) : th ∈ (turn x).1 ↔ th ∈ x.1 := by
  obtain ⟨ths, s⟩ := x
  simp only [turn]
  split
  · exact Iff.rfl
  · rename_i t hf
    have hm := List.mem_of_find?_eq_some hf
    simp only [List.mem_append, List.mem_singleton]
    constructor
    · rintro (h | rfl)
      · exact List.mem_of_mem_erase h
      · exact hm
    · intro h
      by_cases e : th = t
      · exact .inr e
      · exact .inl ((List.mem_erase_of_ne e).mpr h)

theorem turn_step (x : List Thread × State V E) :
    (turn x).2 = (step x.2 (turnThread x)).getD x.2 ∨
      ((turn x).2 = x.2 ∧ ∀ th ∈ x.1, step x.2 th = none) := by
  obtain ⟨ths, s⟩ := x
  simp only [turn, turnThread]
  cases hf : ths.find? (fun th => (step s th).isSome) with
  | none =>
    right
    refine ⟨rfl, ?_⟩
    intro th hth
    have := List.find?_eq_none.mp hf th hth
    simpa using this
  | some t => exact .inl rfl

theorem exists_fair (s : State V E) : ∃ sched σ, Exec s sched σ ∧ Fair sched σ := by
  let x := turns (threads s.nw) s
  have hnd : ∀ n, (x n).1.Nodup := by
    intro n
    induction n with
    | zero =>
      show (threads s.nw).Nodup
      simp only [threads, List.nodup_cons]
      refine ⟨by simp, ?_⟩
      rw [List.nodup_map_iff (fun a b h => by simpa using h)]
      exact List.nodup_range
    | succ n ih => exact turn_nodup ih
  have hmem : ∀ n th, th ∈ (x n).1 ↔ th ∈ threads s.nw := by
    intro n th
    induction n with
    | zero => exact Iff.rfl
    | succ n ih => exact (turn_mem th).trans ih
  have hmain : Thread.main ∈ threads s.nw := by simp [threads]
  have hx : Exec s (fun n => turnThread (x n)) (fun n => (x n).2) := by
    refine ⟨rfl, ?_⟩
    intro n
    rcases turn_step (x n) with h | ⟨h1, h2⟩
    · exact h
    · have hn : step (x n).2 (turnThread (x n)) = none := by
        have : turnThread (x n) = .main := by
          simp only [turnThread]
          rw [List.find?_eq_none.mpr]
          · rfl
          · intro th hth
            simp [h2 th hth]
        rw [this]
        exact h2 _ ((hmem n _).mpr hmain)
      show (x (n + 1)).2 = _
      rw [hn]
      exact h1
  refine ⟨_, _, hx, ?_⟩
  have hnw : ∀ n, (x n).2.nw = s.nw := by
    intro n
    induction n with
    | zero => rfl
    | succ n ih =>
      have := hx.next n
      rw [this]
      cases hs : step (x n).2 (turnThread (x n)) with
      | none => exact ih
      | some s' => exact (step_nw hs).trans ih
  intro th hinf
  -- the thread is in the list
  have hin : th ∈ threads s.nw := by
    obtain ⟨m, -, hm⟩ := hinf 0
    cases th with
    | main => exact hmain
    | worker w =>
      simp only [step, hnw] at hm
      split at hm
      · rename_i hw
        simp [threads, hw]
      · simp at hm
  -- no infinite descent
  have key : ∀ k n, ahead th (x n).1 ≤ k →
      ∃ m, n ≤ m ∧ turnThread (x m) = th ∧ (step (x m).2 th).isSome = true := by
    intro k
    induction k using Nat.strongRecOn with
    | _ k ih =>
      intro n hk
      apply Classical.byContradiction
      intro hno
      have hne : ∀ m, n ≤ m → (x m).1.find? (fun t => (step (x m).2 t).isSome) ≠ some th := by
        intro m hm hf
        apply hno
        refine ⟨m, hm, ?_, ?_⟩
        · simp only [turnThread]; rw [hf]; rfl
        · simpa using List.find?_some hf
      have hmono : ∀ m, n ≤ m → ahead th (x m).1 ≤ k := by
        intro m hm
        induction m, hm using Nat.le_induction with
        | base => exact hk
        | succ m hm ihm =>
          have := (turn_ahead (hnd m) ((hmem m th).mpr hin) (hne m hm)).1
          exact Nat.le_trans this ihm
      obtain ⟨m, hm, hen⟩ := hinf n
      have hlt := (turn_ahead (hnd m) ((hmem m th).mpr hin) (hne m hm)).2 hen
      have hmk := hmono m hm
      obtain ⟨m', hm', h1, h2⟩ := ih (ahead th (x (m + 1)).1) (Nat.lt_of_lt_of_le hlt hmk) (m + 1)
        (Nat.le_refl _)
      exact hno ⟨m', by omega, h1, h2⟩
  intro n
  exact key _ n (Nat.le_refl _)

/-- what is reached by an execution is reached by a finite schedule -/
theorem Exec.run {s : State V E} {sched : Nat → Thread} {σ : Nat → State V E} (hx : Exec s sched σ) (n : Nat) :
    ∃ ths, run s ths = σ n := by
  have hrun : ∀ (ths : List Thread) (t : State V E) (th : Thread), Sched.run t (ths ++ [th]) =
      (step (Sched.run t ths) th).getD (Sched.run t ths) := by
    intro ths
    induction ths with
    | nil => intro t th; rfl
    | cons a ths ih => intro t th; exact ih _ th
  induction n with
  | zero => exact ⟨[], hx.start.symm⟩
  | succ n ih =>
    obtain ⟨ths, h⟩ := ih
    exact ⟨ths ++ [sched n], by rw [hrun, h, hx.next]⟩

end Verif.Sched
