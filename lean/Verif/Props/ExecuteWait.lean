import Verif.Execute.Wait
/-!
# Waiting for a process with a time limit (C152)
-/
namespace Verif.Execute.Wait

/-! ## Specification -/

/-- the process has ended by itself at this time -/
def Ended (p : Proc) (t : Nat) : Prop := ∃ e, p.ends = some e ∧ e ≤ t

/-! ## Proofs -/

theorem endedBy_iff (p : Proc) (t : Nat) : endedBy p t = true ↔ Ended p t := by
  unfold endedBy Ended
  cases p.ends <;> simp

theorem sleep_ge (intr : Bool) (p : Proc) (t dur : Nat) : t ≤ sleep intr p t dur ∧ sleep intr p t dur ≤ t + dur := by
  unfold sleep
  cases p.ends with
  | none => simp
  | some e =>
    dsimp only
    split
    · rename_i h
      simp only [Bool.and_eq_true, decide_eq_true_eq] at h
      omega
    · omega

theorem sleep_ended (intr : Bool) (p : Proc) (t dur : Nat) (h : sleep intr p t dur < t + dur) : Ended p (sleep intr p t dur) := by
  revert h
  unfold sleep Ended
  cases p.ends with
  | none => simp
  | some e =>
    dsimp only
    split
    · intro _; exact ⟨e, rfl, Nat.le_refl e⟩
    · omega

theorem sleep_full (p : Proc) (t dur : Nat) : sleep false p t dur = t + dur := by
  unfold sleep
  cases p.ends <;> simp

/-- what a loop can give -/
def Good (p : Proc) (start limit : Nat) (o : Out) : Prop :=
  (∃ t, o = ⟨.returned p.status t, none, true⟩ ∧ Ended p t) ∨
  (∃ t, o = ⟨.returned (-9) t, some t, true⟩ ∧ start + limit ≤ t + 1) ∨
  o = ⟨.valueError, none, false⟩ ∨ o.result = .never

theorem loop_good (intr : Bool) (p : Proc) (d : Nat → Nat) (start limit : Nat) (fuel i now : Nat) :
    Good p start limit (loop intr p d start limit fuel i now) := by
  induction fuel generalizing i now with
  | zero => exact Or.inr (Or.inr (Or.inr rfl))
  | succ fuel ih =>
    simp only [loop]
    split
    · split
      · rename_i h2
        exact Or.inl ⟨_, rfl, (endedBy_iff p _).1 h2⟩
      · split
        · exact Or.inr (Or.inr (Or.inl rfl))
        · exact ih _ _
    · rename_i h1
      exact Or.inr (Or.inl ⟨_, rfl, by omega⟩)

/-- after the end of the process, or after the limit, one more round suffices -/
theorem loop_last (intr : Bool) (p : Proc) (d : Nat → Nat) (start limit fuel i now : Nat) (h : Ended p now ∨ start + limit ≤ now) :
    (loop intr p d start limit (fuel + 1) i now).result ≠ .never := by
  simp only [loop]
  split
  · rename_i h1
    rcases h with ⟨e, he, hle⟩ | h
    · rw [if_pos ((endedBy_iff p _).2 ⟨e, he, by omega⟩)]
      simp
    · omega
  · simp

theorem after_sleep (intr : Bool) (p : Proc) (t3 dur : Nat) :
    Ended p (sleep intr p (sleep intr p t3 dur) 10) ∨ t3 + dur ≤ sleep intr p (sleep intr p t3 dur) 10 := by
  by_cases h : sleep intr p t3 dur < t3 + dur
  · obtain ⟨e, he, hle⟩ := sleep_ended intr p t3 dur h
    exact Or.inl ⟨e, he, Nat.le_trans hle (sleep_ge intr p _ 10).1⟩
  · have := (sleep_ge intr p (sleep intr p t3 dur) 10).1
    exact Or.inr (by omega)

/-- **C152**: `wait` with a limit returns the status only of a process that has ended, and then it has killed nothing; otherwise it
returns -9 and has killed the group of the process, not before the time is over (to a hundredth of a second); or it raises. -/
theorem C152_outcome (intr : Bool) (p : Proc) (d : Nat → Nat) (fuel start limit : Nat) (hf : 2 ≤ fuel) :
    (∃ t, (wait intr p d fuel start (some limit)) = ⟨.returned p.status t, none, true⟩ ∧ Ended p t) ∨
    (∃ t, (wait intr p d fuel start (some limit)) = ⟨.returned (-9) t, some t, true⟩ ∧ start + limit ≤ t + 1) ∨
    (wait intr p d fuel start (some limit)).result = .valueError := by
  rcases loop_good intr p d start limit fuel 0 start with h | h | h | h
  · exact Or.inl h
  · exact Or.inr (Or.inl h)
  · refine Or.inr (Or.inr ?_)
    rw [wait, h]
  · exfalso
    obtain ⟨f, rfl⟩ : ∃ f, fuel = f + 1 + 1 := ⟨fuel - 2, by omega⟩
    revert h
    rw [loop]
    dsimp only
    split
    · split
      · simp
      · split
        · simp
        · apply loop_last
          rcases after_sleep intr p (start + d (3 * 0) + d (3 * 0 + 1) + d (3 * 0 + 2))
            (start + limit - (start + d (3 * 0) + d (3 * 0 + 1) + d (3 * 0 + 2))) with h | h
          · exact Or.inl h
          · exact Or.inr (by omega)
    · simp

theorem loop_quick (intr : Bool) (p : Proc) (d : Nat → Nat) (start limit : Nat) (hd : ∀ k, d k ≤ 1) (fuel i now : Nat)
    (hn : now ≤ start + limit + 10) :
    (loop intr p d start limit fuel i now).result = .never ∨
      ∃ code t, (loop intr p d start limit fuel i now).result = .returned code t ∧ t ≤ start + limit + 11 := by
  induction fuel generalizing i now with
  | zero => exact Or.inl rfl
  | succ fuel ih =>
    have h0 := hd (3 * i)
    have h1 := hd (3 * i + 1)
    have h2 := hd (3 * i + 2)
    rw [loop]
    dsimp only
    split
    · split
      · exact Or.inr ⟨_, _, rfl, by omega⟩
      · rw [if_neg (by omega)]
        apply ih
        have a := (sleep_ge intr p (now + d (3 * i) + d (3 * i + 1) + d (3 * i + 2))
          (start + limit - (now + d (3 * i) + d (3 * i + 1) + d (3 * i + 2)))).2
        have b := (sleep_ge intr p (sleep intr p (now + d (3 * i) + d (3 * i + 1) + d (3 * i + 2))
          (start + limit - (now + d (3 * i) + d (3 * i + 1) + d (3 * i + 2)))) 10).2
        omega
    · exact Or.inr ⟨_, _, rfl, by omega⟩

/-- **C152**: on a machine where a look at the clock or at the process takes at most a hundredth of a second, `wait` returns at most
0.11 seconds after the limit. -/
theorem C152_limit (intr : Bool) (p : Proc) (d : Nat → Nat) (fuel start limit : Nat) (hf : 2 ≤ fuel) (hd : ∀ k, d k ≤ 1) :
    ∃ code t, (wait intr p d fuel start (some limit)).result = .returned code t ∧ t ≤ start + limit + 11 := by
  rcases loop_quick intr p d start limit hd fuel 0 start (by omega) with h | h
  · exfalso
    rcases C152_outcome intr p d fuel start limit hf with ⟨t, e, _⟩ | ⟨t, e, _⟩ | e
    · rw [wait] at e; rw [e] at h; simp at h
    · rw [wait] at e; rw [e] at h; simp at h
    · rw [wait] at e; rw [e] at h; simp at h
  · exact h

/-- **C152**, partial: with a Python where signals end `time.sleep`, the status of a process that ends in time is returned, at most 0.12
seconds after the end.  Partial: with other versions of Python it is not (`C152_late_violated`), nor if the process ends between the
first look at it and the sleep (`C152_race_violated`). -/
theorem C152_status_partial (p : Proc) (d : Nat → Nat) (fuel start limit e : Nat) (hf : 2 ≤ fuel) (hd : ∀ k, d k ≤ 1)
    (he : p.ends = some e) (hlim : e + 12 < start + limit) (hl : 2 < limit)
    (hgap : e ≤ start + d 0 + d 1 ∨ start + d 0 + d 1 + d 2 < e) :
    ∃ t, wait true p d fuel start (some limit) = ⟨.returned p.status t, none, true⟩ ∧ e ≤ t ∧ t ≤ max (start + 2) (e + 12) := by
  obtain ⟨f, rfl⟩ : ∃ f, fuel = f + 1 + 1 := ⟨fuel - 2, by omega⟩
  have h0 := hd 0
  have h1 := hd 1
  have h2 := hd 2
  have h3 := hd 3
  have h4 := hd 4
  rw [wait, loop]
  dsimp only [Nat.mul_zero, Nat.zero_add, Nat.reduceMul, Nat.reduceAdd]
  rw [if_pos (by omega)]
  by_cases hc : e ≤ start + d 0 + d 1
  · rw [if_pos ((endedBy_iff p _).2 ⟨e, he, hc⟩)]
    exact ⟨_, rfl, hc, by omega⟩
  · rw [if_neg (by rw [endedBy_iff]; rintro ⟨e', h, hle⟩; rw [he] at h; cases h; exact hc hle), if_neg (by omega)]
    have s1 : sleep true p (start + d 0 + d 1 + d 2) (start + limit - (start + d 0 + d 1 + d 2)) = e := by
      have a : start + d 0 + d 1 + d 2 < e := by omega
      have b : e < start + d 0 + d 1 + d 2 + (start + limit - (start + d 0 + d 1 + d 2)) := by omega
      simp only [sleep, he, a, b, decide_true, Bool.and_true, if_true]
    have s2 : sleep true p e 10 = e + 10 := by
      simp [sleep, he]
    rw [s1, s2, loop]
    dsimp only [Nat.mul_one, Nat.reduceMul, Nat.reduceAdd]
    rw [if_pos (by omega), if_pos ((endedBy_iff p _).2 ⟨e, he, by omega⟩)]
    exact ⟨_, rfl, by omega, by omega⟩

/-- **C152** is false from Python 3.5 on: of every process that has not ended at the first look, whatever the limit, the status is lost;
the result is -9 if nothing is raised. -/
theorem C152_late_violated (p : Proc) (d : Nat → Nat) (fuel start limit : Nat) (hf : 2 ≤ fuel)
    (h : ¬ Ended p (start + d 0 + d 1)) :
    (∃ t, wait false p d fuel start (some limit) = ⟨.returned (-9) t, some t, true⟩) ∨
      (wait false p d fuel start (some limit)).result = .valueError := by
  obtain ⟨f, rfl⟩ : ∃ f, fuel = f + 1 + 1 := ⟨fuel - 2, by omega⟩
  rw [wait, loop]
  dsimp only [Nat.mul_zero, Nat.zero_add, Nat.reduceMul, Nat.reduceAdd]
  split
  · rw [if_neg (by rw [endedBy_iff]; exact h)]
    split
    · exact Or.inr rfl
    · rw [sleep_full, sleep_full, loop]
      dsimp only
      rw [if_neg (by omega)]
      exact Or.inl ⟨_, rfl⟩
  · exact Or.inl ⟨_, rfl⟩

/-- **C152** is false also before: a process that ends after the first look at it and before the sleep is given -9. -/
theorem C152_race_violated (intr : Bool) (p : Proc) (d : Nat → Nat) (fuel start limit e : Nat) (hf : 2 ≤ fuel) (he : p.ends = some e)
    (h1 : start + d 0 + d 1 < e) (h2 : e ≤ start + d 0 + d 1 + d 2) (h3 : start + d 0 + d 1 + d 2 ≤ start + limit) :
    ∃ t, wait intr p d fuel start (some limit) = ⟨.returned (-9) t, some t, true⟩ := by
  obtain ⟨f, rfl⟩ : ∃ f, fuel = f + 1 + 1 := ⟨fuel - 2, by omega⟩
  rw [wait, loop]
  dsimp only [Nat.mul_zero, Nat.zero_add, Nat.reduceMul, Nat.reduceAdd]
  split
  · rw [if_neg (by rw [endedBy_iff]; rintro ⟨e', h, hle⟩; rw [he] at h; cases h; omega), if_neg (by omega)]
    have s : ∀ t dur, e ≤ t → sleep intr p t dur = t + dur := by
      intro t dur ht
      have : ¬ t < e := by omega
      simp [sleep, he, this]
    rw [s _ _ h2, s _ _ (by omega), loop]
    dsimp only
    rw [if_neg (by omega)]
    exact ⟨_, rfl⟩
  · exact ⟨_, rfl⟩

/-- **C152** is false on a slow machine: if the time is over between the looks then `ValueError` is raised, nothing is killed, and the
handler of SIGCHLD stays replaced. -/
theorem C152_raise_violated (intr : Bool) (p : Proc) (d : Nat → Nat) (fuel start limit : Nat) (hf : 1 ≤ fuel)
    (h : ¬ Ended p (start + d 0 + d 1)) (h1 : start + d 0 + 1 < start + limit) (h2 : limit < d 0 + d 1 + d 2) :
    wait intr p d fuel start (some limit) = ⟨.valueError, none, false⟩ := by
  obtain ⟨f, rfl⟩ : ∃ f, fuel = f + 1 := ⟨fuel - 1, by omega⟩
  rw [wait, loop]
  dsimp only [Nat.mul_zero, Nat.zero_add, Nat.reduceMul, Nat.reduceAdd]
  rw [if_pos (by omega), if_neg (by rw [endedBy_iff]; exact h), if_pos (by omega)]

/-- **C152**, partial: without a limit the status of the process is returned, when it has ended; nothing is killed.  Partial: for a
process that is not stopped (`C152_stopped_violated`). -/
theorem C152_forever_partial (intr : Bool) (p : Proc) (d : Nat → Nat) (fuel start : Nat) (hs : p.stops = none) :
    (wait intr p d fuel start none).killed = none ∧
    (∀ e, p.ends = some e → (wait intr p d fuel start none).result = .returned p.status (max start e)) ∧
    (p.ends = none → (wait intr p d fuel start none).result = .never) := by
  refine ⟨?_, ?_, ?_⟩
  · simp only [wait, waitForever, hs]
    cases p.ends <;> rfl
  · intro e he
    simp only [wait, waitForever, hs, he]
  · intro he
    simp only [wait, waitForever, hs, he]

/-- **C152** is false for a process that is stopped, as by Ctrl-Z: `wait` returns while it has not ended, and `check_call` raises although
the process may go on and succeed. -/
theorem C152_stopped_violated (intr : Bool) (p : Proc) (d : Nat → Nat) (fuel start t sig : Nat) (hs : p.stops = some (t, sig))
    (ht : start ≤ t) (hsig : sig ≠ 0) (hne : ¬ Ended p t) :
    (∃ code, (wait intr p d fuel start none).result = .returned code t ∧ ¬ Ended p t) ∧
    checkCall intr p d fuel start none = .calledProcessError (-(sig : Int)) := by
  have hm : max start t = t := by omega
  constructor
  · refine ⟨-(sig : Int), ?_, hne⟩
    simp only [wait, waitForever, hs, hm]
  · simp only [checkCall, wait, waitForever, hs]
    rw [if_pos (by omega)]

/-- **C152**, partial: `check_call` without a limit returns exactly if the process ends with the status 0, and otherwise raises an error
with its status.  Partial: for a process that is not stopped. -/
theorem C152_check_partial (intr : Bool) (p : Proc) (d : Nat → Nat) (fuel start e : Nat) (hs : p.stops = none) (he : p.ends = some e) :
    (checkCall intr p d fuel start none = .returns ↔ p.status = 0) ∧
    (p.status ≠ 0 → checkCall intr p d fuel start none = .calledProcessError p.status) := by
  simp only [checkCall, wait, waitForever, hs, he]
  constructor
  · split <;> simp_all
  · intro h
    rw [if_pos h]

/-! ## Examples -/

/-- a compiler that succeeds after two seconds -/
def exProc : Proc := { ends := some 200, status := 0 }

/-- with a limit of a minute it is waited for, with an old Python, and then `check_call` returns -/
example : wait true exProc (fun _ => 1) 5 0 (some 6000) = ⟨.returned 0 212, none, true⟩ ∧
    checkCall true exProc (fun _ => 1) 5 0 (some 6000) = .returns := by decide

/-- with a new one the call returns after the minute, and `check_call` raises although the compiler succeeded -/
example : wait false exProc (fun _ => 1) 5 0 (some 6000) = ⟨.returned (-9) 6011, some 6011, true⟩ ∧
    checkCall false exProc (fun _ => 1) 5 0 (some 6000) = .calledProcessError (-9) ∧ ¬ Ended exProc (0 + 1 + 1) := by
  refine ⟨by decide, by decide, ?_⟩
  rintro ⟨e, h, hle⟩
  cases h
  omega

/-- a process that does not end is killed -/
example : wait true { ends := none, status := 0 } (fun _ => 0) 5 0 (some 100) = ⟨.returned (-9) 110, some 110, true⟩ := by decide

/-- the first look sees the end, the sleep misses it, or a look takes too long -/
example : wait true { ends := some 1, status := 7 } (fun _ => 1) 2 0 (some 100) = ⟨.returned 7 2, none, true⟩ ∧
    wait true { ends := some 3, status := 7 } (fun _ => 1) 2 0 (some 100) = ⟨.returned (-9) 111, some 111, true⟩ ∧
    wait true { ends := some 300, status := 7 } (fun k => if k = 2 then 101 else 0) 2 0 (some 100) = ⟨.valueError, none, false⟩ := by
  decide

/-- a process that is stopped -/
example : checkCall false { ends := some 300, status := 0, stops := some (50, 19) } (fun _ => 0) 2 0 none = .calledProcessError (-19) := by
  decide

end Verif.Execute.Wait
