import Verif.Console.Core
/-!
# The log: properties

C52 (no message is lost) and C53 (lines do not mix).
-/
namespace Verif.Console

/-! ## What is asked for -/

/-- the messages an operation is given -/
def Op.msgs : Op → List Msg
  | .write m _ => [m]
  | .log m => [m, newline]
  | .enter | .exit => []

/-- the messages a thread passes to the logger -/
def messages (os : List Op) : List Msg := os.flatMap Op.msgs

/-- every `with log_from_thread()` is left as often as it is entered -/
inductive Nested : List Op → Prop
  | nil : Nested []
  | write (m : Msg) (b : Bool) {os : List Op} : Nested os → Nested (.write m b :: os)
  | log (m : Msg) {os : List Op} : Nested os → Nested (.log m :: os)
  | block {body os : List Op} : Nested body → Nested os → Nested (.enter :: (body ++ .exit :: os))

/-- what a thread has written so far -/
def written (s : State) (t : Nat) : List Msg := (s.out.filter (fun x => x.1 = t)).map (·.2)

/-! ## One thread -/

/-- nothing is lost and no buffer is added -/
def Keeps (f : Stack → List Msg × Stack) (n : Nat) : Prop :=
  ∀ st, st.length ≤ n → ((f st).1 ++ (f st).2.flatten).Perm st.flatten ∧ (f st).2.length ≤ st.length - 1

theorem keeps_writes {f : Stack → List Msg × Stack} {n : Nat} (h : Keeps f n) (ms : List Msg) (st : Stack)
    (hn : st.length ≤ n) :
    ((writes f ms st).1 ++ (writes f ms st).2.flatten).Perm (ms ++ st.flatten) ∧
      (writes f ms st).2.length ≤ st.length := by
  induction ms generalizing st with
  | nil => simp [writes]
  | cons m ms ih =>
    obtain ⟨h1, h2⟩ := h st hn
    obtain ⟨h3, h4⟩ := ih (f st).2 (by omega)
    refine ⟨?_, by simp only [writes]; omega⟩
    simp only [writes, List.cons_append, List.append_assoc, List.perm_cons]
    have h5 := h3.append_left (f st).1
    refine h5.trans ?_
    have h6 : ((f st).1 ++ (ms ++ (f st).2.flatten)).Perm (ms ++ ((f st).1 ++ (f st).2.flatten)) := by
      rw [← List.append_assoc, ← List.append_assoc]
      exact List.perm_append_comm.append_right _
    exact h6.trans (h1.append_left ms)

theorem keeps_flushN (n : Nat) : Keeps (flushN n) n := by
  induction n with
  | zero =>
    intro st hst
    have : st = [] := List.length_eq_zero_iff.mp (by omega)
    subst this
    simp [flushN]
  | succ n ih =>
    intro st hst
    cases st with
    | nil => simp [flushN]
    | cons top rest =>
      simp only [List.length_cons] at hst
      obtain ⟨h1, h2⟩ := keeps_writes ih top rest (by omega)
      exact ⟨by simpa [flushN] using h1, by simpa [flushN] using h2⟩

theorem flush_keeps (st : Stack) :
    ((flush st).1 ++ (flush st).2.flatten).Perm st.flatten ∧ (flush st).2.length ≤ st.length - 1 :=
  keeps_flushN st.length st (Nat.le_refl _)

theorem write_keeps (tc : Nat) (m : Msg) (b : Bool) (st : Stack) :
    ((write tc m b st).1 ++ (write tc m b st).2.flatten).Perm (st.flatten ++ [m]) ∧
      (write tc m b st).2.length ≤ st.length := by
  unfold write
  split
  · obtain ⟨h1, h2⟩ := flush_keeps st
    refine ⟨?_, by dsimp only; omega⟩
    simp only [List.cons_append]
    exact (h1.cons m).trans (List.perm_append_comm (l₁ := [m]))
  · cases st with
    | nil => simp
    | cons top rest =>
      dsimp only
      have hp : ((top ++ [m]) :: rest).flatten.Perm ((top :: rest).flatten ++ [m]) := by
        simp only [List.flatten_cons, List.append_assoc]
        exact List.perm_append_comm.append_left top
      split
      · obtain ⟨h1, h2⟩ := flush_keeps ((top ++ [m]) :: rest)
        exact ⟨h1.trans hp, by simp only [List.length_cons] at *; omega⟩
      · exact ⟨by simpa using hp, by simp⟩

theorem op_keeps (tc : Nat) (o : Op) (st : Stack) :
    ((op tc o st).1 ++ (op tc o st).2.flatten).Perm (st.flatten ++ o.msgs) := by
  cases o with
  | enter => simp [op, Op.msgs]
  | exit => simpa [op, Op.msgs] using (flush_keeps st).1
  | write m b => exact (write_keeps tc m b st).1
  | log m =>
    have h1 := (write_keeps tc m true st).1
    have h2 := (write_keeps tc newline true (write tc m true st).2).1
    simp only [op, Op.msgs, List.append_assoc]
    refine (h2.append_left _).trans ?_
    rw [← List.append_assoc]
    refine (h1.append_right _).trans ?_
    simp

theorem run_keeps (tc : Nat) (os : List Op) (st : Stack) :
    ((run tc os st).1 ++ (run tc os st).2.flatten).Perm (st.flatten ++ messages os) := by
  induction os generalizing st with
  | nil => simp [run, messages]
  | cons o os ih =>
    have h1 := op_keeps tc o st
    have h2 := ih (op tc o st).2
    simp only [run, messages, List.flatMap_cons, List.append_assoc]
    refine (h2.append_left _).trans ?_
    rw [← List.append_assoc]
    refine (h1.append_right _).trans ?_
    simp [messages]

theorem run_append (tc : Nat) (as bs : List Op) (st : Stack) :
    run tc (as ++ bs) st = ((run tc as st).1 ++ (run tc bs (run tc as st).2).1, (run tc bs (run tc as st).2).2) := by
  induction as generalizing st with
  | nil => simp [run]
  | cons a as ih => simp [run, ih]

theorem run_length (tc : Nat) {os : List Op} (h : Nested os) (st : Stack) : (run tc os st).2.length ≤ st.length := by
  induction h generalizing st with
  | nil => simp [run]
  | write m b _ ih =>
    simp only [run, op]
    exact Nat.le_trans (ih _) (write_keeps tc m b st).2
  | log m _ ih =>
    simp only [run, op]
    exact Nat.le_trans (ih _) (Nat.le_trans (write_keeps tc newline true _).2 (write_keeps tc m true st).2)
  | @block body os _ _ ih1 ih2 =>
    simp only [run, op, run_append]
    refine Nat.le_trans (ih2 _) ?_
    have h1 := ih1 ([] :: st)
    have h2 := (flush_keeps (run tc body ([] :: st)).2).2
    simp only [List.length_cons] at h1
    omega

theorem run_all (tc : Nat) {os : List Op} (h : Nested os) :
    (run tc os []).1.Perm (messages os) ∧ (run tc os []).2 = [] := by
  have h1 := run_length tc h []
  have h2 : (run tc os []).2 = [] := List.length_eq_zero_iff.mp (by simpa using h1)
  have h3 := run_keeps tc os []
  rw [h2] at h3
  exact ⟨by simpa using h3, h2⟩

/-! ## Several threads -/

/-- what a thread has written and what it still writes make up what it writes alone -/
theorem written_run {tc : Nat} {prog : Nat → List Op} {s : State} (h : Reach tc prog s) (t : Nat) :
    written s t ++ (s.threads t).pending ++ (run tc (s.threads t).todo (s.threads t).stack).1 = (run tc (prog t) []).1 := by
  induction h with
  | init => simp [written]
  | @step s s' _ hs ih =>
    cases hs with
    | beginLocked u o os h1 h2 h3 h4 h5 =>
      by_cases htu : t = u
      · subst htu
        rw [h1, h2] at ih
        simp only [written, State.set, if_true] at ih ⊢
        simpa [run] using ih
      · simp only [written, State.set, htu, if_false] at ih ⊢
        exact ih
    | beginUnlocked u o os h1 h2 h3 h4 =>
      by_cases htu : t = u
      · subst htu
        rw [h1, h2] at ih
        simp only [written, State.set, if_true] at ih ⊢
        simpa [run] using ih
      · simp only [written, State.set, htu, if_false] at ih ⊢
        exact ih
    | emit u m ms h1 =>
      by_cases htu : t = u
      · subst htu
        rw [h1] at ih
        simp only [written, State.set, if_true] at ih ⊢
        simpa [List.filter_append] using ih
      · have hut : ¬ u = t := fun e => htu e.symm
        simp only [written, State.set, htu, if_false] at ih ⊢
        simpa [List.filter_append, hut] using ih
    | release u h1 h2 =>
      by_cases htu : t = u
      · subst htu
        simp only [written, State.set, if_true] at ih ⊢
        exact ih
      · simp only [written, State.set, htu, if_false] at ih ⊢
        exact ih

/-- **C52**: in every interleaving, when all threads are done, the log file has every message passed to the logger exactly
once. -/
theorem C52_all {tc : Nat} {prog : Nat → List Op} (hprog : ∀ t, Nested (prog t)) {s : State} (h : Reach tc prog s)
    (hf : s.Finished) (t : Nat) : (written s t).Perm (messages (prog t)) := by
  have h1 := written_run h t
  rw [(hf t).1, (hf t).2] at h1
  simp only [run, List.append_nil] at h1
  rw [h1]
  exact (run_all tc (hprog t)).1

/-- Operations whose order is kept: no `with log_from_thread()` inside another, and no `buffer=False` inside one. -/
inductive Flat : List Op → Prop
  | nil : Flat []
  | write (m : Msg) (b : Bool) {os : List Op} : Flat os → Flat (.write m b :: os)
  | log (m : Msg) {os : List Op} : Flat os → Flat (.log m :: os)
  | block {body os : List Op} : (∀ o ∈ body, (∃ m, o = .write m true) ∨ ∃ m, o = .log m) → Flat os →
      Flat (.enter :: (body ++ .exit :: os))

theorem flush_nil : flush [] = ([], []) := rfl

theorem writes_nil (ms : List Msg) (n : Nat) : writes (flushN n) ms [] = (ms, []) := by
  induction ms with
  | nil => rfl
  | cons m ms ih =>
    have : flushN n [] = ([], []) := by cases n <;> rfl
    simp [writes, this, ih]

theorem flush_one (ms : List Msg) : flush [ms] = (ms, []) := writes_nil ms 0

theorem write_nil (tc : Nat) (m : Msg) (b : Bool) : write tc m b [] = ([m], []) := by
  unfold write
  split <;> simp [flush_nil]

/-- one buffer at most: written and buffered messages are in order -/
theorem write_one (tc : Nat) (m : Msg) (st : Stack) (hst : st.length ≤ 1) (htc : tc ≠ 1) :
    (write tc m true st).1 ++ (write tc m true st).2.flatten = st.flatten ++ [m] ∧ (write tc m true st).2.length ≤ 1 := by
  cases st with
  | nil => simp [write_nil]
  | cons top rest =>
    have : rest = [] := by
      simp only [List.length_cons] at hst
      exact List.length_eq_zero_iff.mp (by omega)
    subst this
    unfold write
    simp only [Bool.not_true, Bool.false_or, decide_eq_true_eq, htc, if_false]
    split
    · rw [flush_one]; simp
    · simp

theorem body_one (tc : Nat) (htc : tc ≠ 1) (body : List Op)
    (h : ∀ o ∈ body, (∃ m, o = .write m true) ∨ ∃ m, o = .log m) (st : Stack) (hst : st.length ≤ 1) :
    (run tc body st).1 ++ (run tc body st).2.flatten = st.flatten ++ messages body ∧ (run tc body st).2.length ≤ 1 := by
  induction body generalizing st with
  | nil => simp [run, messages, hst]
  | cons o os ih =>
    have hop : (op tc o st).1 ++ (op tc o st).2.flatten = st.flatten ++ o.msgs ∧ (op tc o st).2.length ≤ 1 := by
      rcases h o (.head _) with ⟨m, rfl⟩ | ⟨m, rfl⟩
      · exact write_one tc m st hst htc
      · obtain ⟨h1, h2⟩ := write_one tc m st hst htc
        obtain ⟨h3, h4⟩ := write_one tc newline _ h2 htc
        refine ⟨?_, h4⟩
        simp only [op, List.append_assoc, h3, Op.msgs]
        rw [← List.append_assoc, h1]
        simp
    obtain ⟨h5, h6⟩ := ih (fun o ho => h o (.tail _ ho)) (op tc o st).2 hop.2
    refine ⟨?_, h6⟩
    simp only [run, List.append_assoc, h5, messages, List.flatMap_cons]
    rw [← List.append_assoc, hop.1]
    simp

/-- with one thread and no message in a buffer nothing is ever buffered -/
theorem body_single (body : List Op) (h : ∀ o ∈ body, (∃ m, o = .write m true) ∨ ∃ m, o = .log m) (st : Stack)
    (hst : st.flatten = []) : (run 1 body st).1 = messages body ∧ (run 1 body st).2.flatten = [] := by
  have hw : ∀ (m : Msg) (st : Stack), st.flatten = [] → (write 1 m true st).1 = [m] ∧ (write 1 m true st).2.flatten = [] := by
    intro m st hst
    have h1 := (flush_keeps st).1
    rw [hst] at h1
    have h2 := List.append_eq_nil_iff.mp (List.perm_nil.mp h1)
    simp only [write, Bool.not_true, Bool.false_or, decide_true, if_true]
    exact ⟨by rw [h2.1], h2.2⟩
  induction body generalizing st with
  | nil => exact ⟨rfl, hst⟩
  | cons o os ih =>
    have hop : (op 1 o st).1 = o.msgs ∧ (op 1 o st).2.flatten = [] := by
      rcases h o (.head _) with ⟨m, rfl⟩ | ⟨m, rfl⟩
      · exact hw m st hst
      · obtain ⟨h1, h2⟩ := hw m st hst
        obtain ⟨h3, h4⟩ := hw newline _ h2
        refine ⟨?_, h4⟩
        simp only [op, h1, h3, Op.msgs]
        rfl
    obtain ⟨h5, h6⟩ := ih (fun o ho => h o (.tail _ ho)) (op 1 o st).2 hop.2
    exact ⟨by simp only [run, hop.1, h5, messages, List.flatMap_cons], h6⟩

theorem run_flat (tc : Nat) {os : List Op} (h : Flat os) : run tc os [] = (messages os, []) := by
  induction h with
  | nil => rfl
  | write m b _ ih => simp only [run, op, write_nil, ih, messages, List.flatMap_cons, Op.msgs]
  | log m _ ih => simp only [run, op, write_nil, ih, messages, List.flatMap_cons, Op.msgs, List.cons_append, List.nil_append]
  | @block body os hb _ ih =>
    have hlen : (run tc body [[]]).2.length ≤ 1 := by
      by_cases htc : tc = 1
      · subst htc
        have hnest : Nested body := by
          clear ih
          induction body with
          | nil => exact .nil
          | cons o os ih =>
            rcases hb o (.head _) with ⟨m, rfl⟩ | ⟨m, rfl⟩
            · exact .write m true (ih fun o ho => hb o (.tail _ ho))
            · exact .log m (ih fun o ho => hb o (.tail _ ho))
        exact run_length 1 hnest [[]]
      · exact (body_one tc htc body hb [[]] (by simp)).2
    have hout : (run tc body [[]]).1 ++ (run tc body [[]]).2.flatten = messages body := by
      by_cases htc : tc = 1
      · subst htc
        obtain ⟨h1, h2⟩ := body_single body hb [[]] rfl
        rw [h1, h2]; simp
      · simpa using (body_one tc htc body hb [[]] (by simp)).1
    simp only [run, op, run_append]
    generalize run tc body [[]] = r at *
    obtain ⟨o, st⟩ := r
    dsimp only at *
    have hfl : flush st = (st.flatten, []) := by
      match st, hlen with
      | [], _ => rfl
      | [ms], _ => rw [flush_one]; simp
    rw [hfl, ih]
    have hm : messages (.enter :: (body ++ .exit :: os)) = messages body ++ messages os := by
      simp [messages, Op.msgs]
    rw [hm, ← hout]
    simp

/-- **C52**, the order: the messages of one thread keep their order.  Partial: no `with log_from_thread()` inside another,
and no `buffer=False` inside one. -/
theorem C52_order_partial {tc : Nat} {prog : Nat → List Op} (hprog : ∀ t, Flat (prog t)) {s : State}
    (h : Reach tc prog s) (hf : s.Finished) (t : Nat) : written s t = messages (prog t) := by
  have h1 := written_run h t
  rw [(hf t).1, (hf t).2, run_flat tc (hprog t)] at h1
  simpa [run] using h1

/-- two threads, each with a line in pieces -/
def exProg : Nat → List Op
  | 0 => [.enter, .write "a".toList true, .write "b\n".toList true, .exit]
  | 1 => [.enter, .log "c".toList, .write "d".toList true, .exit]
  | _ => []

example : ∀ t, Flat (exProg t) := by
  intro t
  match t with
  | 0 => exact .block (body := [_, _]) (by simp) .nil
  | 1 => exact .block (body := [_, _]) (by simp) .nil
  | n + 2 => exact .nil

/-- **C52** fails for the order if `with log_from_thread()` is nested (a task that runs further tasks does this): the outer
message comes into the inner line. -/
theorem C52_nested_violated :
    let prog : Nat → List Op := fun t => if t = 0 then
      [.enter, .write "a".toList true, .enter, .log "b".toList, .exit, .exit] else []
    (∀ t, Nested (prog t)) ∧
    ∀ s, Reach 2 prog s → s.Finished → written s 0 = ["b".toList, "a".toList, "\n".toList] ∧
      messages (prog 0) = ["a".toList, "b".toList, "\n".toList] := by
  intro prog
  constructor
  · intro t
    by_cases ht : t = 0
    · simp only [prog, ht, if_true]
      exact .block (body := [_, _, _, _]) (.write _ _ (.block (body := [_]) (.log _ .nil) .nil)) .nil
    · simp only [prog, ht, if_false]
      exact .nil
  · intro s h hf
    have h1 := written_run h 0
    rw [(hf 0).1, (hf 0).2] at h1
    simp only [run, List.append_nil] at h1
    exact ⟨h1, rfl⟩

/-- **C52** fails for the order if a message is written with `buffer=False` (`Context.execute` does this first of all):
it overtakes the messages before it. -/
theorem C52_unbuffered_violated :
    let prog : Nat → List Op := fun t => if t = 0 then
      [.enter, .write "a".toList true, .write "b".toList false, .exit] else []
    (∀ t, Nested (prog t)) ∧
    ∀ s, Reach 2 prog s → s.Finished → written s 0 = ["b".toList, "a".toList] ∧
      messages (prog 0) = ["a".toList, "b".toList] := by
  intro prog
  constructor
  · intro t
    by_cases ht : t = 0
    · simp only [prog, ht, if_true]
      exact .block (body := [_, _]) (.write _ _ (.write _ _ .nil)) .nil
    · simp only [prog, ht, if_false]
      exact .nil
  · intro s h hf
    have h1 := written_run h 0
    rw [(hf 0).1, (hf 0).2] at h1
    simp only [run, List.append_nil] at h1
    exact ⟨h1, rfl⟩

/-! ## Lines -/

/-- no operation writes without the lock -/
def lockedAll (tc : Nat) : List Op → Stack → Prop
  | [], _ => True
  | o :: os, st => locked tc o st = true ∧ lockedAll tc os (op tc o st).2

/-- what each operation writes -/
def emissions (tc : Nat) : List Op → Stack → List (List Msg)
  | [], _ => []
  | o :: os, st => (op tc o st).1 :: emissions tc os (op tc o st).2

/-- the log file made of blocks -/
def lay (blocks : List (Nat × List Msg)) : List (Nat × Msg) := blocks.flatMap (fun b => b.2.map (fun m => (b.1, m)))

/-- the blocks of a thread -/
def blocksOf (blocks : List (Nat × List Msg)) (t : Nat) : List (List Msg) :=
  (blocks.filter (fun b => b.1 = t)).map (·.2)

structure Tidy (tc : Nat) (prog : Nat → List Op) (s : State) : Prop where
  locked : ∀ t, lockedAll tc (s.threads t).todo (s.threads t).stack
  holder : ∀ t, (s.threads t).holds = true ↔ s.lock = some t
  idle : ∀ t, (s.threads t).holds = false → (s.threads t).pending = []
  blocks : ∃ blocks, lay blocks = s.out ++ (match s.lock with
      | none => []
      | some t => (s.threads t).pending.map (fun m => (t, m))) ∧
    ∀ t, blocksOf blocks t ++ emissions tc (s.threads t).todo (s.threads t).stack = emissions tc (prog t) []

theorem tidy_reach {tc : Nat} {prog : Nat → List Op} (hl : ∀ t, lockedAll tc (prog t) []) {s : State}
    (h : Reach tc prog s) : Tidy tc prog s := by
  induction h with
  | init => exact ⟨hl, by simp, by simp, [], by simp [lay], by simp [blocksOf]⟩
  | @step s s' _ hs ih =>
    obtain ⟨i1, i2, i3, blocks, b1, b2⟩ := ih
    cases hs with
    | beginLocked t o os h1 h2 h3 h4 h5 =>
      have ht := i1 t
      rw [h1] at ht
      refine ⟨?_, ?_, ?_, blocks ++ [(t, (op tc o (s.threads t).stack).1)], ?_, ?_⟩
      · intro u
        by_cases hu : u = t
        · simp only [State.set, hu, if_true]
          exact ht.2
        · simp only [State.set, hu, if_false]
          exact i1 u
      · intro u
        by_cases hu : u = t
        · simp [State.set, hu]
        · simp only [State.set, hu, if_false, i2 u, h4]
          simp only [Option.some.injEq]
          constructor
          · intro h; simp at h
          · intro h; exact absurd h.symm hu
      · intro u hh
        by_cases hu : u = t
        · simp [State.set, hu] at hh
        · simp only [State.set, hu, if_false] at hh ⊢
          exact i3 u hh
      · rw [h4] at b1
        simp only [List.append_nil] at b1
        simp only [lay, List.flatMap_append] at b1 ⊢
        rw [b1]
        simp [State.set]
      · intro u
        have := b2 u
        by_cases hu : u = t
        · subst hu
          rw [h1] at this
          simp only [State.set, if_true]
          rw [← this]
          simp [blocksOf, emissions]
        · have hu' : ¬ t = u := fun e => hu e.symm
          simp only [State.set, hu, if_false]
          rw [← this]
          simp [blocksOf, hu']
    | beginUnlocked t o os h1 h2 h3 h4 =>
      have ht := i1 t
      rw [h1] at ht
      rw [ht.1] at h4
      simp at h4
    | emit t m ms h1 =>
      have hh : (s.threads t).holds = true := by
        cases hb : (s.threads t).holds with
        | true => rfl
        | false => rw [i3 t hb] at h1; simp at h1
      have hlk := (i2 t).mp hh
      refine ⟨?_, ?_, ?_, blocks, ?_, ?_⟩
      · intro u
        by_cases hu : u = t
        · subst hu
          simp only [State.set, if_true]
          exact i1 u
        · simp only [State.set, hu, if_false]
          exact i1 u
      · intro u
        by_cases hu : u = t
        · subst hu
          simp only [State.set, if_true]
          exact i2 u
        · simp only [State.set, hu, if_false]
          exact i2 u
      · intro u hx
        by_cases hu : u = t
        · subst hu
          simp only [State.set, if_true, hh] at hx
          simp at hx
        · simp only [State.set, hu, if_false] at hx ⊢
          exact i3 u hx
      · rw [b1]
        simp only [State.set, hlk, h1, if_true]
        simp
      · intro u
        have := b2 u
        by_cases hu : u = t
        · subst hu
          simp only [State.set, if_true]
          exact this
        · simp only [State.set, hu, if_false]
          exact this
    | release t h1 h2 =>
      have hlk := (i2 t).mp h2
      refine ⟨?_, ?_, ?_, blocks, ?_, ?_⟩
      · intro u
        by_cases hu : u = t
        · subst hu
          simp only [State.set, if_true]
          exact i1 u
        · simp only [State.set, hu, if_false]
          exact i1 u
      · intro u
        by_cases hu : u = t
        · subst hu
          simp [State.set]
        · simp only [State.set, hu, if_false, i2 u, hlk]
          simp only [Option.some.injEq]
          constructor
          · intro h; exact absurd h.symm hu
          · intro h; simp at h
      · intro u hx
        by_cases hu : u = t
        · subst hu
          simp only [State.set, if_true]
          exact h1
        · simp only [State.set, hu, if_false] at hx ⊢
          exact i3 u hx
      · rw [b1]
        simp [hlk, h1, State.set]
      · intro u
        have := b2 u
        by_cases hu : u = t
        · subst hu
          simp only [State.set, if_true]
          exact this
        · simp only [State.set, hu, if_false]
          exact this

theorem emissions_append (tc : Nat) (as bs : List Op) (st : Stack) :
    emissions tc (as ++ bs) st = emissions tc as st ++ emissions tc bs (run tc as st).2 := by
  induction as generalizing st with
  | nil => simp [emissions, run]
  | cons a as ih => simp [emissions, run, ih]

theorem pieces_run (tc : Nat) (htc : tc ≠ 1) (ps : List Msg) (hp : ∀ p ∈ ps, p.getLast? ≠ some '\n') (top : List Msg)
    (rest : Stack) : run tc (ps.map (.write · true)) (top :: rest) = ([], (top ++ ps) :: rest) := by
  induction ps generalizing top with
  | nil => simp [run]
  | cons p ps ih =>
    have h1 : write tc p true (top :: rest) = ([], (top ++ [p]) :: rest) := by
      simp [write, htc, hp p (.head _)]
    simp only [List.map_cons, run, op, h1]
    rw [ih (fun q hq => hp q (.tail _ hq))]
    simp

/-- **C53**: a line that a thread writes in several pieces is not broken by output of another thread.  Partial: the line is
the first one in its `with log_from_thread()`, and no thread writes without buffer and lock. -/
theorem C53_partial {tc : Nat} (htc : tc ≠ 1) {prog : Nat → List Op} (hl : ∀ t, lockedAll tc (prog t) []) {s : State}
    (h : Reach tc prog s) (hf : s.Finished) (t : Nat) (before after : List Op) (pieces : List Msg) (last : Msg)
    (hprog : prog t = before ++ .enter :: (pieces.map (.write · true) ++ .write last true :: after))
    (hbefore : Nested before) (hp : ∀ p ∈ pieces, p.getLast? ≠ some '\n') (hlast : last.getLast? = some '\n') :
    ∃ pre post, s.out = pre ++ (pieces ++ [last]).map (fun m => (t, m)) ++ post := by
  obtain ⟨i1, i2, i3, blocks, b1, b2⟩ := tidy_reach hl h
  have hout : lay blocks = s.out := by
    rw [b1]
    cases hlk : s.lock with
    | none => simp
    | some u => simp [(hf u).2]
  have hb := b2 t
  rw [(hf t).1] at hb
  simp only [emissions, List.append_nil] at hb
  have hst : (run tc before []).2 = [] := (run_all tc hbefore).2
  have hmem : (pieces ++ [last]) ∈ blocksOf blocks t := by
    rw [hb, hprog, emissions_append, hst]
    apply List.mem_append_right
    simp only [emissions, op]
    apply List.Mem.tail
    rw [emissions_append, pieces_run tc htc pieces hp]
    apply List.mem_append_right
    have hw : write tc last true [[] ++ pieces] = (pieces ++ [last], []) := by
      simp [write, htc, hlast, flush_one]
    simp only [emissions, op, hw]
    exact .head _
  unfold blocksOf at hmem
  obtain ⟨b, hb1, hb2⟩ := List.mem_map.mp hmem
  obtain ⟨hb3, hb4⟩ := List.mem_filter.mp hb1
  simp only [decide_eq_true_eq] at hb4
  obtain ⟨xs, ys, hxy⟩ := List.append_of_mem hb3
  refine ⟨lay xs, lay ys, ?_⟩
  rw [← hout, hxy]
  simp only [lay, List.flatMap_append, List.flatMap_cons, hb2, hb4, List.append_assoc]

/-- a line in pieces in one thread, a line by `log` in the other -/
def exTidy : Nat → List Op
  | 0 => [.log "x".toList, .enter, .write "a".toList true, .write "b\n".toList true, .exit]
  | 1 => [.enter, .log "c".toList, .log "d".toList, .exit]
  | _ => []

example : (∀ t, lockedAll 2 (exTidy t) []) ∧
    exTidy 0 = [.log "x".toList] ++ .enter :: (["a".toList].map (.write · true) ++ .write "b\n".toList true :: [.exit]) := by
  refine ⟨?_, rfl⟩
  intro t
  match t with
  | 0 => exact ⟨rfl, rfl, rfl, rfl, rfl, trivial⟩
  | 1 => exact ⟨rfl, rfl, rfl, rfl, trivial⟩
  | n + 2 => exact trivial

/-- **C53** fails for the second line in a `with log_from_thread()`: the first newline ends the buffering, and another
thread writes between the pieces `a` and `b`. -/
theorem C53_violated : ∃ s, Reach 2 (fun t =>
      if t = 0 then [.enter, .log "x".toList, .write "a".toList true, .write "b\n".toList true, .exit]
      else if t = 1 then [.enter, .log "c".toList, .exit] else []) s ∧
    s.out = [(0, "x".toList), (0, "\n".toList), (0, "a".toList), (1, "c".toList), (1, "\n".toList), (0, "b\n".toList)] := by
  have h := Reach.init (threadcount := 2) (prog := fun t =>
      if t = 0 then [.enter, .log "x".toList, .write "a".toList true, .write "b\n".toList true, .exit]
      else if t = 1 then [.enter, .log "c".toList, .exit] else [])
  have h := h.step (.beginLocked _ 0 _ _ rfl rfl rfl rfl rfl)
  have h := h.step (.release _ 0 rfl rfl)
  have h := h.step (.beginLocked _ 0 _ _ rfl rfl rfl rfl rfl)
  have h := h.step (.emit _ 0 _ _ rfl)
  have h := h.step (.emit _ 0 _ _ rfl)
  have h := h.step (.release _ 0 rfl rfl)
  have h := h.step (.beginUnlocked _ 0 _ _ rfl rfl rfl rfl)
  have h := h.step (.emit _ 0 _ _ rfl)
  have h := h.step (.beginLocked _ 1 _ _ rfl rfl rfl rfl rfl)
  have h := h.step (.release _ 1 rfl rfl)
  have h := h.step (.beginLocked _ 1 _ _ rfl rfl rfl rfl rfl)
  have h := h.step (.emit _ 1 _ _ rfl)
  have h := h.step (.emit _ 1 _ _ rfl)
  have h := h.step (.beginUnlocked _ 0 _ _ rfl rfl rfl rfl)
  have h := h.step (.emit _ 0 _ _ rfl)
  exact ⟨_, h, rfl⟩

end Verif.Console
