import Verif.Rpc.Inv

/-! # Properties of the RPC server (C36, C37)

The states `Reach h s0 s` are the ones after `start` has returned, for every schedule of the server and
any number of clients, every handler `h` and every state `s0` of the handler. -/
namespace Verif.Rpc

variable {Q S V E : Type}

/-! ## C36 -/

/-- Requests are executed one at a time and in the order in which they were queued, each once. -/
theorem C36_in_order {h : Q → S → Outcome V E × S} {s0 : S} {s : State Q S V E} (hr : Reach h s0 s) :
    s.log.length ≤ s.asked.length ∧
    serial h s0 ((s.asked.take s.log.length).map Prod.snd) = (s.log, s.st) :=
  ⟨hr.inv.done_le, hr.inv.serial⟩

theorem Reach.outcome {h : Q → S → Outcome V E × S} {s0 : S} {s : State Q S V E} (hr : Reach h s0 s)
    {k : Nat} {o : Outcome V E} (ho : s.log[k]? = some o) :
    (serial h s0 (s.asked.map Prod.snd)).1[k]? = some o := by
  have hs := hr.inv.serial
  have : s.asked.map Prod.snd = (s.asked.take s.log.length).map Prod.snd ++
      (s.asked.drop s.log.length).map Prod.snd := by
    rw [← List.map_append, List.take_append_drop]
  rw [this, serial_append, hs]
  simp only
  rw [List.getElem?_append_left]
  · exact ho
  · exact (List.getElem?_eq_some_iff.mp ho).1

/-- Each call gets the outcome of its own request: client `c`, whose request has number `k`, gets what the
handler did with it after all the requests queued before.  No request is answered twice.

Missing to the full property: a handler that returns an exception (`C36_exception_value_violated`), and a
call right after `start` can be refused (`C36_start_race_violated`). -/
theorem C36_own_answer_partial {h : Q → S → Outcome V E × S} (hx : ∀ q s e, (h q s).1 ≠ .retExc e)
    {s0 : S} {s : State Q S V E} (hr : Reach h s0 s) :
    (∀ c k a, (c, k, a) ∈ s.answers → ∃ q, s.asked[k]? = some (c, q) ∧
      match (serial h s0 (s.asked.map Prod.snd)).1[k]? with
        | some (.ret v) => a = .ok v
        | some (.exc e) => a = .error e
        | some (.fatal e) => a = .error e
        | _ => False) ∧
    (s.answers.map (fun x => x.2.1)).Nodup := by
  refine ⟨?_, hr.inv.once.1⟩
  intro c k a hm
  obtain ⟨⟨q, hq⟩, o, ho, ha⟩ := hr.inv.answers c k a hm
  refine ⟨q, hq, ?_⟩
  rw [hr.outcome ho]
  cases o with
  | ret v => exact ha
  | exc e => exact ha
  | fatal e => exact ha
  | retExc e =>
    exfalso
    have hser : ∀ (l : List Q) (t : S), Outcome.retExc e ∉ (serial h t l).1 := by
      intro l
      induction l with
      | nil => intro t; simp [serial]
      | cons q l ih =>
        intro t
        simp only [serial, List.mem_cons, not_or]
        exact ⟨fun he => hx q t e he.symm, ih _⟩
    have hlog : s.log = (serial h s0 ((s.asked.take s.log.length).map Prod.snd)).1 := by
      rw [hr.inv.serial]
    apply hser
    rw [← hlog]
    exact List.mem_of_getElem? ho

/-- an accepted call becomes the last request of the queue and its client waits for it -/
theorem C36_accepted {h : Q → S → Outcome V E × S} {s0 : S} {s s' : State Q S V E} (_ : Reach h s0 s)
    {c : Nat} {q : Q} (hs : step h s (.call c q) = some s') :
    (s'.asked = s.asked ++ [(c, q)] ∧ s'.client c = .waiting s.asked.length ∧ s'.refused = s.refused) ∨
    (s.running = false ∧ s'.refused = (c, q) :: s.refused ∧ s'.asked = s.asked) := by
  simp only [step] at hs
  split at hs
  · split at hs
    · left
      simp only [Option.some.injEq] at hs
      subst hs
      exact ⟨rfl, set_self _ _ _, rfl⟩
    · right
      rename_i hrun
      simp only [Option.some.injEq] at hs
      subst hs
      exact ⟨by simpa using hrun, rfl, rfl⟩
  · simp at hs

/-! ## C37 -/

/-- If the handler does not end the server, then every accepted request is answered: in every schedule
with enough steps of the server the caller of request `k` gets its answer as soon as it runs.

Missing: handlers that raise a `BaseException` that is no `Exception` (`C37_fatal_violated`). -/
theorem C37_call_returns_partial {h : Q → S → Outcome V E × S} (hf : ∀ q s e, (h q s).1 ≠ .fatal e)
    {s0 : S} {s : State Q S V E} (hr : Reach h s0 s) {c k : Nat} (hw : s.client c = .waiting k)
    (es : List (Event Q)) (hn : 2 * (k + 1) + 1 ≤ turns es) :
    ∃ a, (c, k, a) ∈ (run h s (es ++ [.wake c])).answers := by
  obtain ⟨⟨q, hq⟩, -⟩ := hr.inv.asked c k hw
  have hk : k < s.asked.length := (List.getElem?_eq_some_iff.mp hq).1
  have hneed : need s k ≤ turns es := by
    refine Nat.le_trans ?_ hn
    simp only [need]
    split
    · omega
    · cases s.phase <;> simp <;> omega
  have hlt := run_answered hf hr hk es hneed
  have happ : ∀ (l : List (Event Q)) (t : State Q S V E) e, run h t (l ++ [e]) = run h (run h t l) [e] := by
    intro l
    induction l with
    | nil => intro t e; rfl
    | cons x l ih => intro t e; simp only [run, List.cons_append]; exact ih _ _
  rw [happ]
  have hr' := run_reach hr es
  rcases run_waits (h := h) (.inl hw) es with hw' | ⟨a, ha⟩
  · have hev := (hr'.inv.asked c k hw').2 hlt
    obtain ⟨⟨q', hq'⟩, -⟩ := hr'.inv.asked c k hw'
    have hk' : k < (run h s es).asked.length := (List.getElem?_eq_some_iff.mp hq').1
    have hres := hr'.inv.result k hk'
    rw [List.getElem?_eq_getElem hlt] at hres
    refine ⟨((run h s es).log[k]).answer, ?_⟩
    simp only [run, step, hw', hev, hres, if_true, Option.getD_some]
    exact .head _
  · refine ⟨a, ?_⟩
    simp only [run]
    cases hs : step h (run h s es) (.wake c) with
    | none => exact ha
    | some t => exact step_answers hs ha

/-- If the handler does not end the server and only one client calls `join`, then `join` returns and gives
the lock back after enough steps of the server, so that it does not block the calls of others forever.

Missing: two clients that call `join` (`C37_double_join_violated`). -/
theorem C37_join_returns_partial {h : Q → S → Outcome V E × S} (hf : ∀ q s e, (h q s).1 ≠ .fatal e)
    {s0 : S} {j : Nat} (es es' : List (Event Q)) (he : ∀ c, .join c ∈ es → c = j)
    (he' : ∀ c, .join c ∈ es' → c = j) (hw : (run h (init s0) es).client j = .joinWait)
    (hn : 2 * (run h (init s0) es).queue.length + 2 ≤ turns es') :
    (run h (run h (init s0) es) (es' ++ [.join j])).lock = none ∧
    (run h (run h (init s0) es) (es' ++ [.join j])).phase = .ended := by
  have hsolo := run_solo hf (Solo.init j s0) es he
  have hend := run_ends hf hsolo (.inl hw) es' he' (by
    refine Nat.le_trans ?_ hn
    simp only [remaining]
    cases (run h (init s0) es).phase <;> simp)
  have hsolo' := run_solo hf hsolo es' he'
  have happ : ∀ (l : List (Event Q)) (t : State Q S V E) e, run h t (l ++ [e]) = run h (run h t l) [e] := by
    intro l
    induction l with
    | nil => intro t e; rfl
    | cons x l ih => intro t e; simp only [run, List.cons_append]; exact ih _ _
  rw [happ]
  generalize run h (run h (init s0) es) es' = t at *
  have hlock : t.client j ≠ .joinWait → t.lock = none := by
    intro hj
    cases hl : t.lock with
    | none => rfl
    | some c =>
      have := hsolo'.holder c hl
      by_cases ec : c = j
      · subst ec; exact absurd this hj
      · exact absurd this (hsolo'.others c ec).2
  simp only [run, step]
  cases hc : t.client j with
  | idle =>
    have hl := hlock (by simp [hc])
    simp [hsolo'.ended hend, hl, hend]
  | waiting k =>
    have hl := hlock (by simp [hc])
    simp [hl, hend]
  | joinWant => exact absurd hend (hsolo'.want hc).2.2
  | joinWait =>
    have ht := hsolo'.tasks
    rw [hsolo'.left (.inr hend), hend] at ht
    simp at ht
    simp [ht, hend]

/-! ## Handlers for the examples and witnesses -/

namespace Ex

/-- counts the requests; `0` ends the server, `1` raises, `2` returns an exception -/
def handler (q n : Nat) : Outcome Nat Nat × Nat :=
  (match q with
    | 0 => .fatal 0
    | 1 => .exc 1
    | 2 => .retExc 2
    | q + 3 => .ret (100 * n + q), n + 1)

/-- the same without a fatal outcome -/
def calm (q n : Nat) : Outcome Nat Nat × Nat :=
  (if q = 1 then .exc 1 else .ret (100 * n + q), n + 1)

/-- two clients, three requests -/
def sched : List (Event Nat) :=
  [.server, .call 0 5, .call 1 1, .server, .server, .wake 0, .call 0 7, .server, .server, .server, .server,
    .wake 0, .wake 1]

end Ex

open Ex

example : (run calm (init 0) sched).answers =
    [(1, 1, .error 1), (0, 2, .ok 207), (0, 0, .ok 5)] := by rfl

example : ∀ q s e, (calm q s).1 ≠ .retExc e := by
  intro q s e
  simp only [calm]
  split <;> simp

/-- a client that waits behind another one -/
example : (run calm (init 0) [.server, .call 0 5, .call 1 1]).client 1 = .waiting 1 := by rfl

example : ∀ q s e, (calm q s).1 ≠ .fatal e := by
  intro q s e
  simp only [calm]
  split <;> simp

/-- a client that shuts the server down behind a request -/
example : (run calm (init 0) [.server, .call 0 5, .join 1, .join 1]).client 1 = .joinWait ∧
    (run calm (init 0) [.server, .call 0 5, .join 1, .join 1]).queue = [.call 0 0 5, .null] := ⟨rfl, rfl⟩

/-! ## Violations -/

/-- `start` returns before `_running` is set (rpc.py:80-81): a call can be refused although the server was
started and nobody has stopped it. -/
theorem C36_start_race_violated :
    ∃ s : State Nat Nat Nat Nat, Reach handler 0 s ∧ s.refused = [(0, 5)] ∧ s.asked = [] ∧
      (run handler s [.server, .call 0 5]).asked = [(0, 5)] :=
  ⟨run handler (init 0) [.call 0 5], run_reach .init _, rfl, rfl, rfl⟩

/-- A handler that *returns* an exception: the caller gets it raised (rpc.py:67-68), as if the handler
had raised it. -/
theorem C36_exception_value_violated :
    ∃ s : State Nat Nat Nat Nat, Reach handler 0 s ∧ (serial handler 0 (s.asked.map Prod.snd)).1 = [.retExc 2] ∧
      s.answers = [(0, 0, .error 2)] :=
  ⟨run handler (init 0) [.server, .call 0 2, .server, .server, .wake 0], run_reach .init _, rfl, rfl⟩

/-- once the server has left its loop, a client whose request it did not handle waits forever -/
theorem lost_step {h : Q → S → Outcome V E × S} {c k : Nat} {s : State Q S V E}
    (hl : (s.phase = .leaving ∨ s.phase = .ended) ∧ s.client c = .waiting k ∧ s.event c = false)
    (e : Event Q) {s' : State Q S V E} (hs : step h s e = some s') :
    ((s'.phase = .leaving ∨ s'.phase = .ended) ∧ s'.client c = .waiting k ∧ s'.event c = false) := by
  obtain ⟨hp, hc, he⟩ := hl
  by_cases hes : e = .server
  · subst hes
    simp only [step, server] at hs
    rcases hp with hp | hp
    · rw [hp] at hs
      simp only [Option.some.injEq] at hs
      subst hs
      exact ⟨.inr rfl, hc, he⟩
    · rw [hp] at hs
      simp at hs
  · rw [other_phase hs hes]
    refine ⟨hp, ?_⟩
    cases e with
    | server => exact absurd rfl hes
    | call c' r =>
      simp only [step] at hs
      split at hs
      · rename_i hcond
        have hne : c ≠ c' := by
          intro ec; subst ec; rw [hcond.1] at hc; simp at hc
        split at hs
        · simp only [Option.some.injEq] at hs
          subst hs
          simp only
          rw [set_ne _ _ hne, set_ne _ _ hne]
          exact ⟨hc, he⟩
        · simp only [Option.some.injEq] at hs
          subst hs
          exact ⟨hc, he⟩
      · simp at hs
    | wake c' =>
      simp only [step] at hs
      split at hs
      · split at hs
        · rename_i hev
          have hne : c ≠ c' := by
            intro ec; subst ec; rw [he] at hev; simp at hev
          split at hs
          · simp at hs
          · simp only [Option.some.injEq] at hs
            subst hs
            simp only
            rw [set_ne _ _ hne]
            exact ⟨hc, he⟩
        · simp at hs
      · simp at hs
    | join c' =>
      have hne : (∀ k, s.client c' ≠ .waiting k) → c ≠ c' := by
        intro hx ec; subst ec; exact hx k hc
      simp only [step] at hs
      split at hs
      · rename_i hc'
        split at hs
        · simp only [Option.some.injEq] at hs
          subst hs
          simp only
          rw [set_ne _ _ (hne (by simp [hc']))]
          exact ⟨hc, he⟩
        · simp only [Option.some.injEq] at hs
          subst hs
          exact ⟨hc, he⟩
      · rename_i hc'
        split at hs
        · simp only [Option.some.injEq] at hs
          subst hs
          simp only
          rw [set_ne _ _ (hne (by simp [hc']))]
          exact ⟨hc, he⟩
        · simp at hs
      · rename_i hc'
        split at hs
        · simp only [Option.some.injEq] at hs
          subst hs
          simp only
          rw [set_ne _ _ (hne (by simp [hc']))]
          exact ⟨hc, he⟩
        · simp at hs
      · simp at hs

/-- A handler that raises a `BaseException` ends the server.  A request that was accepted before is never
answered: its caller waits forever, in every schedule. -/
theorem C37_fatal_violated :
    ∃ s : State Nat Nat Nat Nat, Reach handler 0 s ∧ s.client 1 = .waiting 1 ∧
      ∀ es, (run handler s es).client 1 = .waiting 1 ∧ step handler (run handler s es) (.wake 1) = none := by
  refine ⟨run handler (init 0) [.server, .call 0 0, .call 1 5, .server, .server], run_reach .init _, rfl, ?_⟩
  have key : ∀ (es : List (Event Nat)) (s : State Nat Nat Nat Nat),
      ((s.phase = .leaving ∨ s.phase = .ended) ∧ s.client 1 = .waiting 1 ∧ s.event 1 = false) →
      (((run handler s es).phase = .leaving ∨ (run handler s es).phase = .ended) ∧
        (run handler s es).client 1 = .waiting 1 ∧ (run handler s es).event 1 = false) := by
    intro es
    induction es with
    | nil => intro s h; exact h
    | cons e es ih =>
      intro s h
      simp only [run]
      apply ih
      cases hs : step handler s e with
      | none => exact h
      | some s' => exact lost_step h e hs
  intro es
  obtain ⟨-, h1, h2⟩ := key es (run handler (init 0) [.server, .call 0 0, .call 1 5, .server, .server])
    ⟨.inl rfl, rfl, rfl⟩
  exact ⟨h1, by simp only [step, h1, h2]; rfl⟩

/-- Two clients call `join` (both see `_running`): the second one puts `_NULL` into the queue of a server
that has ended and waits forever, with the lock held.  Every later call blocks forever. -/
theorem C37_double_join_violated :
    ∃ s : State Nat Nat Nat Nat, Reach calm 0 s ∧ s.client 2 = .idle ∧ s.client 1 = .joinWait ∧
      ∀ es q, step calm (run calm s es) (.call 2 q) = none ∧ step calm (run calm s es) (.join 1) = none := by
  refine ⟨run calm (init 0) [.server, .join 0, .join 1, .join 0, .server, .server, .join 0, .join 1],
    run_reach .init _, rfl, rfl, ?_⟩
  have one : ∀ (e : Event Nat) (s s' : State Nat Nat Nat Nat),
      (s.phase = .ended ∧ s.lock = some 1 ∧ s.client 1 = .joinWait ∧ s.unfinished = 1) →
      step calm s e = some s' →
      (s'.phase = .ended ∧ s'.lock = some 1 ∧ s'.client 1 = .joinWait ∧ s'.unfinished = 1) := by
    intro e s s' ⟨h1, h2, h3, h4⟩ hs
    cases e with
    | server => simp [step, server, h1] at hs
    | call c r => simp [step, h2] at hs
    | wake c =>
      simp only [step] at hs
      split at hs
      · rename_i k hk
        have hne : 1 ≠ c := by
          intro ec; subst ec; rw [h3] at hk; simp at hk
        split at hs
        · split at hs
          · simp at hs
          · simp only [Option.some.injEq] at hs
            subst hs
            refine ⟨h1, h2, ?_, h4⟩
            simp only
            rw [set_ne _ _ hne]
            exact h3
        · simp at hs
      · simp at hs
    | join c =>
      simp only [step, h2, h4] at hs
      split at hs
      · rename_i hk
        have hne : 1 ≠ c := by
          intro ec; subst ec; rw [h3] at hk; simp at hk
        split at hs
        · simp only [Option.some.injEq] at hs
          subst hs
          refine ⟨h1, rfl, ?_, rfl⟩
          simp only
          rw [set_ne _ _ hne]
          exact h3
        · simp only [Option.some.injEq] at hs
          subst hs
          exact ⟨h1, h2, h3, h4⟩
      · simp at hs
      · simp at hs
      · simp at hs
  have key : ∀ (es : List (Event Nat)) (s : State Nat Nat Nat Nat),
      (s.phase = .ended ∧ s.lock = some 1 ∧ s.client 1 = .joinWait ∧ s.unfinished = 1) →
      ((run calm s es).phase = .ended ∧ (run calm s es).lock = some 1 ∧
        (run calm s es).client 1 = .joinWait ∧ (run calm s es).unfinished = 1) := by
    intro es
    induction es with
    | nil => intro s h; exact h
    | cons e es ih =>
      intro s h
      simp only [run]
      apply ih
      cases hs : step calm s e with
      | none => exact h
      | some s' => exact one e s s' h hs
  intro es q
  obtain ⟨h1, h2, h3, h4⟩ := key es
    (run calm (init 0) [.server, .join 0, .join 1, .join 0, .server, .server, .join 0, .join 1])
    ⟨rfl, rfl, rfl, rfl⟩
  exact ⟨by simp [step, h2], by simp [step, h3, h4]⟩

end Verif.Rpc
