import Verif.Execute.Core
/-!
# Execution of commands: properties

C51: the outcome of `execute`.
-/
namespace Verif.Execute

/-- how far the calling thread is, in terms of the return code it has read -/
def Phase.code : Phase → Option Int
  | .reaped c | .cancelled c => some c
  | _ => none

structure Inv (c : Config) (s : State) : Prop where
  /-- what the calling thread has read is the return code, or what `kill` has set -/
  code : ∀ x, s.phase.code = some x → (∃ y, s.child = .ended y) ∧ (s.child = .ended x ∨ x = -9 ∧ s.timedOut = true)
  set : ∀ x, s.returncode = some x → s.phase = .waiting → x = -9 ∧ s.timedOut = true
  cancelled : ∀ x, s.phase = .cancelled x → x ≠ -2
  flag : s.killed = true → s.timedOut = true
  flagged : s.timer = .flagged → s.timedOut = true
  timeout : s.timedOut = true → c.timeout = true
  timer : s.timer ≠ .absent → c.timeout = true
  before : s.phase = .start → s.child = .absent ∧ s.timer = .absent ∧ s.killed = false ∧ s.timedOut = false ∧
    s.returncode = none
  raisingInt : s.phase = .raising .keyboardInterrupt ∨ s.phase = .done .keyboardInterrupt →
    s.interrupted = true ∨ s.child = .ended (-2)
  raisingOs : s.phase = .raising .osError ∨ s.phase = .done .osError → s.failed = true
  raisingOther : ∀ o, s.phase = .raising o → o = .keyboardInterrupt ∨ o = .osError
  returned : s.phase = .done .returned →
    ∃ x, s.child = .ended x ∧ x ≠ -2 ∧ (x = 0 ∨ c.ignoreError = true) ∧ s.killed = false ∧
      s.interrupted = false ∧ s.failed = false
  error : s.phase = .done .executionError →
    ∃ x, s.child = .ended x ∧ x ≠ 0 ∧ x ≠ -2 ∧ c.ignoreError = false ∧ s.killed = false ∧
      s.interrupted = false ∧ s.failed = false
  late : s.phase = .done .timedOut → s.timedOut = true ∧ s.interrupted = false ∧ s.failed = false
  calm : (∀ o, s.phase ≠ .raising o ∧ s.phase ≠ .done o) → s.interrupted = false ∧ s.failed = false
  /-- a child that was read is not killed any more -/
  killedEnd : s.killed = true → s.child = .ended (-9)

theorem kill_ended (x : Int) : Child.kill (.ended x) = .ended x := rfl

theorem inv_init (c : Config) : Inv c {} := by
  constructor <;> simp [Phase.code]

set_option maxHeartbeats 2000000 in
theorem inv_step {c : Config} {s t : State} (i : Inv c s) (h : Step c s t) : Inv c t := by
  obtain ⟨i1, i0, i2, i3, i4, i5, i6, i7, i8, i9, i10, i11, i12, i13, i14, i15⟩ := i
  cases h with
  | popen hp =>
    obtain ⟨a1, a2, a3, a4, a5⟩ := i7 hp
    by_cases ht : c.timeout = true <;> constructor <;> simp_all [Phase.code]
  | popenFails hp =>
    obtain ⟨a1, a2, a3, a4, a5⟩ := i7 hp
    constructor <;> simp_all [Phase.code]
  | childEnds x hc => constructor <;> simp_all
  | timerFires ht => constructor <;> simp_all
  | timerFlags ht =>
    have hc : ∀ x, s.phase.code = some x → s.child = .ended x ∨ x = -9 := by
      intro x hx
      rcases (i1 x hx).2 with h | h
      · exact .inl h
      · exact .inr h.1
    constructor <;> simp_all
  | timerKills ht =>
    cases hc : s.child with
    | running => constructor <;> simp_all [Child.kill]
    | absent => constructor <;> simp_all [Child.kill]
    | ended x => constructor <;> simp_all [Child.kill]
  | reap x hp hc =>
    cases hr : s.returncode with
    | none => constructor <;> simp_all [Phase.code]
    | some y =>
      obtain ⟨b1, b2⟩ := i0 y hr hp
      subst b1
      constructor <;> simp_all [Phase.code]
  | interrupt hp => constructor <;> simp_all [Phase.code]
  | communicateFails hp => constructor <;> simp_all [Phase.code]
  | ctrlC hp => constructor <;> simp_all [Phase.code]
  | cancel x hp hx =>
    have hcan : s.timer.cancel = .flagged → s.timer = .flagged := by cases s.timer <;> simp [Timer.cancel]
    have hcan2 : s.timer.cancel ≠ .absent → s.timer ≠ .absent := by cases s.timer <;> simp [Timer.cancel]
    constructor <;> simp_all [Phase.code]
  | cancelRaising o hp =>
    have hcan : s.timer.cancel = .flagged → s.timer = .flagged := by cases s.timer <;> simp [Timer.cancel]
    have hcan2 : s.timer.cancel ≠ .absent → s.timer ≠ .absent := by cases s.timer <;> simp [Timer.cancel]
    rcases i10 o hp with rfl | rfl <;> constructor <;> simp_all [Phase.code]
  | finish x hp =>
    obtain ⟨⟨y, hy⟩, hc⟩ := i1 x (by rw [hp]; rfl)
    have hx := i2 x hp
    have hcalm := i14 (by simp [hp])
    by_cases h1 : s.timedOut = true
    · have h2 := i5 h1
      have ho : decideOutcome c s.timedOut x = .timedOut := by simp [decideOutcome, h1, h2]
      rw [ho]
      constructor <;> simp_all [Phase.code]
    · by_cases h3 : x ≠ 0 ∧ ¬ c.ignoreError = true
      · have hc : s.child = .ended x := by
          rcases hc with hc | hc
          · exact hc
          · exact absurd hc.2 h1
        clear hy y
        have ho : decideOutcome c s.timedOut x = .executionError := by simp [decideOutcome, h1, h3]
        rw [ho]
        constructor <;> simp_all [Phase.code]
      · have hc : s.child = .ended x := by
          rcases hc with hc | hc
          · exact hc
          · exact absurd hc.2 h1
        clear hy y
        have h4 : x = 0 ∨ c.ignoreError = true := by
          by_cases hx0 : x = 0
          · exact .inl hx0
          · right
            by_cases hi : c.ignoreError = true
            · exact hi
            · exact absurd ⟨hx0, hi⟩ h3
        have ho : decideOutcome c s.timedOut x = .returned := by simp only [decideOutcome, h1, h3]; simp
        rw [ho]
        constructor <;> simp_all [Phase.code]

theorem inv_reach {c : Config} {s : State} (h : Reach c s) : Inv c s := by
  induction h with
  | init => exact inv_init c
  | step _ hs ih => exact inv_step ih hs

/-- **C51**: if `execute` returns normally, the command was not killed because of the timeout, was not interrupted (neither
here nor by ctrl-c in the child), and exited with 0 or errors are ignored. -/
theorem C51_returned {c : Config} {s : State} (h : Reach c s) (hd : s.phase = .done .returned) :
    ∃ code, s.child = .ended code ∧ (code = 0 ∨ c.ignoreError = true) ∧ code ≠ -2 ∧ s.killed = false ∧
      s.interrupted = false := by
  obtain ⟨x, h1, h2, h3, h4, h5, _⟩ := (inv_reach h).returned hd
  exact ⟨x, h1, h3, h2, h4, h5⟩

/-- **C51**, the other direction: a command that was not interrupted, for which the system reported no error, and that
exited with 0 or errors are ignored, makes `execute` return normally.  Partial: the timer did not go off at all. -/
theorem C51_raised_partial {c : Config} {s : State} (h : Reach c s) (o : Outcome) (hd : s.phase = .done o) (code : Int)
    (hc : s.child = .ended code) (hok : code = 0 ∨ c.ignoreError = true) (hsig : code ≠ -2) (ht : s.timedOut = false)
    (hi : s.interrupted = false) (hf : s.failed = false) : o = .returned := by
  have i := inv_reach h
  cases o with
  | returned => rfl
  | executionError =>
    obtain ⟨x, h1, h2, h3, h4, _⟩ := i.error hd
    rw [hc] at h1
    simp only [Child.ended.injEq] at h1
    subst h1
    rcases hok with h | h
    · exact absurd h h2
    · rw [h4] at h; simp at h
  | timedOut => have := (i.late hd).1; rw [ht] at this; simp at this
  | keyboardInterrupt =>
    rcases i.raisingInt (.inr hd) with h | h
    · rw [hi] at h; simp at h
    · rw [hc] at h
      simp only [Child.ended.injEq] at h
      exact absurd h hsig
  | osError => have := i.raisingOs (.inr hd); rw [hf] at this; simp at this

/-- **C51**: each exception has its reason: `ExecutionError` a return code other than 0 that is not ignored,
`KeyboardInterrupt` an interrupt here or in the child, `ExecutionTimedOut` a timeout that was given and is over. -/
theorem C51_reasons {c : Config} {s : State} (h : Reach c s) :
    (s.phase = .done .executionError → ∃ code, s.child = .ended code ∧ code ≠ 0 ∧ c.ignoreError = false) ∧
    (s.phase = .done .keyboardInterrupt → s.interrupted = true ∨ s.child = .ended (-2)) ∧
    (s.phase = .done .timedOut → c.timeout = true ∧ s.timedOut = true) ∧
    (s.phase = .done .osError → s.failed = true) := by
  have i := inv_reach h
  refine ⟨?_, fun hd => i.raisingInt (.inr hd), fun hd => ⟨i.timeout (i.late hd).1, (i.late hd).1⟩,
    fun hd => i.raisingOs (.inr hd)⟩
  intro hd
  obtain ⟨x, h1, h2, _, h3, _⟩ := i.error hd
  exact ⟨x, h1, h2, h3⟩

/-- **C51**: a command killed because of the timeout makes `execute` raise `ExecutionTimedOut`, unless it was interrupted
or the system reported an error; also if errors are ignored. -/
theorem C51_killed {c : Config} {s : State} (h : Reach c s) (o : Outcome) (hd : s.phase = .done o)
    (hk : s.killed = true) (hi : s.interrupted = false) (hf : s.failed = false) :
    o = .timedOut := by
  have i := inv_reach h
  cases o with
  | timedOut => rfl
  | returned => obtain ⟨x, _, _, _, h4, _⟩ := i.returned hd; rw [hk] at h4; simp at h4
  | executionError => obtain ⟨x, _, _, _, _, h5, _⟩ := i.error hd; rw [hk] at h5; simp at h5
  | keyboardInterrupt =>
    rcases i.raisingInt (.inr hd) with h | h
    · rw [hi] at h; simp at h
    · rw [i.killedEnd hk] at h; simp at h
  | osError => have := i.raisingOs (.inr hd); rw [hf] at this; simp at this

def exConfig : Config := ⟨true, false⟩

/-- a command that succeeds before its time is over -/
theorem ex_success : Reach exConfig
    { phase := .done .returned, child := .ended 0, timer := .cancelled } := by
  have h := Reach.init (c := exConfig)
  have h := h.step (.popen _ rfl)
  have h := h.step (.childEnds _ 0 rfl)
  have h := h.step (.reap _ 0 rfl rfl)
  have h := h.step (.cancel _ 0 rfl (by decide))
  exact h.step (.finish _ 0 rfl)

example : ∃ code, Child.ended 0 = .ended code ∧ (code = 0 ∨ exConfig.ignoreError = true) ∧ code ≠ -2 ∧ false = false ∧
    false = false := C51_returned ex_success rfl

/-- a command that is killed -/
theorem ex_killed : Reach exConfig
    { phase := .done .timedOut, child := .ended (-9), timer := .over, timedOut := true, returncode := some (-9),
      killed := true } := by
  have h := Reach.init (c := exConfig)
  have h := h.step (.popen _ rfl)
  have h := h.step (.timerFires _ rfl)
  have h := h.step (.timerFlags _ rfl)
  have h := h.step (.timerKills _ rfl)
  have h := h.step (.reap _ (-9) rfl rfl)
  have h := h.step (.cancel _ (-9) rfl (by decide))
  exact h.step (.finish _ (-9) rfl)

example : Outcome.timedOut = .timedOut := C51_killed ex_killed _ rfl rfl rfl rfl

/-- **C51** fails in a race: the command exits with 0 by itself, the time is over before the timer is cancelled, and
`execute` raises `ExecutionTimedOut`. -/
theorem C51_race_violated : ∃ s, Reach exConfig s ∧ s.phase = .done .timedOut ∧ s.child = .ended 0 ∧ s.killed = false ∧
    s.interrupted = false ∧ s.failed = false := by
  have h := Reach.init (c := exConfig)
  have h := h.step (.popen _ rfl)
  have h := h.step (.childEnds _ 0 rfl)
  have h := h.step (.timerFires _ rfl)
  have h := h.step (.reap _ 0 rfl rfl)
  have h := h.step (.timerFlags _ rfl)
  have h := h.step (.cancel _ 0 rfl (by decide))
  exact ⟨_, h.step (.finish _ 0 rfl), rfl, rfl, rfl, rfl, rfl⟩

/-- **C51**: when `execute` is left, in whatever way, the timer cannot go off any more: it was never started, was cancelled,
or its time was over before. -/
theorem C51_timer_stopped {c : Config} {s : State} (h : Reach c s) (o : Outcome) (hd : s.phase = .done o) :
    s.timer ≠ .waiting := by
  have inv : ∀ {s : State}, Reach c s →
      (s.phase = .start → s.timer = .absent) ∧
      ((∃ code, s.phase = .cancelled code) ∨ (∃ o, s.phase = .done o) → s.timer ≠ .waiting) := by
    intro s h
    induction h with
    | init => simp
    | step _ hs ih =>
      obtain ⟨i1, i2⟩ := ih
      have hcancel : ∀ t : Timer, t.cancel ≠ .waiting := by
        intro t; cases t <;> simp [Timer.cancel]
      cases hs with
      | popen hp => simp
      | popenFails hp => simp [i1 hp]
      | childEnds x hc => exact ⟨i1, i2⟩
      | timerFires ht =>
        refine ⟨fun hp => ?_, fun _ => by simp⟩
        have := i1 hp
        rw [ht] at this; cases this
      | timerFlags ht =>
        refine ⟨fun hp => ?_, fun _ => by simp⟩
        have := i1 hp
        rw [ht] at this; cases this
      | timerKills ht =>
        refine ⟨fun hp => ?_, fun _ => by simp⟩
        have := i1 hp
        rw [ht] at this; cases this
      | reap x hp hc => simp
      | interrupt hp => simp
      | communicateFails hp => simp
      | ctrlC hp => simp
      | cancel x hp hx => simp [hcancel]
      | cancelRaising o hp => simp [hcancel]
      | finish x hp =>
        refine ⟨fun h => (nomatch h), fun _ => i2 (Or.inl ⟨x, hp⟩)⟩
  exact (inv h).2 (Or.inr ⟨o, hd⟩)

/-- an interrupted command: the timer, which was running, is cancelled -/
example : ∃ s, Reach exConfig s ∧ s.phase = .done .keyboardInterrupt ∧ s.timer = .cancelled := by
  have h := Reach.init (c := exConfig)
  have h := h.step (.popen _ rfl)
  have h := h.step (.interrupt _ rfl)
  exact ⟨_, h.step (.cancelRaising _ _ rfl), rfl, rfl⟩

end Verif.Execute
