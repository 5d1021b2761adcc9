import Verif.DB.SqliteHistory
import Verif.DB.HitLemmas
/-!
Histories with the sqlite engine and their trace (as `Verif/DB/Trace.lean`).  The property theorems speak about the trace (what was called, what
was observed, which files had which content), not about the tables or the log of the model.
-/
namespace Verif.DB
open SDB
set_option linter.unusedSectionVars false

variable {B R : Type} [DecidableEq B]

/-- The event and the state in which it happened, newest first. -/
abbrev STrace (B R : Type) := List (SSys B R × Event B R)

/-- A history: the events so far and the state reached. -/
inductive SHistory (sg : Sig B R) (vers : FileName → Nat → Option Content) :
    STrace B R → SSys B R → Prop
  | init (env : Env) (h : ∀ x f, env.fs x = some f → vers x f.mtime = f.content) :
      SHistory sg vers [] (SSys.init env)
  | step {tr : STrace B R} {s : SSys B R} (ev : Event B R) (hs : SHistory sg vers tr s)
      (ha : SAllowed vers s ev) :
      SHistory sg vers ((s, ev) :: tr) (SSys.step sg s ev).2

/-- In `tr` the call `id` of `f` with `b` was started in state `s0` (the function was run), and
nothing ended it since. -/
def SRunning (sg : Sig B R) (tr : STrace B R) (id : Nat) (f : FunName) (b : B) (s0 : SSys B R) :
    Prop :=
  ∃ mid older, tr = mid ++ (s0, .prepare id f b) :: older ∧
    (SSys.step sg s0 (.prepare id f b)).1 = .run ∧ ∀ q ∈ mid, q.2.ends id = false

/-- An execution of `f` with arguments `b`: started in `s0`, returned `r` in `s1` having reported
the external files `ext` and `extDsts`; `older` is the trace before its end. -/
structure SExecution (sg : Sig B R) (older : STrace B R) (s0 s1 : SSys B R) (ev : Event B R)
    (f : FunName) (b : B) (r : R) (ext extDsts : List FileName) : Prop where
  ended : ∃ id deps, ev = .complete id r deps ext extDsts ∧ SRunning sg older id f b s0

theorem SHistory.inv {sg : Sig B R} {vers : FileName → Nat → Option Content}
    {tr : STrace B R} {s : SSys B R} (h : SHistory sg vers tr s) : SSysInv sg vers s := by
  induction h with
  | init env h => exact .init h
  | step ev hs ha ih => exact ih.step ev ha

/-- the execution logged by an event -/
def sexecOf (sg : Sig B R) (q : SSys B R × Event B R) : Option (Exec B R) :=
  match q.2 with
  | .complete id r deps ext extDsts =>
    match q.1.inflight.get? id with
    | none => none
    | some p => some ⟨p.fn, p.code, p.bound, r, p.prep.funDirty, p.fs0, q.1.env.fs, deps, ext,
        extDsts,
        match (SSys.step sg q.1 q.2).1 with
        | .done => true
        | _ => false⟩
  | _ => none

theorem sstepPrepare_log (sg : Sig B R) (id : Nat) (f : FunName) (b : B) (s : SSys B R) :
    (SSys.stepPrepare sg id f b s).2.log = s.log := by
  unfold SSys.stepPrepare
  cases s.env.funDigest f with
  | none => rfl
  | some c =>
    simp only
    generalize prepare _ _ _ _ _ _ = X
    obtain ⟨x, db⟩ := X
    cases x with
    | error e => rfl
    | ok p =>
      simp only
      split <;> rfl

theorem sstep_log (sg : Sig B R) (s : SSys B R) (ev : Event B R) :
    (SSys.step sg s ev).2.log = (sexecOf sg (s, ev)).toList ++ s.log := by
  cases ev with
  | prepare id f b =>
    simp [sexecOf, SSys.step, sstepPrepare_log]
  | complete id r deps ext extDsts =>
    simp only [sexecOf, SSys.step, SSys.stepComplete]
    cases hp : s.inflight.get? id with
    | none => rfl
    | some p =>
      simp only
      generalize cache _ _ _ _ _ _ _ _ _ _ _ _ = X
      obtain ⟨x, db⟩ := X
      cases x with
      | error e => rfl
      | ok u => rfl
  | fail id => rfl
  | edit x st => rfl
  | tick n => rfl
  | restart ds => rfl
  | crash ds => rfl
  | deleteFunction f => simp only [SSys.step, sexecOf]; split <;> rfl
  | deleteFile f => simp only [SSys.step, sexecOf]; split <;> rfl

theorem SHistory.log_eq {sg : Sig B R} {vers : FileName → Nat → Option Content}
    {tr : STrace B R} {s : SSys B R} (h : SHistory sg vers tr s) :
    s.log = tr.filterMap (sexecOf sg) := by
  induction h with
  | init env h => rfl
  | step ev hs ha ih =>
    rename_i tr s
    rw [sstep_log, List.filterMap_cons, ih]
    cases sexecOf sg (s, ev) <;> rfl

/-- the event does not change the calls in flight, except those it ends -/
theorem sstep_inflight (sg : Sig B R) (s : SSys B R) (ev : Event B R) (id : Nat) (p : SPending B R)
    (h : (SSys.step sg s ev).2.inflight.get? id = some p) :
    (s.inflight.get? id = some p ∧ ev.ends id = false) ∨
    (ev = .prepare id p.fn p.bound ∧ (SSys.step sg s ev).1 = .run ∧ p.fs0 = s.env.fs ∧
      s.env.funDigest p.fn = some p.code) ∨
    (s.inflight.get? id = some p ∧ ∃ f b, ev = .prepare id f b ∧ (SSys.step sg s ev).1 ≠ .run) ∨
    (s.inflight.get? id = some p ∧ ∃ r d e x, ev = .complete id r d e x ∧
      s.inflight.get? id = none) := by
  cases ev with
  | prepare id' f b =>
    simp only [SSys.step, SSys.stepPrepare] at h ⊢
    cases hc : s.env.funDigest f with
    | none =>
      rw [hc] at h
      by_cases hid : id' = id
      · subst hid; right; right; left; exact ⟨h, f, b, rfl, by simp⟩
      · left; exact ⟨h, by simp [Event.ends, hid]⟩
    | some code =>
      rw [hc] at h
      simp only at h ⊢
      generalize prepare (SDB.storage B R) s.env f b (sg.srcs f code b) s.db = X at h
      obtain ⟨x, db⟩ := X
      cases x with
      | error e =>
        by_cases hid : id' = id
        · subst hid; right; right; left; exact ⟨h, f, b, rfl, by simp⟩
        · left; exact ⟨h, by simp [Event.ends, hid]⟩
      | ok q =>
        simp only at h ⊢
        cases hh : hit s.env (sg.dsts f code b) (sg.returnDsts f code) q with
        | some r =>
          rw [hh] at h
          by_cases hid : id' = id
          · subst hid; right; right; left; exact ⟨h, f, b, rfl, by simp⟩
          · left; exact ⟨h, by simp [Event.ends, hid]⟩
        | none =>
          rw [hh] at h
          simp only [Dict.get?_set] at h ⊢
          by_cases hid : id' = id
          · rw [if_pos hid] at h
            simp only [Option.some.injEq] at h
            subst h hid
            right; left
            exact ⟨rfl, trivial, rfl, hc⟩
          · rw [if_neg hid] at h
            left; exact ⟨h, by simp [Event.ends, hid]⟩
  | complete id' r deps ext extDsts =>
    simp only [SSys.step, SSys.stepComplete] at h ⊢
    cases hp : s.inflight.get? id' with
    | none =>
      rw [hp] at h
      simp only at h
      by_cases hid : id' = id
      · subst hid; rw [hp] at h; cases h
      · left; exact ⟨h, by simp [Event.ends, hid]⟩
    | some p' =>
      rw [hp] at h
      simp only at h
      generalize cache _ _ _ _ _ _ _ _ _ _ _ _ = X at h
      obtain ⟨x, db⟩ := X
      cases x <;>
      · simp only [Dict.get?_erase] at h
        split at h
        · cases h
        · rename_i hid
          left; exact ⟨h, by simp [Event.ends, hid]⟩
  | fail id' =>
    simp only [SSys.step, Dict.get?_erase] at h
    split at h
    · cases h
    · rename_i hid
      left; exact ⟨h, by simp [Event.ends, hid]⟩
  | edit x st => left; exact ⟨h, rfl⟩
  | tick n => left; exact ⟨h, rfl⟩
  | restart ds => simp [SSys.step] at h
  | crash ds => simp [SSys.step] at h
  | deleteFunction f =>
    simp only [SSys.step] at h
    left; refine ⟨?_, rfl⟩
    split at h <;> exact h
  | deleteFile f =>
    simp only [SSys.step] at h
    left; refine ⟨?_, rfl⟩
    split at h <;> exact h

theorem SHistory.running {sg : Sig B R} {vers : FileName → Nat → Option Content}
    {tr : STrace B R} {s : SSys B R} (h : SHistory sg vers tr s) (id : Nat) (p : SPending B R)
    (hp : s.inflight.get? id = some p) :
    ∃ s0, SRunning sg tr id p.fn p.bound s0 ∧ p.fs0 = s0.env.fs ∧
      s0.env.funDigest p.fn = some p.code := by
  induction h with
  | init env h => simp [SSys.init] at hp
  | step ev hs ha ih =>
    rename_i tr s
    rcases sstep_inflight sg s ev id p hp with ⟨h1, h2⟩ | ⟨h1, h2, h3, h4⟩ | ⟨h1, f, b, h2, _⟩ |
      ⟨h1, _, _, _, _, _, h2⟩
    · obtain ⟨s0, ⟨mid, older, h3, h4, h5⟩, h6⟩ := ih h1
      refine ⟨s0, ⟨(s, ev) :: mid, older, by rw [h3]; rfl, h4, ?_⟩, h6⟩
      intro q hq
      rw [List.mem_cons] at hq
      rcases hq with rfl | hq
      · exact h2
      · exact h5 q hq
    · subst h1
      exact ⟨s, ⟨[], tr, rfl, h2, by simp⟩, h3, h4⟩
    · subst h2
      rw [ha.1] at h1; cases h1
    · rw [h2] at h1; cases h1

theorem SHistory.prefix {sg : Sig B R} {vers : FileName → Nat → Option Content}
    {tr newer older : STrace B R} {s : SSys B R} (h : SHistory sg vers tr s)
    {q : SSys B R × Event B R} (he : tr = newer ++ q :: older) :
    SHistory sg vers older q.1 := by
  induction h generalizing newer with
  | init env h => simp at he
  | step ev hs ha ih =>
    cases newer with
    | nil => simp only [List.nil_append, List.cons.injEq] at he; obtain ⟨rfl, rfl⟩ := he; exact hs
    | cons q' newer =>
      simp only [List.cons_append, List.cons.injEq] at he
      exact ih he.2

section
variable {sg : Sig B R} {vers : FileName → Nat → Option Content} {tr : STrace B R} {s : SSys B R}

/-! ### positions of executions in the trace -/

theorem sstep_keeps_inflight (sg : Sig B R) (s : SSys B R) (ev : Event B R) (id : Nat)
    (p : SPending B R) (h : s.inflight.get? id = some p) (he : ev.ends id = false) :
    (SSys.step sg s ev).2.inflight.get? id = some p := by
  cases ev with
  | prepare id' f b =>
    have hid : id' ≠ id := by simpa [Event.ends] using he
    simp only [SSys.step, SSys.stepPrepare]
    cases s.env.funDigest f with
    | none => exact h
    | some code =>
      simp only
      generalize prepare (SDB.storage B R) s.env f b (sg.srcs f code b) s.db = X
      obtain ⟨x, db⟩ := X
      cases x with
      | error e => exact h
      | ok q =>
        simp only
        split
        · exact h
        · simp only [Dict.get?_set, if_neg hid]; exact h
  | complete id' r deps ext extDsts =>
    have hid : id' ≠ id := by simpa [Event.ends] using he
    simp only [SSys.step, SSys.stepComplete]
    cases hp : s.inflight.get? id' with
    | none => exact h
    | some p' =>
      simp only
      split <;>
      · simp only [Dict.get?_erase, if_neg hid]; exact h
  | fail id' =>
    have hid : id' ≠ id := by simpa [Event.ends] using he
    simp only [SSys.step, Dict.get?_erase, if_neg hid]; exact h
  | edit x st => exact h
  | tick n => exact h
  | restart ds => simp [Event.ends] at he
  | crash ds => simp [Event.ends] at he
  | deleteFunction f => simp only [SSys.step]; split <;> exact h
  | deleteFile f => simp only [SSys.step]; split <;> exact h

theorem sprepare_run_inflight (sg : Sig B R) (s : SSys B R) (id : Nat) (f : FunName) (b : B)
    (h : (SSys.step sg s (.prepare id f b)).1 = .run) :
    ∃ p, (SSys.step sg s (.prepare id f b)).2.inflight.get? id = some p ∧ p.fn = f ∧ p.bound = b ∧
      p.fs0 = s.env.fs ∧ s.env.funDigest f = some p.code := by
  simp only [SSys.step, SSys.stepPrepare] at h ⊢
  cases hc : s.env.funDigest f with
  | none => rw [hc] at h; simp at h
  | some code =>
    rw [hc] at h
    simp only at h ⊢
    generalize prepare (SDB.storage B R) s.env f b (sg.srcs f code b) s.db = X at h
    obtain ⟨x, db⟩ := X
    cases x with
    | error e => simp at h
    | ok q =>
      simp only at h ⊢
      split at h
      · simp at h
      · rename_i hn
        exact ⟨⟨f, code, b, q, s.env.fs, s.epoch⟩, by simp [Dict.get?_set], rfl, rfl, rfl, rfl⟩

theorem SHistory.running_inflight (h : SHistory sg vers tr s) {id : Nat} {f : FunName} {b : B}
    {s0 : SSys B R} (hr : SRunning sg tr id f b s0) :
    ∃ p, s.inflight.get? id = some p ∧ p.fn = f ∧ p.bound = b ∧ p.fs0 = s0.env.fs ∧
      s0.env.funDigest f = some p.code := by
  obtain ⟨mid, older, he, hrun, hmid⟩ := hr
  induction h generalizing mid with
  | init env h => simp at he
  | step ev hs ha ih =>
    rename_i tr' s'
    cases mid with
    | nil =>
      simp only [List.nil_append, List.cons.injEq, Prod.mk.injEq] at he
      obtain ⟨⟨rfl, rfl⟩, rfl⟩ := he
      exact sprepare_run_inflight sg s' id f b hrun
    | cons q mid =>
      simp only [List.cons_append, List.cons.injEq] at he
      obtain ⟨rfl, he⟩ := he
      obtain ⟨p, h1, h2⟩ := ih mid he (fun q hq => hmid q (List.mem_cons_of_mem _ hq))
      exact ⟨p, sstep_keeps_inflight sg s' ev id p h1 (hmid (s', ev) (List.mem_cons_self ..)), h2⟩

/-- An execution in the trace is an entry of the log. -/
theorem SExecution.execOf {older : STrace B R} {s0 s1 : SSys B R} {ev : Event B R} {f : FunName}
    {b : B} {r : R} {ext extDsts : List FileName}
    (h : SHistory sg vers older s1)
    (hx : SExecution sg older s0 s1 ev f b r ext extDsts) :
    ∃ e, Verif.DB.sexecOf sg (s1, ev) = some e ∧ e.fn = f ∧ e.bound = b ∧ e.result = r ∧
      e.ext = ext ∧ e.extDsts = extDsts ∧ e.fs0 = s0.env.fs ∧ e.fs1 = s1.env.fs ∧
      s0.env.funDigest f = some e.code ∧ (e.ok = true ↔ (SSys.step sg s1 ev).1 = .done) := by
  obtain ⟨id, deps, rfl, hr⟩ := hx.ended
  obtain ⟨p, h1, h2, h3, h4, h5⟩ := h.running_inflight hr
  simp only [Verif.DB.sexecOf, h1]
  refine ⟨_, rfl, h2, h3, rfl, rfl, rfl, h4, rfl, h5, ?_⟩
  cases (SSys.step sg s1 (.complete id r deps ext extDsts)).1 <;> simp

theorem sexecOf_execution {q : SSys B R × Event B R} {older : STrace B R}
    (h : SHistory sg vers older q.1) {e : Exec B R} (he : sexecOf sg q = some e) :
    ∃ s0, SExecution sg older s0 q.1 q.2 e.fn e.bound e.result e.ext e.extDsts ∧
      e.fs0 = s0.env.fs ∧ e.fs1 = q.1.env.fs ∧ s0.env.funDigest e.fn = some e.code ∧
      (e.ok = true ↔ (SSys.step sg q.1 q.2).1 = .done) := by
  obtain ⟨s1, ev⟩ := q
  cases ev with
  | complete id r deps ext extDsts =>
    simp only [sexecOf] at he
    cases hp : s1.inflight.get? id with
    | none => rw [hp] at he; simp at he
    | some p =>
      rw [hp] at he
      simp only [Option.some.injEq] at he
      obtain ⟨s0, h1, h2, h3⟩ := h.running id p hp
      subst he
      refine ⟨s0, ⟨id, deps, rfl, h1⟩, h2, rfl, h3, ?_⟩
      cases (SSys.step sg s1 (.complete id r deps ext extDsts)).1 <;> simp
  | _ => simp [sexecOf] at he

end
end Verif.DB
