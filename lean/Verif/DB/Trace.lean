import Verif.DB.HistoryProofs
/-!
Histories with their trace.  The property theorems speak about the trace (what was called, what
was observed, which files had which content), not about the tables or the log of the model.
-/
namespace Verif.DB
open CDB
set_option linter.unusedSectionVars false

variable {B R : Type} [DecidableEq B]

/-- The event and the state in which it happened, newest first. -/
abbrev Trace (B R : Type) := List (Sys B R × Event B R)

/-- A history: the events so far and the state reached. -/
inductive History (sg : Sig B R) (vers : FileName → Nat → Option Content) (crashes : Bool) :
    Trace B R → Sys B R → Prop
  | init (env : Env) (h : ∀ x f, env.fs x = some f → vers x f.mtime = f.content) :
      History sg vers crashes [] (Sys.init env)
  | step {tr : Trace B R} {s : Sys B R} (ev : Event B R) (hs : History sg vers crashes tr s)
      (ha : Allowed vers s ev) (hc : ev.isCrash = true → crashes = true) :
      History sg vers crashes ((s, ev) :: tr) (step sg s ev).2

/-- the event belongs to call `id`, or ends all calls -/
def Event.ends (id : Nat) : Event B R → Bool
  | .prepare i _ _ => i == id
  | .complete i _ _ _ _ => i == id
  | .fail i => i == id
  | .restart _ => true
  | .crash _ => true
  | _ => false

/-- In `tr` the call `id` of `f` with `b` was started in state `s0` (the function was run), and
nothing ended it since. -/
def Running (sg : Sig B R) (tr : Trace B R) (id : Nat) (f : FunName) (b : B) (s0 : Sys B R) :
    Prop :=
  ∃ mid older, tr = mid ++ (s0, .prepare id f b) :: older ∧
    (step sg s0 (.prepare id f b)).1 = .run ∧ ∀ q ∈ mid, q.2.ends id = false

/-- An execution of `f` with arguments `b`: started in `s0`, returned `r` in `s1` having reported
the external files `ext` and `extDsts`; `older` is the trace before its end. -/
structure Execution (sg : Sig B R) (older : Trace B R) (s0 s1 : Sys B R) (ev : Event B R)
    (f : FunName) (b : B) (r : R) (ext extDsts : List FileName) : Prop where
  ended : ∃ id deps, ev = .complete id r deps ext extDsts ∧ Running sg older id f b s0

theorem History.reach {sg : Sig B R} {vers : FileName → Nat → Option Content} {crashes : Bool}
    {tr : Trace B R} {s : Sys B R} (h : History sg vers crashes tr s) : Reach sg vers crashes s := by
  induction h with
  | init env h => exact .init env h
  | step ev hs ha hc ih => exact .step ev ih ha hc

/-- the execution logged by an event -/
def execOf (sg : Sig B R) (q : Sys B R × Event B R) : Option (Exec B R) :=
  match q.2 with
  | .complete id r deps ext extDsts =>
    match q.1.inflight.get? id with
    | none => none
    | some p => some ⟨p.fn, p.code, p.bound, r, p.prep.funDirty, p.fs0, q.1.env.fs, deps, ext,
        extDsts,
        match (step sg q.1 q.2).1 with
        | .done => true
        | _ => false⟩
  | _ => none

theorem stepPrepare_log (sg : Sig B R) (id : Nat) (f : FunName) (b : B) (s : Sys B R) :
    (stepPrepare sg id f b s).2.log = s.log := by
  unfold stepPrepare
  cases s.env.funDigest f with
  | none => rfl
  | some c =>
    simp only
    generalize prepare _ _ _ _ _ _ = X
    obtain ⟨x, db⟩ := X
    cases x with
    | error e => rfl
    | ok p =>
      simp only
      split <;> rfl

theorem step_log (sg : Sig B R) (s : Sys B R) (ev : Event B R) :
    (step sg s ev).2.log = (execOf sg (s, ev)).toList ++ s.log := by
  cases ev with
  | prepare id f b =>
    simp [execOf, step, stepPrepare_log]
  | complete id r deps ext extDsts =>
    simp only [execOf, step, stepComplete]
    cases hp : s.inflight.get? id with
    | none => rfl
    | some p =>
      simp only
      generalize cache _ _ _ _ _ _ _ _ _ _ _ _ = X
      obtain ⟨x, db⟩ := X
      cases x with
      | error e => rfl
      | ok u => rfl
  | fail id => rfl
  | edit x st => rfl
  | tick n => rfl
  | restart ds => rfl
  | crash ds => rfl
  | deleteFunction f => simp only [step, execOf]; split <;> rfl
  | deleteFile f => simp only [step, execOf]; split <;> rfl

theorem History.log_eq {sg : Sig B R} {vers : FileName → Nat → Option Content} {crashes : Bool}
    {tr : Trace B R} {s : Sys B R} (h : History sg vers crashes tr s) :
    s.log = tr.filterMap (execOf sg) := by
  induction h with
  | init env h => rfl
  | step ev hs ha hc ih =>
    rename_i tr s
    rw [step_log, List.filterMap_cons, ih]
    cases execOf sg (s, ev) <;> rfl

/-- the event does not change the calls in flight, except those it ends -/
theorem step_inflight (sg : Sig B R) (s : Sys B R) (ev : Event B R) (id : Nat) (p : Pending B R)
    (h : (step sg s ev).2.inflight.get? id = some p) :
    (s.inflight.get? id = some p ∧ ev.ends id = false) ∨
    (ev = .prepare id p.fn p.bound ∧ (step sg s ev).1 = .run ∧ p.fs0 = s.env.fs ∧
      s.env.funDigest p.fn = some p.code) ∨
    (s.inflight.get? id = some p ∧ ∃ f b, ev = .prepare id f b ∧ (step sg s ev).1 ≠ .run) ∨
    (s.inflight.get? id = some p ∧ ∃ r d e x, ev = .complete id r d e x ∧
      s.inflight.get? id = none) := by
  cases ev with
  | prepare id' f b =>
    simp only [step, stepPrepare] at h ⊢
    cases hc : s.env.funDigest f with
    | none =>
      rw [hc] at h
      by_cases hid : id' = id
      · subst hid; right; right; left; exact ⟨h, f, b, rfl, by simp⟩
      · left; exact ⟨h, by simp [Event.ends, hid]⟩
    | some code =>
      rw [hc] at h
      simp only at h ⊢
      generalize prepare (storage B R) s.env f b (sg.srcs f code b) s.db = X at h
      obtain ⟨x, db⟩ := X
      cases x with
      | error e =>
        by_cases hid : id' = id
        · subst hid; right; right; left; exact ⟨h, f, b, rfl, by simp⟩
        · left; exact ⟨h, by simp [Event.ends, hid]⟩
      | ok q =>
        simp only at h ⊢
        cases hh : hit s.env (sg.dsts f code b) (sg.returnDsts f code) q with
        | some r =>
          rw [hh] at h
          by_cases hid : id' = id
          · subst hid; right; right; left; exact ⟨h, f, b, rfl, by simp⟩
          · left; exact ⟨h, by simp [Event.ends, hid]⟩
        | none =>
          rw [hh] at h
          simp only [Dict.get?_set] at h ⊢
          by_cases hid : id' = id
          · rw [if_pos hid] at h
            simp only [Option.some.injEq] at h
            subst h hid
            right; left
            exact ⟨rfl, trivial, rfl, hc⟩
          · rw [if_neg hid] at h
            left; exact ⟨h, by simp [Event.ends, hid]⟩
  | complete id' r deps ext extDsts =>
    simp only [step, stepComplete] at h ⊢
    cases hp : s.inflight.get? id' with
    | none =>
      rw [hp] at h
      simp only at h
      by_cases hid : id' = id
      · subst hid; rw [hp] at h; cases h
      · left; exact ⟨h, by simp [Event.ends, hid]⟩
    | some p' =>
      rw [hp] at h
      simp only at h
      generalize cache _ _ _ _ _ _ _ _ _ _ _ _ = X at h
      obtain ⟨x, db⟩ := X
      cases x <;>
      · simp only [Dict.get?_erase] at h
        split at h
        · cases h
        · rename_i hid
          left; exact ⟨h, by simp [Event.ends, hid]⟩
  | fail id' =>
    simp only [step, Dict.get?_erase] at h
    split at h
    · cases h
    · rename_i hid
      left; exact ⟨h, by simp [Event.ends, hid]⟩
  | edit x st => left; exact ⟨h, rfl⟩
  | tick n => left; exact ⟨h, rfl⟩
  | restart ds => simp [step] at h
  | crash ds => simp [step] at h
  | deleteFunction f =>
    simp only [step] at h
    left; refine ⟨?_, rfl⟩
    split at h <;> exact h
  | deleteFile f =>
    simp only [step] at h
    left; refine ⟨?_, rfl⟩
    split at h <;> exact h

theorem History.running {sg : Sig B R} {vers : FileName → Nat → Option Content} {crashes : Bool}
    {tr : Trace B R} {s : Sys B R} (h : History sg vers crashes tr s) (id : Nat) (p : Pending B R)
    (hp : s.inflight.get? id = some p) :
    ∃ s0, Running sg tr id p.fn p.bound s0 ∧ p.fs0 = s0.env.fs ∧
      s0.env.funDigest p.fn = some p.code := by
  induction h with
  | init env h => simp [Sys.init] at hp
  | step ev hs ha hc ih =>
    rename_i tr s
    rcases step_inflight sg s ev id p hp with ⟨h1, h2⟩ | ⟨h1, h2, h3, h4⟩ | ⟨h1, f, b, h2, _⟩ |
      ⟨h1, _, _, _, _, _, h2⟩
    · obtain ⟨s0, ⟨mid, older, h3, h4, h5⟩, h6⟩ := ih h1
      refine ⟨s0, ⟨(s, ev) :: mid, older, by rw [h3]; rfl, h4, ?_⟩, h6⟩
      intro q hq
      rw [List.mem_cons] at hq
      rcases hq with rfl | hq
      · exact h2
      · exact h5 q hq
    · subst h1
      exact ⟨s, ⟨[], tr, rfl, h2, by simp⟩, h3, h4⟩
    · subst h2
      rw [ha.1] at h1; cases h1
    · rw [h2] at h1; cases h1

theorem History.prefix {sg : Sig B R} {vers : FileName → Nat → Option Content} {crashes : Bool}
    {tr newer older : Trace B R} {s : Sys B R} (h : History sg vers crashes tr s)
    {q : Sys B R × Event B R} (he : tr = newer ++ q :: older) :
    History sg vers crashes older q.1 := by
  induction h generalizing newer with
  | init env h => simp at he
  | step ev hs ha hc ih =>
    cases newer with
    | nil => simp only [List.nil_append, List.cons.injEq] at he; obtain ⟨rfl, rfl⟩ := he; exact hs
    | cons q' newer =>
      simp only [List.cons_append, List.cons.injEq] at he
      exact ih he.2

end Verif.DB
