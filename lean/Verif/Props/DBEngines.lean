import Verif.DB.Engines2
import Verif.DB.Example
/-!
# The database engine makes no difference (C134)

The engines `cache`/`pickle` and `sqlite` answer the same events in the same way.
-/
namespace Verif.DB
namespace Engines
set_option linter.unusedSectionVars false

section
variable {B R : Type} [DecidableEq B]

/-! ### Specification -/

/-- what is observed when the events happen one after the other -/
def answers {S : Type} (step : S → Event B R → Out R × S) : S → List (Event B R) → List (Out R)
  | _, [] => []
  | s, ev :: evs => (step s ev).1 :: answers step (step s ev).2 evs

/-- The message of `--delete-function` and `--delete-file` aside. -/
def besidesDeleted : Out R → Out R
  | .deleted _ => .deleted false
  | o => o

/-- With the sqlite engine: a function that returns did not report external files, its result could be stored, and if the function
was out of date when it was called, then so it was for the calls of the same function that still run. -/
def FineStep (sg : Sig B R) (s : SSys B R) (ev : Event B R) : Prop :=
  match ev with
  | .complete id _ _ ext extDsts => ext = [] ∧ extDsts = [] ∧ (∀ e, (SSys.step sg s ev).1 ≠ .raised e) ∧
    ∀ p, s.inflight.get? id = some p → p.prep.funDirty = true →
      ∀ id' q, s.inflight.get? id' = some q → q.fn = p.fn → q.prep.funDirty = true
  | .crash _ => False
  | _ => True

/-- every step is so -/
def Fine (sg : Sig B R) : SSys B R → List (Event B R) → Prop
  | _, [] => True
  | s, ev :: evs => FineStep sg s ev ∧ Fine sg (SSys.step sg s ev).2 evs

/-! ### Proof -/

structure SysRel (c : Sys B R) (s : SSys B R) : Prop where
  db : Rel c.db s.db
  env : c.env = s.env
  keys : c.inflight.keys = s.inflight.keys
  calls : ∀ id p q, c.inflight.get? id = some p → s.inflight.get? id = some q →
    p.fn = q.fn ∧ p.code = q.code ∧ p.bound = q.bound ∧ SamePrep s.db q.fn q.bound p.prep q.prep

theorem SysRel.isEmpty {c : Sys B R} {s : SSys B R} (h : SysRel c s) : c.inflight.isEmpty = s.inflight.isEmpty := by
  have := h.keys
  cases h1 : c.inflight <;> cases h2 : s.inflight <;> rw [h1, h2] at this <;> simp [Dict.keys] at this ⊢

theorem keys_set_same {V W : Type} {a : Dict Nat V} {b : Dict Nat W} (h : a.keys = b.keys) (k : Nat) (v : V) (w : W) :
    (a.set k v).keys = (b.set k w).keys := by
  by_cases hk : k ∈ a.keys
  · rw [Dict.keys_set_of_mem v hk, Dict.keys_set_of_mem w (h ▸ hk), h]
  · rw [Dict.keys_set_of_not_mem v hk, Dict.keys_set_of_not_mem w (h ▸ hk), h]

theorem SysRel.next {c : Sys B R} {s : SSys B R} (h : SysRel c s) (sg : Sig B R) (ev : Event B R) (hf : FineStep sg s ev) :
    besidesDeleted (step sg c ev).1 = besidesDeleted (SSys.step sg s ev).1 ∧
      SysRel (Verif.DB.step sg c ev).2 (SSys.step sg s ev).2 := by
  have hempty : ∀ {c' : Sys B R} {s' : SSys B R}, c'.inflight.isEmpty = true → Rel c'.db s'.db → c'.env = s'.env →
      c'.inflight.keys = s'.inflight.keys → SysRel c' s' := by
    intro c' s' h1 h2 h3 h4
    refine ⟨h2, h3, h4, fun id p q hp _ => ?_⟩
    rw [List.isEmpty_iff.1 h1] at hp
    cases hp
  cases ev with
  | prepare id f b =>
    simp only [Verif.DB.step, SSys.step, stepPrepare, SSys.stepPrepare, h.env]
    cases s.env.funDigest f with
    | none => exact ⟨rfl, h⟩
    | some code =>
      simp only
      obtain ⟨k1, k2, k3⟩ := h.db.prepare s.env f b (sg.srcs f code b)
      generalize Verif.DB.prepare (CDB.storage B R) s.env f b (sg.srcs f code b) c.db = X at *
      generalize Verif.DB.prepare (SDB.storage B R) s.env f b (sg.srcs f code b) s.db = Y at *
      obtain ⟨ox, c1⟩ := X
      obtain ⟨oy, s1⟩ := Y
      simp only at k1 k2 k3
      have hcalls : ∀ id p q, c.inflight.get? id = some p → s.inflight.get? id = some q →
          p.fn = q.fn ∧ p.code = q.code ∧ p.bound = q.bound ∧ SamePrep s1 q.fn q.bound p.prep q.prep := by
        intro id p q hp hq
        obtain ⟨a1, a2, a3, a4⟩ := h.calls id p q hp hq
        exact ⟨a1, a2, a3, a4.touch k2⟩
      match ox, oy, k3 with
      | .error e, .error e', k3 =>
        have : e = e' := k3
        subst this
        exact ⟨rfl, k1, rfl, h.keys, hcalls⟩
      | .ok p, .ok q, k3 =>
        have k4 : SamePrep s1 f b p q := k3
        simp only [k4.hit]
        cases hit s.env (sg.dsts f code b) (sg.returnDsts f code) q with
        | some r => exact ⟨rfl, k1, rfl, h.keys, hcalls⟩
        | none =>
          refine ⟨rfl, k1, rfl, keys_set_same h.keys _ _ _, ?_⟩
          intro id' p' q' hp' hq'
          simp only [Dict.get?_set] at hp' hq'
          by_cases hid : id = id'
          · rw [if_pos hid] at hp' hq'
            cases hp'
            cases hq'
            exact ⟨rfl, rfl, rfl, k4⟩
          · rw [if_neg hid] at hp' hq'
            exact hcalls id' p' q' hp' hq'
  | complete id r deps ext extDsts =>
    obtain ⟨rfl, rfl, hne, hdirty⟩ := hf
    simp only [SSys.step] at hne
    simp only [Verif.DB.step, SSys.step, stepComplete, SSys.stepComplete] at hne ⊢
    cases hq : s.inflight.get? id with
    | none =>
      have : c.inflight.get? id = none := by
        rw [Dict.get?_eq_none_iff, h.keys, ← Dict.get?_eq_none_iff]; exact hq
      rw [this]
      exact ⟨rfl, h⟩
    | some q =>
      cases hp : c.inflight.get? id with
      | none =>
        rw [Dict.get?_eq_none_iff, h.keys, ← Dict.get?_eq_none_iff, hq] at hp
        cases hp
      | some p =>
        obtain ⟨a1, a2, a3, a4⟩ := h.calls id p q hp hq
        rw [hq] at hne
        simp only [a1, a2, a3, h.env] at hne ⊢
        match hm : Verif.DB.cache (SDB.storage B R) (SDB.saveExternal s.env [] []) q.prep.funDirty q.prep.funId q.fn q.code deps
            (q.prep.found.map Prod.fst) q.bound r q.prep.callFileDigests s.db with
        | (.error e, s1) => rw [hm] at hne; exact absurd rfl (hne e)
        | (.ok (), s1) =>
          obtain ⟨c1, b1, b2, b3⟩ := h.db.cache s.env a4 q.code deps r hm
          rw [b1]
          refine ⟨rfl, b2, rfl, ?_, ?_⟩
          · simp only [Dict.keys_erase, h.keys]
          · intro id' p' q' hp' hq'
            simp only [Dict.get?_erase] at hp' hq'
            by_cases hid : id = id'
            · rw [if_pos hid] at hp'
              cases hp'
            · rw [if_neg hid] at hp' hq'
              obtain ⟨d1, d2, d3, d4⟩ := h.calls id' p' q' hp' hq'
              refine ⟨d1, d2, d3, b3.prep d4 fun hclean hd hfn => ?_⟩
              rw [hdirty q hq hd id' q' hq' hfn] at hclean
              cases hclean
  | fail id =>
    refine ⟨rfl, h.db, h.env, ?_, ?_⟩
    · simp only [Verif.DB.step, SSys.step, Dict.keys_erase, h.keys]
    · intro id' p' q' hp' hq'
      simp only [Verif.DB.step, SSys.step, Dict.get?_erase] at hp' hq'
      by_cases hid : id = id'
      · rw [if_pos hid] at hp'
        cases hp'
      · rw [if_neg hid] at hp' hq'
        exact h.calls id' p' q' hp' hq'
  | edit x st => exact ⟨rfl, h.db, by simp only [Verif.DB.step, SSys.step, h.env], h.keys, h.calls⟩
  | tick n => exact ⟨rfl, h.db, by simp only [Verif.DB.step, SSys.step, h.env], h.keys, h.calls⟩
  | restart ds => exact ⟨rfl, hempty rfl h.db (by simp only [Verif.DB.step, SSys.step, h.env]) rfl⟩
  | crash ds => exact hf.elim
  | deleteFunction f =>
    simp only [Verif.DB.step, SSys.step, h.isEmpty]
    cases he : s.inflight.isEmpty with
    | true => exact ⟨rfl, hempty (h.isEmpty.trans he) (h.db.deleteFunction f).1 h.env h.keys⟩
    | false => exact ⟨rfl, h⟩
  | deleteFile x =>
    simp only [Verif.DB.step, SSys.step, h.isEmpty]
    cases he : s.inflight.isEmpty with
    | true => exact ⟨rfl, hempty (h.isEmpty.trans he) (h.db.deleteFile x).1 h.env h.keys⟩
    | false => exact ⟨rfl, h⟩

theorem SysRel.same {c : Sys B R} {s : SSys B R} (h : SysRel c s) (sg : Sig B R) {evs : List (Event B R)} (hf : Fine sg s evs) :
    (answers (step sg) c evs).map besidesDeleted = (answers (SSys.step sg) s evs).map besidesDeleted := by
  induction evs generalizing c s with
  | nil => rfl
  | cons ev evs ih =>
    obtain ⟨h1, h2⟩ := h.next sg ev hf.1
    simp only [answers, List.map_cons, h1, ih h2 hf.2]

/-- **C134** (partial).  From an empty database on, whatever happens (calls of several threads, edits, restarts with other texts of
the functions, deletions from the command line), every call is answered the same with `cache`/`pickle` as with `sqlite`: the same
result is returned, the function is run, or the same exception is raised.  Missing, and false: external files
(`C134_external_violated`), results that sqlite cannot store (`C134_overlap_violated`), overlapping calls of a function that is out of
date for one of them only (`C134_dirty_violated`), killed processes (`C134_killed_violated`) and what the deletions from the command
line report (`C134_deleted_violated`). -/
theorem C134_partial (sg : Sig B R) (env : Env) (evs : List (Event B R)) (hf : Fine sg (SSys.init env) evs) :
    (answers (step sg) (Sys.init env) evs).map besidesDeleted =
      (answers (SSys.step sg) (SSys.init env) evs).map besidesDeleted :=
  SysRel.same ⟨Rel.init, rfl, rfl, fun _ _ _ h => by simp [Sys.init] at h⟩ sg hf

/-! ### Examples -/

def fineStepB (sg : Sig B R) (s : SSys B R) (ev : Event B R) : Bool :=
  match ev with
  | .complete id _ _ ext extDsts => ext.isEmpty && extDsts.isEmpty &&
    (match (SSys.step sg s ev).1 with | .raised _ => false | _ => true) &&
    match s.inflight.get? id with
    | none => true
    | some p => !p.prep.funDirty || s.inflight.all fun q => !decide (q.2.fn = p.fn) || q.2.prep.funDirty
  | .crash _ => false
  | _ => true

theorem fineStepB_sound {sg : Sig B R} {s : SSys B R} {ev : Event B R} (h : fineStepB sg s ev = true) : FineStep sg s ev := by
  cases ev with
  | complete id r deps ext extDsts =>
    simp only [fineStepB, Bool.and_eq_true, List.isEmpty_iff] at h
    obtain ⟨⟨⟨h1, h2⟩, h3⟩, h4⟩ := h
    refine ⟨h1, h2, fun e he => ?_, fun p hp hd id' q hq hfn => ?_⟩
    · rw [he] at h3; cases h3
    · rw [hp] at h4
      simp only [hd, Bool.not_true, Bool.false_or, List.all_eq_true] at h4
      have := h4 _ (Dict.mem_of_get? hq)
      simpa [hfn] using this
  | crash ds => cases h
  | _ => trivial

def fineB (sg : Sig B R) : SSys B R → List (Event B R) → Bool
  | _, [] => true
  | s, ev :: evs => fineStepB sg s ev && fineB sg (SSys.step sg s ev).2 evs

theorem fineB_sound {sg : Sig B R} {s : SSys B R} {evs : List (Event B R)} (h : fineB sg s evs = true) : Fine sg s evs := by
  induction evs generalizing s with
  | nil => trivial
  | cons ev evs ih =>
    simp only [fineB, Bool.and_eq_true] at h
    exact ⟨fineStepB_sound h.1, ih h.2⟩

end
end Engines

namespace Ex
open Engines

def cacheSays (evs : List (Event Nat Nat)) : List (Out Nat) := answers (step sg) (Sys.init env) evs
def sqliteSays (evs : List (Event Nat Nat)) : List (Out Nat) := answers (SSys.step sg) (SSys.init env) evs

/-- the texts of the functions; that of g is edited -/
def edited : FunName → Option Digest := fun f => if f = "f" then some "F" else if f = "g" then some "G2" else none

/-- f(7) calls g(1) and meanwhile g(2) waits for another thread; both are answered, an edit of "a" runs them again, also in a new
process in which g is edited -/
def evs134 : List (Event Nat Nat) :=
  [.prepare 1 "f" 7, .prepare 2 "g" 1, .edit "o" (some (file 3)), .complete 2 11 [] [] [], .prepare 3 "g" 2,
   .complete 1 42 ["g"] [] [], .complete 3 12 [] [] [], .prepare 4 "f" 7, .prepare 4 "g" 2,
   .edit "a" (some (file 2)), .prepare 4 "f" 7, .prepare 5 "g" 1, .prepare 6 "g" 2, .complete 6 22 [] [] [], .complete 5 21 [] [] [],
   .complete 4 43 ["g"] [] [], .restart edited, .prepare 1 "f" 7, .complete 1 44 [] [] [], .prepare 2 "g" 1, .deleteFile "a",
   .fail 2, .deleteFile "a", .prepare 3 "f" 7, .deleteFunction "f", .prepare 4 "f" 8]

example : Fine sg (SSys.init env) evs134 := fineB_sound (by decide +kernel)
example : sqliteSays evs134 =
    [.run, .run, .done, .done, .run, .done, .done, .hit 42, .hit 12, .done, .run, .run, .run, .done, .done, .done, .done, .run,
     .done, .run, .done, .done, .deleted false, .run, .done, .run] := by decide +kernel

/-- **C134** is false for external files: f(1) and f(2) both read "h", which is edited; f(1) is run again, and then f(2) is answered
with its old result by sqlite only, because looking at "h" made sqlite forget that f(2) read it. -/
theorem C134_external_violated :
    cacheSays [.edit "o" (some (file 3)), .prepare 1 "f" 1, .complete 1 41 [] ["h"] [], .prepare 2 "f" 2, .complete 2 42 [] ["h"] [],
      .edit "h" (some (file 2)), .prepare 3 "f" 1, .prepare 4 "f" 2] =
      [.done, .run, .done, .run, .done, .done, .run, .run] ∧
    sqliteSays [.edit "o" (some (file 3)), .prepare 1 "f" 1, .complete 1 41 [] ["h"] [], .prepare 2 "f" 2, .complete 2 42 [] ["h"] [],
      .edit "h" (some (file 2)), .prepare 3 "f" 1, .prepare 4 "f" 2] =
      [.done, .run, .done, .run, .done, .done, .run, .hit 42] := by decide +kernel

/-- **C134** is false for overlapping calls: the first two calls of a function run at the same time; sqlite raises when the second
result is stored. -/
theorem C134_overlap_violated :
    cacheSays [.prepare 1 "f" 1, .prepare 2 "f" 2, .complete 1 41 [] [] [], .complete 2 42 [] [] []] = [.run, .run, .done, .done] ∧
    sqliteSays [.prepare 1 "f" 1, .prepare 2 "f" 2, .complete 1 41 [] [] [], .complete 2 42 [] [] []] =
      [.run, .run, .done, .raised .integrity] := by decide +kernel

/-- **C134** is false if a function is out of date for one of two overlapping calls: g is edited and stored again while the first
call of f(1) still runs; the second call of f(1) (its destination is gone) finds f up to date; when both have returned, f(1) is
answered with the second result by `cache` and with the first one by sqlite. -/
def evsDirty : List (Event Nat Nat) :=
  [.edit "o" (some (file 3)), .prepare 1 "g" 1, .complete 1 11 [] [] [], .prepare 2 "f" 1, .complete 2 41 ["g"] [] [], .restart edited,
   .prepare 1 "f" 1, .prepare 2 "g" 1, .complete 2 12 [] [] [], .edit "o" none, .prepare 3 "f" 1, .complete 1 42 ["g"] [] [],
   .complete 3 43 ["g"] [] [], .edit "o" (some (file 3)), .prepare 4 "f" 1]

theorem C134_dirty_violated :
    cacheSays evsDirty = [.done, .run, .done, .run, .done, .done, .run, .run, .done, .done, .run, .done, .done, .done, .hit 43] ∧
    sqliteSays evsDirty = [.done, .run, .done, .run, .done, .done, .run, .run, .done, .done, .run, .done, .done, .done, .hit 42] := by
  decide +kernel

/-- **C134** is false if the process is killed: sqlite kept the result (of a second run of fbuild), `pickle` did not. -/
theorem C134_killed_violated :
    cacheSays [.edit "o" (some (file 3)), .restart edited, .prepare 1 "f" 1, .complete 1 41 [] [] [], .crash edited, .prepare 2 "f" 1] =
      [.done, .done, .run, .done, .done, .run] ∧
    sqliteSays [.edit "o" (some (file 3)), .restart edited, .prepare 1 "f" 1, .complete 1 41 [] [] [], .crash edited, .prepare 2 "f" 1] =
      [.done, .done, .run, .done, .done, .hit 41] := by decide +kernel

/-- **C134** is false for the message of `--delete-function`: sqlite never says that something was deleted. -/
theorem C134_deleted_violated :
    cacheSays [.prepare 1 "f" 1, .complete 1 41 [] [] [], .deleteFunction "f"] = [.run, .done, .deleted true] ∧
    sqliteSays [.prepare 1 "f" 1, .complete 1 41 [] [] [], .deleteFunction "f"] = [.run, .done, .deleted false] := by decide +kernel

end Ex
end Verif.DB
