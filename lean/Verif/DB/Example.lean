import Verif.DB.HitLemmas
/-! Concrete histories used to show that the hypotheses of the theorems are met. -/
namespace Verif.DB

variable {B R : Type} [DecidableEq B]

/-- run a list of events, oldest first -/
def runEvents (sg : Sig B R) : Trace B R → Sys B R → List (Event B R) → Trace B R × Sys B R
  | tr, s, [] => (tr, s)
  | tr, s, ev :: evs => runEvents sg ((s, ev) :: tr) (step sg s ev).2 evs

def AllowedAll (sg : Sig B R) (vers : FileName → Nat → Option Content) (crashes : Bool) :
    Sys B R → List (Event B R) → Prop
  | _, [] => True
  | s, ev :: evs => Allowed vers s ev ∧ (ev.isCrash = true → crashes = true) ∧
      AllowedAll sg vers crashes (step sg s ev).2 evs

theorem History.run {sg : Sig B R} {vers : FileName → Nat → Option Content} {crashes : Bool}
    {tr : Trace B R} {s : Sys B R} (h : History sg vers crashes tr s) (evs : List (Event B R))
    (ha : AllowedAll sg vers crashes s evs) :
    History sg vers crashes (runEvents sg tr s evs).1 (runEvents sg tr s evs).2 := by
  induction evs generalizing tr s with
  | nil => exact h
  | cons ev evs ih => exact ih (.step ev h ha.1 ha.2.1) ha.2.2

namespace Ex

/-- every function has the source file "a" and the destination "o" -/
def sg : Sig Nat Nat := ⟨fun _ _ _ => ["a"], fun _ _ _ => ["o"], fun _ _ _ => []⟩

/-- content by modification time -/
def vers : FileName → Nat → Option Content := fun _ m =>
  if m = 1 then some "one" else if m = 2 then some "two" else some "three"

/-- a file last changed at `m` -/
def file (m : Nat) : FState := ⟨m, vers "" m⟩

/-- files "a" and "h" (1 ns after the epoch); functions "f" and "g" with text "F" and "G" -/
def env : Env where
  fs := fun x => if x = "a" then some (file 1) else if x = "h" then some (file 1) else none
  now := 5
  funDigest := fun f => if f = "f" then some "F" else if f = "g" then some "G" else none
  md5 := id
  recursionLimit := 1000

theorem start : History sg vers false [] (Sys.init env) := by
  refine .init env ?_
  intro x f h
  simp only [env] at h
  split at h
  · simp at h; subst h; rfl
  · split at h
    · simp at h; subst h; rfl
    · simp at h

/-- call 1 of f(7) runs, writes "o", reports "h" and returns 42 -/
def evs : List (Event Nat Nat) :=
  [.prepare 1 "f" 7, .edit "o" (some (file 3)), .complete 1 42 [] ["h"] []]

theorem evs_allowed : AllowedAll sg vers false (Sys.init env) evs := by
  refine ⟨⟨rfl, by intro _ _ h; simp [Sys.init] at h⟩, by decide, ?_, by decide, ?_, by decide, trivial⟩
  · intro f h; simp at h; subst h; rfl
  · intro p hp hf
    have : p.prep.found.isSome = false := by
      have h2 : (runEvents sg [] (Sys.init env) [.prepare 1 "f" 7, .edit "o" (some (file 3))]).2.inflight.get? 1
        = some p := hp
      simp only [runEvents] at h2
      have h3 : ∀ q : Option (Pending Nat Nat), q = some p → (q.elim true (fun p => p.prep.found.isSome)) = false → p.prep.found.isSome = false := by
        rintro _ rfl h; exact h
      exact h3 _ h2 (by decide)
    rw [this] at hf; cases hf

/-- the state after `evs` -/
def s1 : Sys Nat Nat := (runEvents sg [] (Sys.init env) evs).2
def tr1 : Trace Nat Nat := (runEvents sg [] (Sys.init env) evs).1

theorem history1 : History sg vers false tr1 s1 := start.run evs evs_allowed

example : (step sg s1 (.prepare 2 "f" 7)).1 = .hit 42 := by decide
example : (step sg s1 (.prepare 2 "f" 8)).1 = .run := by decide
example : (step sg (step sg s1 (.edit "a" (some (file 2)))).2 (.prepare 2 "f" 7)).1 = .run := by decide

end Ex
end Verif.DB
