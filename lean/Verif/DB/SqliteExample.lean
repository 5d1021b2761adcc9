import Verif.DB.SqliteLinked
import Verif.DB.Example
/-! Concrete histories with the sqlite engine, to show that the hypotheses of the theorems are met. -/
namespace Verif.DB
section
variable {B R : Type} [DecidableEq B] {sg : Sig B R} {vers : FileName → Nat → Option Content}
  {tr newer older : STrace B R} {s : SSys B R}

def sallowedB (vers : FileName → Nat → Option Content) (s : SSys B R) : Event B R → Bool
  | .prepare id f b => (s.inflight.get? id).isNone &&
      s.inflight.all (fun q => !(decide (q.2.fn = f) && decide (q.2.bound = b)))
  | .complete id _ _ _ _ =>
    match s.inflight.get? id with
    | none => true
    | some p => decide (p.epoch = s.epoch)
  | .edit x st =>
    match st with
    | none => true
    | some f => decide (vers x f.mtime = f.content)
  | _ => true

theorem sallowedB_sound {ev : Event B R} (h : sallowedB vers s ev = true) : SAllowed vers s ev := by
  cases ev with
  | prepare id f b =>
    simp only [sallowedB, Bool.and_eq_true, Option.isNone_iff_eq_none, List.all_eq_true] at h
    refine ⟨h.1, ?_⟩
    rintro id' p hp ⟨h1, h2⟩
    have := h.2 _ (Dict.mem_of_get? hp)
    simp [h1, h2] at this
  | complete id r d e x =>
    intro p hp
    simpa only [sallowedB, hp, decide_eq_true_eq] using h
  | edit x st =>
    intro f hf
    subst hf
    simpa [sallowedB] using h
  | _ => trivial

/-- run events (oldest first), with the trace -/
def srunEvents (sg : Sig B R) : STrace B R → SSys B R → List (Event B R) → STrace B R × SSys B R
  | tr, s, [] => (tr, s)
  | tr, s, ev :: evs => srunEvents sg ((s, ev) :: tr) (SSys.step sg s ev).2 evs

def sallowedAllB (sg : Sig B R) (vers : FileName → Nat → Option Content) :
    SSys B R → List (Event B R) → Bool
  | _, [] => true
  | s, ev :: evs => sallowedB vers s ev && sallowedAllB sg vers (SSys.step sg s ev).2 evs

theorem SHistory.run (h : SHistory sg vers tr s) (evs : List (Event B R))
    (ha : sallowedAllB sg vers s evs = true) :
    SHistory sg vers (srunEvents sg tr s evs).1 (srunEvents sg tr s evs).2 := by
  induction evs generalizing tr s with
  | nil => exact h
  | cons ev evs ih =>
    simp only [sallowedAllB, Bool.and_eq_true] at ha
    exact ih (.step ev h (sallowedB_sound ha.1)) ha.2
end

namespace Ex

theorem sstart : SHistory sg vers [] (SSys.init env : SSys Nat Nat) := by
  refine .init env ?_
  intro x f h
  simp only [env] at h
  split at h
  · simp at h; subst h; rfl
  · split at h
    · simp at h; subst h; rfl
    · simp at h

/-- f(7) runs, writes "o" and "p", reports "h" as source and "p" as destination, returns 42; before, a
first attempt could not be stored because it reported a file that does not exist -/
def sevs : List (Event Nat Nat) :=
  [.prepare 1 "f" 7, .complete 1 41 [] ["missing"] [],
   .prepare 2 "f" 7, .edit "o" (some (file 3)), .edit "p" (some (file 3)),
   .complete 2 42 [] ["h"] ["p"]]

def str1 : STrace Nat Nat := (srunEvents sg [] (SSys.init env) sevs).1
def ss1 : SSys Nat Nat := (srunEvents sg [] (SSys.init env) sevs).2
theorem shistory1 : SHistory sg vers str1 ss1 := sstart.run sevs (by decide)

/-- the state in which call 2 was started, and in which it ended -/
def ssStart : SSys Nat Nat := (srunEvents sg [] (SSys.init env) (sevs.take 2)).2
def ssEnd : SSys Nat Nat := (srunEvents sg [] (SSys.init env) (sevs.take 5)).2
def sEv : Event Nat Nat := .complete 2 42 [] ["h"] ["p"]

theorem sexec1 : SExecution sg (srunEvents sg [] (SSys.init env) (sevs.take 5)).1 ssStart ssEnd sEv
    "f" 7 42 ["h"] ["p"] :=
  ⟨2, [], rfl, _, (srunEvents sg [] (SSys.init env) (sevs.take 2)).1,
    (rfl : _ = [_, _] ++ _ :: _), by decide, by
    intro q hq; simp only [List.mem_cons, List.not_mem_nil, or_false] at hq
    rcases hq with rfl | rfl <;> rfl⟩

def evA' : Event Nat Nat := .edit "a" (some (file 2))
def evH' : Event Nat Nat := .edit "h" (some (file 2))
def evP' : Event Nat Nat := .edit "p" none

/-- After that there is a restart and one more event. -/
def later (ev : Event Nat Nat) : STrace Nat Nat × SSys Nat Nat :=
  srunEvents sg str1 ss1 [.restart env.funDigest, ev]

theorem slast (ev : Event Nat Nat) (h : ∀ id r d e x, ev ≠ .complete id r d e x) :
    SLastStored sg (later ev).1 ((later ev).1.take 2)
      (srunEvents sg [] (SSys.init env) (sevs.take 5)).1 ssStart ssEnd sEv "f" 7 42 ["h"] ["p"] := by
  refine ⟨rfl, sexec1, by decide, ?_⟩
  intro n2 s2 ev2 o2 s0' r' e' d' ht hx _
  obtain ⟨id, deps, he, _⟩ := hx.ended
  match n2 with
  | [] =>
    simp only [later, srunEvents, List.nil_append, List.cons.injEq, Prod.mk.injEq] at ht
    exact absurd (ht.1.2.trans he) (h _ _ _ _ _)
  | [_] =>
    simp only [later, srunEvents, List.cons_append, List.nil_append, List.cons.injEq,
      Prod.mk.injEq] at ht
    have := ht.2.1.2.trans he
    cases this
  | _ :: _ :: n => simp [later, srunEvents, str1]

theorem slater (ev : Event Nat Nat) (h : sallowedB vers (SSys.step sg ss1 (.restart env.funDigest)).2 ev = true) :
    SHistory sg vers (later ev).1 (later ev).2 :=
  shistory1.run _ (by
    have h0 : sallowedB vers ss1 (.restart env.funDigest) = true := rfl
    simp only [sallowedAllB, h0, h, Bool.and_self])

end Ex

end Verif.DB
