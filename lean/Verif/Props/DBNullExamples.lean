import Verif.Props.DBNull
import Verif.Props.DBSqliteNull
import Verif.DB.SqliteExample
/-!
# C06: a history that meets the hypotheses with the sqlite engine, and parallel calls
-/
namespace Verif.DB

/-- After the call f(7) of `Ex.sevs`: a restart, an edit of another file, a call of another function
that could not be stored (rolled back), and a crash of the process while a call is running. -/
def Ex.sevsNull : List (Event Nat Nat) :=
  Ex.sevs ++ [.restart env.funDigest, .edit "z" (some (file 2)), .prepare 3 "g" 1,
    .complete 3 1 [] ["missing"] [], .prepare 4 "g" 1, .crash env.funDigest]

def Ex.strNull : STrace Nat Nat := (srunEvents sg [] (SSys.init env) sevsNull).1
def Ex.ssNull : SSys Nat Nat := (srunEvents sg [] (SSys.init env) sevsNull).2

/-- the hypotheses of `C06_sqlite_null_call_partial` are met -/
example : SHistory Ex.sg Ex.vers Ex.strNull Ex.ssNull ∧
    SSettled Ex.sg Ex.strNull Ex.ssNull "f" 7 42 := by
  refine ⟨Ex.sstart.run Ex.sevsNull (by decide), ?_⟩
  have key : Ex.ssNull.db.functions = [⟨1, "f", "F", []⟩] := rfl
  have nocall : ∀ f g, ¬ RecCall (SDB.storage Nat Nat) Ex.ssNull.db f g := by
    rintro f g ⟨fid, d, deps, h1, h2⟩
    simp only [SDB.storage, SDB.findFunction, key, List.find?] at h1
    split at h1
    · simp at h1; obtain ⟨_, _, rfl⟩ := h1; cases h2
    · simp at h1
  refine ⟨?_, ?_, ⟨fun _ => 0, fun f g h => absurd h (nocall f g), by decide⟩⟩
  · refine ⟨Ex.strNull.take 6, Ex.ssEnd, 2, [], ["h"], ["p"],
      ((srunEvents Ex.sg [] (SSys.init Ex.env) (Ex.sevs.take 5)).1).take 2, Ex.ssStart,
      (srunEvents Ex.sg [] (SSys.init Ex.env) (Ex.sevs.take 2)).1, "F", rfl, by decide, ?_, by decide,
      ?_, by decide, by decide, ?_, ?_, ?_, by decide⟩
    · intro q hq
      simp only [Ex.sevs, List.take, srunEvents, List.mem_cons, List.not_mem_nil, or_false] at hq
      rcases hq with rfl | rfl <;> rfl
    · intro _ l1 q l2 hl
      simp only [Ex.sevs, List.take, srunEvents] at hl
      rcases l1 with _ | ⟨_, _ | ⟨_, l1⟩⟩ <;>
        simp only [List.nil_append, List.cons_append, List.cons.injEq] at hl
      · obtain ⟨rfl, _⟩ := hl; trivial
      · obtain ⟨_, rfl, _⟩ := hl; trivial
      · obtain ⟨_, _, hl⟩ := hl; simp at hl
    · intro x hx
      simp only [Ex.sg, List.mem_singleton] at hx
      subst hx
      refine ⟨?_, by decide, ?_, by decide⟩
      · intro q hq
        simp only [Ex.sevs, List.take, srunEvents, List.mem_cons, List.not_mem_nil, or_false] at hq
        rcases hq with rfl | rfl <;> decide
      · intro q hq
        simp only [Ex.strNull, Ex.sevsNull, Ex.sevs, List.cons_append, List.nil_append, srunEvents,
          List.take, List.mem_cons, List.not_mem_nil, or_false] at hq
        rcases hq with rfl | rfl | rfl | rfl | rfl | rfl <;> decide
    · intro x hx
      simp only [List.mem_singleton] at hx
      subst hx
      refine ⟨?_, by decide⟩
      intro q hq
      simp only [Ex.strNull, Ex.sevsNull, Ex.sevs, List.cons_append, List.nil_append, srunEvents,
        List.take, List.mem_cons, List.not_mem_nil, or_false] at hq
      rcases hq with rfl | rfl | rfl | rfl | rfl | rfl <;> decide
    · intro l1 q l2 hl
      simp only [Ex.strNull, Ex.sevsNull, Ex.sevs, List.cons_append, List.nil_append, srunEvents,
        List.take] at hl
      rcases l1 with _ | ⟨_, _ | ⟨_, _ | ⟨_, _ | ⟨_, _ | ⟨_, _ | ⟨_, l1⟩⟩⟩⟩⟩⟩ <;>
        simp only [List.nil_append, List.cons_append, List.cons.injEq] at hl
      · obtain ⟨rfl, _⟩ := hl
        show SSys.stamped _ = true
        decide
      · obtain ⟨_, rfl, _⟩ := hl; trivial
      · obtain ⟨_, _, rfl, rfl⟩ := hl
        intro b' s0 hr
        -- call 3 is a call of g
        exfalso
        have hh := Ex.sstart.run (Ex.sevsNull.take 9) (by decide)
        obtain ⟨p, hp, hf, _⟩ := hh.running_inflight hr
        have : ((srunEvents Ex.sg [] (SSys.init Ex.env) (Ex.sevsNull.take 9)).2.inflight.get? 3).map
          SPending.fn = some "g" := by decide
        rw [hp] at this
        simp [hf] at this
      · obtain ⟨_, _, _, rfl, _⟩ := hl; trivial
      · obtain ⟨_, _, _, _, rfl, _⟩ := hl; trivial
      · obtain ⟨_, _, _, _, _, rfl, _⟩ := hl; trivial
      · obtain ⟨_, _, _, _, _, _, hl⟩ := hl
        simp at hl
  · rintro ⟨g, h1, h2⟩
    cases h1 with
    | refl => exact h2 1 "F" [] (by decide) (by decide)
    | step hc _ => exact absurd hc (nocall _ _)

/-- and the call is answered, although the process crashed -/
example : (SSys.step Ex.sg Ex.ssNull (.prepare 5 "f" 7)).1 = .hit 42 := by decide

/-- The text of `f` has changed; two calls of `f` are run at the same time and stored. -/
def Ex.evsParallel : List (Event Nat Nat) :=
  [.edit "o" (some (file 3)), .prepare 1 "f" 1, .complete 1 11 [] [] [],
   .restart (fun f => if f = "f" then some "F2" else none),
   .prepare 2 "f" 1, .prepare 3 "f" 2, .complete 2 21 [] [] [], .complete 3 22 [] [] []]

/-- **C06** is false for calls made in parallel, with every engine: after the text of `f` changed,
`f(1)` and `f(2)` are run at the same time; both are stored, and nothing changes, but the second to
be stored discards the result of the first, so the next build runs `f(1)` again. -/
theorem C06_parallel_violated :
    (∃ (tr : Trace Nat Nat) (s : Sys Nat Nat), History Ex.sg Ex.vers false tr s ∧
      tr.map Prod.snd = Ex.evsParallel.reverse ∧
      answers Ex.sg (Sys.init Ex.env) Ex.evsParallel =
        [.done, .run, .done, .done, .run, .run, .done, .done] ∧
      (step Ex.sg s (.prepare 4 "f" 1)).1 = .run) ∧
    (∃ (tr : STrace Nat Nat) (s : SSys Nat Nat), SHistory Ex.sg Ex.vers tr s ∧
      tr.map Prod.snd = Ex.evsParallel.reverse ∧
      sanswers Ex.sg (SSys.init Ex.env) Ex.evsParallel =
        [.done, .run, .done, .done, .run, .run, .done, .done] ∧
      (SSys.step Ex.sg s (.prepare 4 "f" 1)).1 = .run) :=
  ⟨⟨_, _, Ex.history Ex.evsParallel (by decide), rfl, by decide, by decide⟩,
   ⟨_, _, Ex.sstart.run Ex.evsParallel (by decide), rfl, by decide, by decide⟩⟩

/-- The same with a third call: `f(2)` was recorded after the change, and its destination removed. -/
def Ex.evsLost : List (Event Nat Nat) :=
  [.edit "o" (some (file 3)), .prepare 1 "f" 1, .complete 1 11 [] [] [],
   .restart (fun f => if f = "f" then some "F2" else none),
   .prepare 2 "f" 1, .prepare 3 "f" 2, .complete 3 22 [] [] [],
   .edit "o" none, .prepare 4 "f" 2, .complete 2 21 [] [] [], .edit "o" (some (file 3)),
   .complete 4 22 [] [] []]

/-- **C06** is false with the sqlite engine, even for the call stored last: the row it would update
was deleted by another call meanwhile, so storing it does nothing, and the same call made
immediately afterwards runs the function again. -/
theorem C06_sqlite_lost_violated :
    ∃ (tr : STrace Nat Nat) (s : SSys Nat Nat), SHistory Ex.sg Ex.vers tr s ∧
      tr.map Prod.snd = Ex.evsLost.reverse ∧
      sanswers Ex.sg (SSys.init Ex.env) Ex.evsLost =
        [.done, .run, .done, .done, .run, .run, .done, .done, .run, .done, .done, .done] ∧
      (SSys.step Ex.sg s (.prepare 5 "f" 2)).1 = .run :=
  ⟨_, _, Ex.sstart.run Ex.evsLost (by decide), rfl, by decide, by decide⟩

end Verif.DB
