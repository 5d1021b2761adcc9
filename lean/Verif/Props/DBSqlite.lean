import Verif.DB.SqliteBackend
import Verif.DB.CheckFun
/-!
# The sqlite engine: C04, C17, C22 and a crash
-/
namespace Verif.DB

namespace Ex
/-- f(1) and f(2) are executed and both report the header "h" -/
def sqlTwo : List (Event Nat Nat) :=
  [.edit "o" (some (file 3)),
   .prepare 1 "f" 1, .complete 1 11 [] ["h"] [], .prepare 2 "f" 2, .complete 2 12 [] ["h"] []]
end Ex

/-- **C04** is false: f(1) and f(2) reported "h"; "h" is edited; f(1) is called and runs; f(2) then
returns the value computed from the old "h", because checking "h" for f(1) removed the record that
f(2) depends on it. -/
theorem C04_shared_header_violated :
    ((SSys.init Ex.env).run Ex.sg (Ex.sqlTwo ++ [.edit "h" (some (Ex.file 2)),
      .prepare 3 "f" 1, .complete 3 13 [] ["h"] [], .prepare 4 "f" 2])).1.drop 5 =
    [.done, .run, .done, .hit 12] := by decide

/-- **C04** is false: f(1) reported "h"; "h" is edited; f(1) is called, runs and raises; called
again, it returns the value computed from the old "h". -/
theorem C04_failed_rebuild_violated :
    ((SSys.init Ex.env).run Ex.sg (Ex.sqlTwo ++ [.edit "h" (some (Ex.file 2)),
      .prepare 3 "f" 1, .fail 3, .prepare 4 "f" 1])).1.drop 5 =
    [.done, .run, .done, .hit 11] := by decide

/-- **C17** is false for the sqlite engine: deleting a function or a file that is stored reports that
nothing was stored. -/
theorem C17_sqlite_report_violated :
    (SSys.step Ex.sg ((SSys.init Ex.env).run Ex.sg Ex.sqlTwo).2 (.deleteFunction "f")).1 = .deleted false ∧
    (SSys.step Ex.sg ((SSys.init Ex.env).run Ex.sg Ex.sqlTwo).2 (.deleteFile "a")).1 = .deleted false ∧
    (SSys.step Ex.sg ((SSys.init Ex.env).run Ex.sg Ex.sqlTwo).2 (.prepare 3 "f" 1)).1 = .hit 11 := by
  decide

/-- **C17** is false for the sqlite engine: a call that recorded "h" as external source is not run
again after "h" was deleted from the database. -/
theorem C17_sqlite_file_violated :
    ((SSys.init Ex.env).run Ex.sg (Ex.sqlTwo ++ [.deleteFile "h", .prepare 3 "f" 1])).1.drop 5 =
    [.deleted false, .hit 11] := by decide

/-- **C22** is false for the sqlite engine: a cached function that calls itself (or is called from two
threads) for the first time raises `IntegrityError` when the outer call is stored: both calls found
the function unknown and insert it. -/
theorem C22_sqlite_violated :
    ((SSys.init Ex.env).run Ex.sg [.edit "o" (some (Ex.file 3)),
      .prepare 1 "f" 2, .prepare 2 "f" 1, .complete 2 11 [] [] [], .complete 1 12 ["f"] [] []]).1 =
    [.done, .run, .run, .done, .raised .integrity] := by decide

/-- A crash in the first session loses every result stored so far, although each was committed: the
version is only written by `close`. -/
theorem C21_sqlite_crash_violated :
    ((SSys.init Ex.env).run Ex.sg (Ex.sqlTwo ++ [.prepare 3 "f" 1, .crash Ex.env.funDigest,
      .prepare 3 "f" 1])).1.drop 5 = [.hit 11, .done, .run] := by decide

/-- The sqlite engine, too, registers external destinations only when they differ from what is known
about them: a destination that the call also reported as source is not recorded, and its removal is
not noticed (C05 for the sqlite engine). -/
theorem C05_sqlite_violated :
    ((SSys.init Ex.env).run Ex.sg [.edit "o" (some (Ex.file 3)), .edit "p" (some (Ex.file 3)),
      .prepare 1 "f" 1, .complete 1 11 [] ["p"] ["p"], .edit "p" none, .prepare 2 "f" 1]).1 =
    [.done, .done, .run, .done, .done, .hit 11] := by decide

/-- Overlapping calls and an edit: call 1 holds the row id of "a" from before the edit; storing its
result violates the foreign key, raises and rolls back. -/
theorem C22_sqlite_edit_violated :
    ((SSys.init Ex.env).run Ex.sg [.edit "o" (some (Ex.file 3)),
      .prepare 1 "f" 1, .edit "a" (some (Ex.file 2)), .prepare 2 "g" 1,
      .complete 1 11 [] [] []]).1 =
    [.done, .run, .done, .run, .raised .integrity] := by decide

end Verif.DB
