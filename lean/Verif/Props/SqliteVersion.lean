import Verif.DB.SqliteVersion
/-!
# The version of an sqlite database: properties

C20 for the sqlite engine, and C92.
-/
namespace Verif.DB.SqliteVersion

open Pickle (Version latest nullVersion)

variable {D : Type}

/-! ## Specification -/

/-- The version that a database was written by: one row, or none in a database that was never closed or is older than versions,
which counts as version 0. -/
def WrittenBy (db : Db D) (v : Version) : Prop := (db.rows = [v] ∧ v ≠ "0") ∨ (db.rows = [] ∧ v = "0")

/-- a sequence of processes, each with its changes and the way it ends -/
def run (empty : D) : List (List (D → D) × Ending) → Disk D → Disk D
  | [], d => d
  | (cs, e) :: rest, d => run empty rest (session empty d cs e)

/-- all the changes, one after another -/
def changed (x : D) : List (List (D → D) × Ending) → D
  | [] => x
  | (cs, _) :: rest => changed (cs.foldl (fun x f => f x) x) rest

/-! ## Proofs -/

theorem null_ne : nullVersion ≠ latest := by decide

theorem version_of {db : Db D} {v : Version} (h : WrittenBy db v) : version db = some v := by
  rcases h with ⟨h, _⟩ | ⟨h, rfl⟩
  · simp [version, h]
  · simp [version, h]; rfl

theorem connect_other {empty : D} {db : Db D} {v : Version} (h : WrittenBy db v) (hv : v ≠ latest) :
    connect empty (some db) =
      ([some db, some db, some (close v db), none, some ⟨[], empty⟩], some (nullVersion, ⟨[], empty⟩)) := by
  have h2 : version (⟨[], empty⟩ : Db D) = some nullVersion := rfl
  simp [connect, setup, version_of h, hv, h2]

theorem connect_none (empty : D) :
    (connect empty none).2 = some (nullVersion, ⟨[], empty⟩) := by
  simp [connect, setup, version, null_ne]

theorem connect_latest {empty : D} {db : Db D} (h : db.rows = [latest]) :
    connect empty (some db) = ([some db, some db], some (latest, db)) := by
  simp [connect, setup, version, h]

theorem close_latest {db : Db D} (h : db.rows = [latest]) : close latest db = db := by
  have : latest ≠ nullVersion := by decide
  obtain ⟨rows, tables⟩ := db
  simp only at h
  subst h
  simp [close, this]

theorem found_empty {empty : D} {x : D} : found empty (some ⟨[], x⟩) = some empty := by
  simp [found, connect_other (db := ⟨[], x⟩) (v := "0") (Or.inr ⟨rfl, rfl⟩) (by decide)]

/-! ## C20 for sqlite -/

/-- **C20** for sqlite: connecting to a database of another version begins with empty tables, and the file has no others.

Partial: the process is not killed in between (`C20_sqlite_crash_violated`). -/
theorem C20_sqlite_partial (empty : D) (db : Db D) (v : Version) (h : WrittenBy db v) (hv : v ≠ latest) :
    found empty (some db) = some empty ∧ ∃ db', (connect empty (some db)).1.getLast? = some (some db') ∧ db'.tables = empty := by
  rw [found, connect_other h hv]
  exact ⟨rfl, _, rfl, rfl⟩

/-- **C20** for sqlite, crashes: killed in one of the states of the file, but for the one between `close` and the removal, the next
process begins with empty tables. -/
theorem C20_sqlite_crash_partial (empty : D) (db : Db D) (v : Version) (h : WrittenBy db v) (hv : v ≠ latest) (n : Nat)
    (hn : n ≠ 2) (d : Disk D) (hd : (connect empty (some db)).1[n]? = some d) : found empty d = some empty := by
  rw [connect_other h hv] at hd
  have hdb : found empty (some db) = some empty := (C20_sqlite_partial empty db v h hv).1
  match n, hn with
  | 0, _ => simp only [List.getElem?_cons_zero, Option.some.injEq] at hd; rw [← hd]; exact hdb
  | 1, _ =>
    simp only [List.getElem?_cons_succ, List.getElem?_cons_zero, Option.some.injEq] at hd; rw [← hd]; exact hdb
  | 3, _ =>
    simp only [List.getElem?_cons_succ, List.getElem?_cons_zero, Option.some.injEq] at hd
    rw [← hd, found, connect_none]
    rfl
  | 4, _ =>
    simp only [List.getElem?_cons_succ, List.getElem?_cons_zero, Option.some.injEq] at hd
    rw [← hd]; exact found_empty
  | n + 5, _ => simp at hd

/-- **C20** is false for sqlite too: whatever the other version and its tables are, if the process is killed between `close` and
the removal of the file, the next one takes these tables for its own. -/
theorem C20_sqlite_crash_violated (empty : D) (db : Db D) (v : Version) (h : WrittenBy db v) (hv : v ≠ latest) :
    ∃ (n : Nat) (d : Disk D), (connect empty (some db)).1[n]? = some d ∧ found empty d = some db.tables := by
  refine ⟨2, some (close v db), ?_, ?_⟩
  · rw [connect_other h hv]; rfl
  · have hr : (close v db).rows = [latest] := by
      rcases h with ⟨h, h0⟩ | ⟨h, rfl⟩
      · have h0 : v ≠ nullVersion := h0
        simp [close, h0, h]
      · have : ("0" : Version) = nullVersion := rfl
        simp [close, h, this]
    have ht : (close v db).tables = db.tables := by unfold close; split <;> rfl
    rw [found, connect_latest hr]
    simp [ht]

/-- hypotheses met: a database of version 1 -/
example : WrittenBy (⟨["1"], 3⟩ : Db Nat) "1" ∧ ("1" : Version) ≠ latest := ⟨Or.inl ⟨rfl, by decide⟩, by decide⟩

/-! ## C92 -/

/-- **C92**: what a process has committed is found by the next one, however the processes end, if the database was closed once
by this version.

Partial: for a new database it is false (`C92_new_violated`). -/
theorem C92_kept_partial (empty : D) (db : Db D) (h : db.rows = [latest]) (ss : List (List (D → D) × Ending)) :
    found empty (run empty ss (some db)) = some (changed db.tables ss) := by
  induction ss generalizing db with
  | nil => simp [run, changed, found, connect_latest h]
  | cons s ss ih =>
    obtain ⟨cs, e⟩ := s
    have key : session empty (some db) cs e = some { db with tables := cs.foldl (fun x f => f x) db.tables } := by
      cases e with
      | closed =>
        simp only [session, connect_latest h]
        rw [close_latest (by simpa using h)]
      | killed => simp only [session, connect_latest h]
    rw [run, key, ih _ (by simpa using h), changed]

/-- **C92**: a process that closes the database brings about the condition of `C92_kept_partial`, whatever the file was: none, a
current one, or one of another version; and its own changes are in it. -/
theorem C92_closed (empty : D) (d : Disk D) (h : ∀ db, d = some db → ∃ v, WrittenBy db v) (cs : List (D → D)) :
    ∃ db x, session empty d cs .closed = some db ∧ db.rows = [latest] ∧ found empty d = some x ∧
      db.tables = cs.foldl (fun x f => f x) x := by
  have fresh : ∀ x : D, (close nullVersion (⟨[], x⟩ : Db D)).rows = [latest] := fun x => by simp [close]
  have tab : ∀ (v : Version) (db : Db D), (close v db).tables = db.tables := fun v db => by unfold close; split <;> rfl
  cases d with
  | none =>
    have hc : connect empty none = ((connect empty none).1, some (nullVersion, ⟨[], empty⟩)) := by
      rw [← connect_none empty]
    refine ⟨_, empty, by rw [session, hc], fresh _, by rw [found, hc]; rfl, tab _ _⟩
  | some db =>
    obtain ⟨v, hv⟩ := h db rfl
    by_cases hl : v = latest
    · subst hl
      have hr : db.rows = [latest] := by
        rcases hv with ⟨h, _⟩ | ⟨_, h⟩
        · exact h
        · exact absurd h (by decide)
      refine ⟨_, db.tables, by rw [session, connect_latest hr], ?_, by rw [found, connect_latest hr]; rfl, tab _ _⟩
      rw [close_latest (by simpa using hr)]
      exact hr
    · refine ⟨_, empty, by rw [session, connect_other hv hl], fresh _, by rw [found, connect_other hv hl]; rfl, tab _ _⟩

/-- **C92** is false for a new database: the version is written by `close`, so if the first process is killed the next one removes
the file, with all that was committed.  This goes on for any number of processes that are killed. -/
theorem C92_new_violated (empty : D) (ss : List (List (D → D))) :
    found empty (run empty (ss.map fun cs => (cs, .killed)) none) = some empty := by
  have key : ∀ (ss : List (List (D → D))) (x : D),
      found empty (run empty (ss.map fun cs => (cs, Ending.killed)) (some ⟨[], x⟩)) = some empty := by
    intro ss
    induction ss with
    | nil => intro x; exact found_empty
    | cons cs ss ih =>
      intro x
      have : session empty (some ⟨[], x⟩) cs .killed = some ⟨[], cs.foldl (fun x f => f x) empty⟩ := by
        simp only [session, connect_other (db := (⟨[], x⟩ : Db D)) (v := "0") (Or.inr ⟨rfl, rfl⟩) (by decide)]
      rw [List.map_cons, run, this]
      exact ih _
  cases ss with
  | nil => simp [run, found, connect_none]
  | cons cs ss =>
    have hc : connect empty none = ((connect empty none).1, some (nullVersion, ⟨[], empty⟩)) := by
      rw [← connect_none empty]
    have : session empty none cs .killed = some ⟨[], cs.foldl (fun x f => f x) empty⟩ := by
      rw [session, hc]
    rw [List.map_cons, run, this]
    exact key ss _

/-- closed once, then killed: nothing is lost; killed at first: all is lost -/
example : found 0 (run 0 [([(· + 1)], .closed), ([(· + 2), (· + 3)], .killed)] none) = some 6 ∧
    found 0 (run 0 [([(· + 1)], .killed), ([(· + 2), (· + 3)], .closed)] none) = some 5 := by
  constructor <;> rfl

end Verif.DB.SqliteVersion
