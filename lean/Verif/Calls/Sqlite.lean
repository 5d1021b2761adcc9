import Verif.Calls.Clean
import Verif.DB.SqliteBackend
/-!
# Nested cached calls with the engine `sqlite`

The interpreter of `Verif/Calls/Core.lean` (`Database.call`, lib/fbuild/db/database.py:97-207) on the tables of
`Verif/DB/SqliteBackend.lean`.  One thread.
-/
namespace Verif.Calls
open Verif.DB
variable {B R : Type} [DecidableEq B]

/-- The state of a process with the sqlite engine; `trace` (newest event first) is a history variable. -/
structure SMach (B R : Type) where
  sys : SSys B R
  trace : List (Event B R)
  stack : List (List FunName)
  next : Nat

/-- what a call or a body leaves behind, as `Outcome` -/
abbrev SOutcome (B R : Type) := Option R × Reports × SMach B R

namespace SMach

def event (sg : Sig B R) (ev : Event B R) (m : SMach B R) : Out R × SMach B R :=
  ((SSys.step sg m.sys ev).1, { m with sys := (SSys.step sg m.sys ev).2, trace := ev :: m.trace })

def files (m : SMach B R) : Files := m.sys.env.fs.content

/-- as `Mach.writeFile` -/
def writeFile (sg : Sig B R) (clk : Nat → Nat) (x : FileName) (c : Option Content) (m : SMach B R) : SMach B R :=
  let m1 := (({ m with next := m.next + 1 } : SMach B R).event sg (.tick (clk m.next))).2
  (m1.event sg (.edit x (c.map fun c => ⟨clk m.next, some c⟩))).2

/-- The files that `Database.call` returns with the result (database.py:141-149,203-207); as `Verif.Calls.callFiles`. -/
def callFiles (sg : Sig B R) (f : FunName) (b : B) (r : R) (m : SMach B R) : Reports :=
  match m.sys.env.funDigest f with
  | none => .none
  | some code =>
    match (SDB.findFunction f m.sys.db).bind fun t => SDB.findCall t.1 b m.sys.db with
    | none => ⟨sg.srcs f code b, sg.returnDsts f code r ++ sg.dsts f code b⟩
    | some (cid, _) =>
      ⟨sg.srcs f code b ++ SDB.findExternal m.sys.db.externalSrcs cid m.sys.db,
        sg.returnDsts f code r ++ sg.dsts f code b ++ SDB.findExternal m.sys.db.externalDsts cid m.sys.db⟩

/-- as `Verif.Calls.deepFiles` -/
def deepFiles (sg : Sig B R) (deep : Bool) (f : FunName) (b : B) (o : Option R) (m : SMach B R) : Reports :=
  match deep, o with
  | true, some r => callFiles sg f b r m
  | _, _ => .none

/-- the body of a function, as `Verif.Calls.runProg` -/
def runProg (sg : Sig B R) (clk : Nat → Nat) (callF : FunName → B → SMach B R → SOutcome B R) :
    Prog B R → SMach B R → SOutcome B R
  | .ret r, m => (some r, .none, m)
  | .raise, m => (none, .none, m)
  | .callD d f b k, m =>
    let (o, rep, m1) := callF f b m
    let (o2, rep2, m2) := runProg sg clk callF (k o) m1
    (o2, rep.add ((deepFiles sg d f b o m1).add rep2), m2)
  | .report srcs dsts k, m =>
    let (o, rep, m1) := runProg sg clk callF k m
    (o, Reports.add ⟨srcs, dsts⟩ rep, m1)
  | .read x k, m => runProg sg clk callF (k (m.sys.env.fs.content x)) m
  | .write x c k, m => runProg sg clk callF k (m.writeFile sg clk x c)

/-- `Database.call` after `prepare` (database.py:176-207), as `Verif.Calls.runCall`.  If the result cannot be stored, the changes since
the last commit are undone (sqlite_backend.py:135-137) and the call raises. -/
def runCall (sg : Sig B R) (run : SMach B R → SOutcome B R) (id : Nat) (m : SMach B R) : SOutcome B R :=
  match run { m with stack := [] :: m.stack } with
  | (none, rep, m1) => (none, rep, (m1.event sg (.fail id)).2)
  | (some r, rep, m1) =>
    match m1.stack with
    | [] => (none, rep, (m1.event sg (.fail id)).2)
    | deps :: rest =>
      match ({ m1 with stack := rest } : SMach B R).event sg (.complete id r deps rep.srcs rep.dsts) with
      | (.done, m2) => (some r, rep, m2)
      | (_, m2) => (none, rep, m2)

/-- `Database.call` (database.py:97-149), as `Verif.Calls.askCall` -/
def askCall (sg : Sig B R) (clk : Nat → Nat) (run : SMach B R → SOutcome B R) (f : FunName) (b : B) (m : SMach B R) :
    SOutcome B R :=
  let m0 := { m with stack := noteCall f m.stack, next := m.next + 1 }
  let m1 := (m0.event sg (.tick (clk m.next))).2
  match m1.event sg (.prepare m.next f b) with
  | (.hit r, m2) => (some r, .none, m2)
  | (.run, m2) => runCall sg run m.next m2
  | (_, m2) => (none, .none, m2)

/-- a call of a cached function, as `Verif.Calls.callFn` -/
def callFn (sg : Sig B R) (script : Script B R) (clk : Nat → Nat) : Nat → FunName → B → SMach B R → SOutcome B R
  | 0, f, b, m => askCall sg clk (fun m => (none, .none, m)) f b m
  | n + 1, f, b, m =>
    askCall sg clk (fun m => runProg sg clk (callFn sg script clk n) (script f ((m.sys.env.funDigest f).getD "") b) m) f b m

/-- a build with the sqlite engine -/
def build (sg : Sig B R) (script : Script B R) (clk : Nat → Nat) (limit : Nat) (main : Prog B R) (m : SMach B R) :
    Option R × SMach B R :=
  let (o, _, m1) := runProg sg clk (callFn sg script clk limit) main m
  (o, m1)

end SMach

/-! ### The specification of C59 with sqlite -/

/-- The body reports no files. -/
def Silent : Prog B R → Prop
  | .ret _ => True
  | .raise => True
  | .callD d _ _ k => d = false ∧ ∀ o, Silent (k o)
  | .report _ _ _ => False
  | .read _ k => ∀ o, Silent (k o)
  | .write _ _ k => Silent k

/-- A script whose files are all declared: functions report no files, and the files that a call writes are not among its declared
sources. -/
structure Declared (sg : Sig B R) (script : Script B R) (ρ : Layout B) : Prop where
  silent : ∀ f code b, (∀ d, ρ.lib f = some d → code = d) → Silent (script f code b)
  own : ∀ x f b code, ρ.owner x = some (f, b) → x ∉ sg.srcs f code b

/-- every file written has its own modification time -/
def SEditsOk (vers : FileName → Nat → Option Content) (tr : List (Event B R)) : Prop :=
  ∀ x st, Event.edit x (some st) ∈ tr → vers x st.mtime = st.content

/-- The life of a build directory with the sqlite engine: builds of any main programs with any outcome, what happens between builds,
and new processes with edited functions. -/
inductive SLife (sg : Sig B R) (script : Script B R) (ρ : Layout B) (vers : FileName → Nat → Option Content) :
    SMach B R → Prop
  | start (env : Env) (hv : ∀ x f, env.fs x = some f → vers x f.mtime = f.content) (hds : ρ.Respects env.funDigest)
      (hlim : ρ.depth ≤ env.recursionLimit) (hmd5 : ∀ c c', env.md5 c = env.md5 c' → c = c')
      (hplain : ∀ x k, ρ.owner x = some k → env.fs x = none ∨ (env.fs.content x).isSome) :
      SLife sg script ρ vers ⟨SSys.init env, [], [], 0⟩
  | build {m : SMach B R} (h : SLife sg script ρ vers m) (main : Prog B R) (hmain : ρ.Main main) (clk : Nat → Nat)
      (limit : Nat) (hl : ρ.depth ≤ limit) (he : SEditsOk vers (SMach.build sg script clk limit main m).2.trace) :
      SLife sg script ρ vers (SMach.build sg script clk limit main m).2
  | user {m : SMach B R} (h : SLife sg script ρ vers m) (ev : Event B R) (hu : ρ.User vers ev) :
      SLife sg script ρ vers (m.event sg ev).2
  | process {m : SMach B R} (h : SLife sg script ρ vers m) (ds : FunName → Option Digest) (hds : ρ.Respects ds) :
      SLife sg script ρ vers { (m.event sg (.restart ds)).2 with stack := [] }

end Verif.Calls
