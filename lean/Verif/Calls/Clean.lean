import Verif.Calls.Threads
import Verif.DB.Alive
/-!
# Builds without a database, and well-behaved build scripts

The specification for C59: `cleanProg` and `cleanCall` run the programs of `Verif/Calls/Core.lean` without any database: every
call runs the function.
-/
namespace Verif.Calls
open Verif.DB

/-- the contents of all files -/
abbrev Files := FileName → Option Content

def setFile (x : FileName) (c : Option Content) (fs : Files) : Files := fun y => if y = x then c else fs y

section
variable {B R : Type}

/-- a program, given how cached functions are called -/
def cleanProg (callC : FunName → B → Files → Option R × Files) : Prog B R → Files → Option R × Files
  | .ret r, fs => (some r, fs)
  | .raise, fs => (none, fs)
  | .callD _ f b k, fs => cleanProg callC (k (callC f b fs).1) (callC f b fs).2
  | .report _ _ k, fs => cleanProg callC k fs
  | .read x k, fs => cleanProg callC (k (fs x)) fs
  | .write x c k, fs => cleanProg callC k (setFile x c fs)

/-- A call of a cached function runs the function; it raises if the function is unknown, or if a declared source cannot be
read.  The number bounds the nesting of calls. -/
def cleanCall (sg : Sig B R) (script : Script B R) (ds : FunName → Option Digest) :
    Nat → FunName → B → Files → Option R × Files
  | 0, _, _, fs => (none, fs)
  | n + 1, f, b, fs =>
    match ds f with
    | none => (none, fs)
    | some code =>
      if (sg.srcs f code b).all (fun x => (fs x).isSome) then cleanProg (cleanCall sg script ds n) (script f code b) fs
      else (none, fs)

/-- What a function does itself (not the functions it calls): the files it reports, and the files it writes or removes. -/
structure Trail where
  srcs : List FileName
  dsts : List FileName
  writes : List FileName

def Trail.none : Trail := ⟨[], [], []⟩
def Trail.add (a b : Trail) : Trail := ⟨a.srcs ++ b.srcs, a.dsts ++ b.dsts, a.writes ++ b.writes⟩

/-- `callT` says what the functions do whose files are reported by the caller -/
def trail (callC : FunName → B → Files → Option R × Files) (callT : FunName → B → Files → Trail) : Prog B R → Files → Trail
  | .ret _, _ => .none
  | .raise, _ => .none
  | .callD d f b k, fs =>
    if d then (callT f b fs).add (trail callC callT (k (callC f b fs).1) (callC f b fs).2)
    else trail callC callT (k (callC f b fs).1) (callC f b fs).2
  | .report srcs dsts k, fs => Trail.add ⟨srcs, dsts, []⟩ (trail callC callT k fs)
  | .read x k, fs => trail callC callT (k (fs x)) fs
  | .write x c k, fs => Trail.add ⟨[], [], [x]⟩ (trail callC callT k (setFile x c fs))

/-- What a call of a function that calls no functions does: its declared files, the files it reports, and the files it writes;
nothing if it raises. -/
def leafTrail (sg : Sig B R) (script : Script B R) (ds : FunName → Option Digest)
    (callC : FunName → B → Files → Option R × Files) (g : FunName) (c : B) (fs : Files) : Trail :=
  match ds g, (callC g c fs).1 with
  | some code, some r =>
    Trail.add ⟨sg.srcs g code c, sg.returnDsts g code r ++ sg.dsts g code c, []⟩
      (trail callC (fun _ _ _ => .none) (script g code c) fs)
  | _, _ => .none

/-- What the body of `f` does, in a run without a database: the files it reports, and the files it writes or removes.  It
includes what the functions do whose files it reports. -/
abbrev footprint (sg : Sig B R) (script : Script B R) (ds : FunName → Option Digest) (n : Nat) (f : FunName) (code : Digest)
    (b : B) (fs : Files) : Trail :=
  trail (cleanCall sg script ds n) (leafTrail sg script ds (cleanCall sg script ds n)) (script f code b) fs

/-- How a build script is organised. -/
structure Layout (B : Type) where
  /-- the functions that other cached functions call, with their texts -/
  lib : FunName → Option Digest
  /-- functions call functions of smaller rank only; ranks are below `depth` -/
  rank : FunName → Nat
  depth : Nat
  /-- the call that writes a file; `none` for source files -/
  owner : FileName → Option (FunName × B)
  /-- the files that are reported as external sources; they may be edited, but they are not removed -/
  keep : FileName → Prop
  /-- functions of the library that write files and call no functions; their callers report their files -/
  leaf : FunName → Prop := fun _ => False
  /-- sources declared by annotations; they may be removed although a caller reports them -/
  decl : FunName → B → FileName → Prop := fun _ _ _ => False

variable (ρ : Layout B)

/-- the functions have the texts that the layout says -/
def Layout.Respects (ds : FunName → Option Digest) : Prop := ∀ g d, ρ.lib g = some d → ds g = some d

/-- What the body of `f` for the arguments `b` may do: call functions of the library with a smaller rank, read any file, write
its own files.  If the called function writes files then the caller reports its files, and is not in the library. -/
def Layout.Body (f : FunName) (b : B) : Prog B R → Prop
  | .ret _ => True
  | .raise => True
  | .callD d g c k => (ρ.lib g).isSome ∧ ρ.rank g < ρ.rank f ∧ (d = true ↔ ρ.leaf g) ∧
      (d = true → ρ.lib f = none ∧ ∀ x, ρ.decl g c x → ρ.keep x ∨ ρ.decl f b x) ∧ ∀ o, Layout.Body f b (k o)
  | .report srcs _ k => (∀ x ∈ srcs, ρ.keep x ∨ ((ρ.lib f = none ∨ ρ.leaf f) ∧ ρ.decl f b x)) ∧ Layout.Body f b k
  | .read _ k => ∀ o, Layout.Body f b (k o)
  | .write x c k => ρ.owner x = some (f, b) ∧ (ρ.keep x → c.isSome) ∧ Layout.Body f b k

/-- What the main program may do: call any function, read any file, write source files, remove files. -/
def Layout.Main : Prog B R → Prop
  | .ret _ => True
  | .raise => True
  | .callD _ _ _ k => ∀ o, Layout.Main (k o)
  | .report _ _ k => Layout.Main k
  | .read _ k => ∀ o, Layout.Main (k o)
  | .write x c k => (ρ.owner x = none ∨ c = none) ∧ (ρ.keep x → c.isSome) ∧ Layout.Main k

/-- A well-behaved build script.  The conditions speak about runs without a database only. -/
structure WellBehaved (sg : Sig B R) (script : Script B R) (ρ : Layout B) : Prop where
  rank_lt : ∀ f, ρ.rank f < ρ.depth
  body : ∀ f code b, (∀ d, ρ.lib f = some d → code = d) → ρ.Body f b (script f code b)
  /-- functions called by other cached functions write no files, except leaves -/
  pure : ∀ x f b, ρ.owner x = some (f, b) → ρ.lib f = none ∨ ρ.leaf f
  leaf_lib : ∀ f, ρ.leaf f → (ρ.lib f).isSome ∧ ρ.rank f = 0
  declared : ∀ f code b x, (∀ d, ρ.lib f = some d → code = d) → ρ.decl f b x → x ∈ sg.srcs f code b
  leaf_declared : ∀ f code b x, (∀ d, ρ.lib f = some d → code = d) → ρ.leaf f → x ∈ sg.srcs f code b → ρ.decl f b x
  /-- a leaf finds its sources by reading its sources: if the sources that two runs have in common agree, all sources do -/
  leaf_same : ∀ ds f b code fs r fs1 fs' r' fs1', ρ.Respects ds → ds f = some code → ρ.leaf f →
    cleanCall sg script ds ρ.depth f b fs = (some r, fs1) → cleanCall sg script ds ρ.depth f b fs' = (some r', fs1') →
    (∀ x ∈ sg.srcs f code b ++ (footprint sg script ds ρ.depth f code b fs).srcs,
      x ∈ sg.srcs f code b ++ (footprint sg script ds ρ.depth f code b fs').srcs → fs' x = fs x) →
    ∀ x ∈ sg.srcs f code b ++ (footprint sg script ds ρ.depth f code b fs).srcs, fs' x = fs x
  /-- a leaf reports files depending only on its sources -/
  leaf_trail : ∀ ds f b code fs r fs1, ρ.Respects ds → ds f = some code → ρ.leaf f →
    cleanCall sg script ds ρ.depth f b fs = (some r, fs1) →
    ∀ fs2, (∀ x ∈ sg.srcs f code b ++ (footprint sg script ds ρ.depth f code b fs).srcs, fs2 x = fs x) →
    (∀ x ∈ (footprint sg script ds ρ.depth f code b fs2).srcs, x ∈ (footprint sg script ds ρ.depth f code b fs).srcs) ∧
      ∀ x ∈ (footprint sg script ds ρ.depth f code b fs2).dsts, x ∈ (footprint sg script ds ρ.depth f code b fs).dsts
  /-- a function depends only on its text, its arguments, its declared sources and the sources it reports -/
  covered : ∀ ds f b code fs r fs1, ρ.Respects ds → ds f = some code →
    cleanCall sg script ds ρ.depth f b fs = (some r, fs1) →
    ∀ fs2, (∀ x ∈ sg.srcs f code b ++ (footprint sg script ds ρ.depth f code b fs).srcs, fs2 x = fs x) →
    ∃ fs3, cleanCall sg script ds ρ.depth f b fs2 = (some r, fs3) ∧
      ∀ x ∈ (footprint sg script ds ρ.depth f code b fs2).writes,
        x ∈ (footprint sg script ds ρ.depth f code b fs).writes ∧ fs3 x = fs1 x
  /-- the files it writes are its destinations -/
  outputs : ∀ ds f b code fs r fs1, ρ.Respects ds → ds f = some code →
    cleanCall sg script ds ρ.depth f b fs = (some r, fs1) →
    ∀ x ∈ (footprint sg script ds ρ.depth f code b fs).writes,
      x ∈ sg.returnDsts f code r ++ sg.dsts f code b ++ (footprint sg script ds ρ.depth f code b fs).dsts
  /-- it does not write its sources -/
  inputs : ∀ ds f b code fs r fs1, ρ.Respects ds → ds f = some code →
    cleanCall sg script ds ρ.depth f b fs = (some r, fs1) →
    ∀ x ∈ sg.srcs f code b ++ (footprint sg script ds ρ.depth f code b fs).srcs,
      x ∉ (footprint sg script ds ρ.depth f code b fs).writes
  /-- the sources it reports can be read (unless it raises and no cached function calls it) -/
  exist : ∀ ds f b code fs o fs1, ρ.Respects ds → ds f = some code → (∀ x ∈ sg.srcs f code b, (fs x).isSome) →
    cleanCall sg script ds ρ.depth f b fs = (o, fs1) → o.isSome ∨ (ρ.lib f).isSome →
    ∀ x ∈ (footprint sg script ds ρ.depth f code b fs).srcs, (fs x).isSome
  /-- if it raises, it has written nothing itself -/
  atomic : ∀ ds f b fs fs1, ρ.Respects ds → cleanCall sg script ds ρ.depth f b fs = (none, fs1) →
    ∀ x, ρ.owner x = some (f, b) → fs1 x = fs x

/-! ### Tasks that run at the same time -/

/-- the tasks one after the other, given how one runs without a database: the results (`none`: it raised) and the files -/
def cleanMap (c : B → Files → Option R × Files) : List B → Files → List (Option R) × Files
  | [], fs => ([], fs)
  | b :: bs, fs => ((c b fs).1 :: (cleanMap c bs (c b fs).2).1, (cleanMap c bs (c b fs).2).2)

/-- the program calls no cached functions, and reads and reports only the files `S` -/
def Flat (S : FileName → Prop) : Prog B R → Prop
  | .ret _ => True
  | .raise => True
  | .callD _ _ _ _ => False
  | .report srcs _ k => (∀ x ∈ srcs, S x) ∧ Flat S k
  | .read x k => S x ∧ ∀ o, Flat S (k o)
  | .write _ _ k => Flat S k

/-- The files that task `i` may look at: all but those that belong to tasks it does not wait for. -/
def Layout.Sees (f : FunName) (bs : List B) (after : Nat → List Nat) (i : Nat) (x : FileName) : Prop :=
  ∀ j b, bs[j]? = some b → ρ.owner x = some (f, b) → j = i ∨ j ∈ after i

/-- The calls of `f` for the arguments `bs` may run at the same time; call `i` begins when the calls `after i` have finished. -/
structure Layout.Parallel (sg : Sig B R) (script : Script B R) (ds : FunName → Option Digest) (f : FunName) (bs : List B)
    (after : Nat → List Nat) : Prop where
  distinct : bs.Nodup
  order : ∀ i, ∀ j ∈ after i, j < i
  body : ∀ i b code, bs[i]? = some b → ds f = some code → Flat (ρ.Sees f bs after i) (script f code b)
  srcs : ∀ i b code, bs[i]? = some b → ds f = some code → ∀ x ∈ sg.srcs f code b, ρ.Sees f bs after i x
  /-- no call of a leaf writes its declared sources -/
  self : ρ.leaf f → ∀ b code, b ∈ bs → ds f = some code → ∀ x ∈ sg.srcs f code b, ρ.owner x ≠ some (f, b)

/-- `g` calls `f` for the arguments `bs` in threads when its arguments are `c`; call `i` begins when the calls `after i` have
finished. -/
structure Layout.Group (sg : Sig B R) (script : Script B R) (ds : FunName → Option Digest) (g : FunName) (c : B) (f : FunName)
    (bs : List B) (fin : List R → R) (after : Nat → List Nat) : Prop where
  calls : ∀ code, ds g = some code → script g code c = mapProg f fin bs []
  rank : ρ.rank f < ρ.rank g
  leaf : ρ.leaf f
  parallel : ρ.Parallel sg script ds f bs after

end

section
variable {B R : Type} [DecidableEq B]

def Mach.files (m : Mach B R) : Files := m.sys.env.fs.content

/-- every file written has its own modification time: the time determines the content -/
def EditsOk (vers : FileName → Nat → Option Content) (tr : Trace B R) : Prop :=
  ∀ s x st, (s, Event.edit x (some st)) ∈ tr → vers x st.mtime = st.content

/-- What may happen between builds: source files are edited, files are removed, time passes, functions and files are deleted from
the database. -/
def Layout.User (ρ : Layout B) (vers : FileName → Nat → Option Content) : Event B R → Prop
  | .edit x st => (ρ.owner x = none ∨ st = none) ∧ (ρ.keep x → (st.bind (·.content)).isSome) ∧
      ∀ f, st = some f → vers x f.mtime = f.content
  | .tick _ => True
  | .deleteFunction _ => True
  | .deleteFile _ => True
  | _ => False

/-- events happen, one after the other -/
def Mach.events (sg : Sig B R) (evs : List (Event B R)) (m : Mach B R) : Mach B R :=
  evs.foldl (fun m ev => (m.event sg ev).2) m

/-- `fbuild --delete-function` and `fbuild --delete-file` (main.py:88-99) -/
def Event.isDelete : Event B R → Bool
  | .deleteFunction _ => true
  | .deleteFile _ => true
  | _ => false

/-- The database does not answer the call of `f` for `b`, nor a call that reports its files: a declared source is not in the
table of files, or (if no function reports the files of `f`) no digest of the source is recorded with the call. -/
def Layout.Lacks (ρ : Layout B) (sg : Sig B R) (db : CDB B R) (f : FunName) (b : B) : Prop :=
  ∃ y, (∀ code, y ∈ sg.srcs f code b) ∧ (db.files.get? y = none ∨ (¬ ρ.leaf f ∧ ¬ Alive db f b y))

/-- What a process may do to files before it is killed, if the database is `db` afterwards: the files that it wrote belong to no
call, or to calls that the database does not answer. -/
def Layout.Left (ρ : Layout B) (sg : Sig B R) (vers : FileName → Nat → Option Content) (db : CDB B R) : Event B R → Prop
  | .edit x st => (∀ f, st = some f → vers x f.mtime = f.content) ∧ (ρ.keep x → (st.bind (·.content)).isSome) ∧
      (ρ.owner x = none ∨ st = none ∨
        ((st.bind (·.content)).isSome ∧ ∃ f b, ρ.owner x = some (f, b) ∧ ρ.Lacks sg db f b))
  | .tick _ => True
  | _ => False

/-- The life of a build directory: builds (of any main programs, with any outcome), `scheduler.map` and
`scheduler.map_with_dependencies` with the steps of the tasks in any order, calls of cached functions that use these (with any outcome, if no
call is running when they end), what happens between builds, new processes with edited functions, and what a process leaves that
is killed, if functions or files are deleted from the database then. -/
inductive Life (sg : Sig B R) (script : Script B R) (ρ : Layout B) (vers : FileName → Nat → Option Content) :
    Mach B R → Prop
  | start (env : Env) (hv : ∀ x f, env.fs x = some f → vers x f.mtime = f.content) (hds : ρ.Respects env.funDigest)
      (hlim : ρ.depth ≤ env.recursionLimit) (hmd5 : ∀ c c', env.md5 c = env.md5 c' → c = c')
      (hplain : ∀ x k, ρ.owner x = some k → env.fs x = none ∨ (env.fs.content x).isSome) :
      Life sg script ρ vers ⟨Sys.init env, [], [], 0⟩
  | build {m : Mach B R} (h : Life sg script ρ vers m) (main : Prog B R) (hmain : ρ.Main main) (clk : Nat → Nat)
      (limit : Nat) (hl : ρ.depth ≤ limit) (he : EditsOk vers (build sg script clk limit main m).2.trace) :
      Life sg script ρ vers (build sg script clk limit main m).2
  | parallel {m : Mach B R} (h : Life sg script ρ vers m) (f : FunName) (bs : List B) (after : Nat → List Nat)
      (hp : ρ.Parallel sg script m.sys.env.funDigest f bs after) (clk : Nat → Nat) (limit : Nat) (hl : ρ.depth ≤ limit)
      (order : List Nat)
      (hf : ∀ t ∈ ((Pool.start m (bs.map (callTask f))).run sg script clk limit after order).tasks, t.result.isSome)
      (he : EditsOk vers ((Pool.start m (bs.map (callTask f))).run sg script clk limit after order).mach.trace) :
      Life sg script ρ vers ((Pool.start m (bs.map (callTask f))).run sg script clk limit after order).mach
  | group {m : Mach B R} (h : Life sg script ρ vers m) (g : FunName) (c : B) (f : FunName) (bs : List B) (fin : List R → R)
      (after : Nat → List Nat) (hg : ρ.Group sg script m.sys.env.funDigest g c f bs fin after) (clk : Nat → Nat) (limit : Nat)
      (hl : ρ.depth ≤ limit) (mine : Nat → Bool) (order : List Nat)
      (hr : ∀ id, (groupCall sg script clk limit after mine f bs fin order g c m).2.2.sys.inflight.get? id = none)
      (he : EditsOk vers (groupCall sg script clk limit after mine f bs fin order g c m).2.2.trace) :
      Life sg script ρ vers (groupCall sg script clk limit after mine f bs fin order g c m).2.2
  | user {m : Mach B R} (h : Life sg script ρ vers m) (ev : Event B R) (hu : ρ.User vers ev) :
      Life sg script ρ vers (m.event sg ev).2
  | process {m : Mach B R} (h : Life sg script ρ vers m) (ds : FunName → Option Digest) (hds : ρ.Respects ds) :
      Life sg script ρ vers { (m.event sg (.restart ds)).2 with stack := [] }
  | killed {m : Mach B R} (h : Life sg script ρ vers m) (es dels : List (Event B R)) (hd : ∀ ev ∈ dels, Event.isDelete ev = true)
      (hl : ∀ ev ∈ es, ρ.Left sg vers (m.events sg dels).sys.db ev) : Life sg script ρ vers (m.events sg (es ++ dels))

end
end Verif.Calls
