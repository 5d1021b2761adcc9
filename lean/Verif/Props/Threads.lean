import Verif.Props.Tools
import Verif.Calls.Alone
/-!
# Cached calls in several threads

C101, C102.
-/
namespace Verif.Calls
open Verif.DB
set_option linter.unusedSectionVars false

section
variable {B R : Type} [DecidableEq B] {sg : Sig B R} {script : Script B R} {ρ : Layout B} {vers : FileName → Nat → Option Content}

/-- **C101**: `scheduler.map` and `scheduler.map_with_dependencies` over a cached function.  Whatever was built before, and in whatever
order the threads make their steps: a task that has finished returned (or raised) what it does if the tasks run one after the
other without a database, and its files are those that it leaves then.
Partial: the function calls no cached functions (see `C101_violated`), and what `WellBehaved` asks for. -/
theorem C101_partial (hw : WellBehaved sg script ρ) {m : Mach B R} (h : Life sg script ρ vers m) {f : FunName} {bs : List B}
    {after : Nat → List Nat} (hp : ρ.Parallel sg script m.sys.env.funDigest f bs after) (clk : Nat → Nat) {limit : Nat}
    (hl : ρ.depth ≤ limit) (order : List Nat) {P : Pool B R}
    (hP : (Pool.start m (bs.map (callTask f))).run sg script clk limit after order = P) (he : EditsOk vers P.mach.trace)
    {i : Nat} {b : B} {t : Task B R} {o : Option R} (hb : bs[i]? = some b) (ht : P.tasks[i]? = some t) (ho : t.result = some o) :
    (cleanMap (cleanCall sg script m.sys.env.funDigest ρ.depth f) bs m.files).1[i]? = some o ∧
      ∀ x, ρ.owner x = some (f, b) →
        P.mach.files x = (cleanMap (cleanCall sg script m.sys.env.funDigest ρ.depth f) bs m.files).2 x := by
  subst hP
  obtain ⟨hg, hin⟩ := life_ok hw h
  have hPO := run_ok hw hp (PoolOk.init hg (fun id q hq => by rw [hin id] at hq; cases hq)) (Nat.lt_of_lt_of_le (Nat.lt_of_le_of_lt (Nat.zero_le _) (hw.rank_lt f)) hl) he
  obtain ⟨t', ht', hok⟩ := hPO.tasks i b hb
  rw [ht] at ht'
  cases ht'
  cases hok with
  | fresh hown => rw [result_new] at ho; cases ho
  | running p id rep q hr => rw [result_running] at ho; cases ho
  | finished o' ho' hown =>
    rw [result_back] at ho
    cases ho
    refine ⟨by rw [ho']; exact (cleanMap_get _ bs m.files hb).2, fun x hx => ?_⟩
    rw [hown x hx]
    have hlen := (List.getElem?_eq_some_iff.1 hb).1
    have := before_eq (F0 := m.files) (x := x) hw hg.ds hp (i := i + 1) (k := bs.length) (by omega) ?_
    · rw [← this, before, List.take_length]
    · intro j c h1 h2 hc hxc
      rw [hx] at hxc
      cases hxc
      have := nodup_index hp.distinct hb hc
      omega

/-- **C101**, the whole: when all tasks have finished, the files are those that the tasks leave one after the other. -/
theorem C101_files_partial (hw : WellBehaved sg script ρ) {m : Mach B R} (h : Life sg script ρ vers m) {f : FunName} {bs : List B}
    {after : Nat → List Nat} (hp : ρ.Parallel sg script m.sys.env.funDigest f bs after) (clk : Nat → Nat) {limit : Nat}
    (hl : ρ.depth ≤ limit) (order : List Nat) {P : Pool B R}
    (hP : (Pool.start m (bs.map (callTask f))).run sg script clk limit after order = P) (he : EditsOk vers P.mach.trace)
    (hf : ∀ t ∈ P.tasks, t.result.isSome) :
    P.tasks.map Task.result = (cleanMap (cleanCall sg script m.sys.env.funDigest ρ.depth f) bs m.files).1.map some ∧
      P.mach.files = (cleanMap (cleanCall sg script m.sys.env.funDigest ρ.depth f) bs m.files).2 := by
  obtain ⟨hg, hin⟩ := life_ok hw h
  have hPO := run_ok hw hp (PoolOk.init hg (fun id q hq => by rw [hin id] at hq; cases hq)) (Nat.lt_of_lt_of_le (Nat.lt_of_le_of_lt (Nat.zero_le _) (hw.rank_lt f)) hl)
    (by rw [hP]; exact he)
  rw [hP] at hPO
  have hlen : ∀ (c : B → Files → Option R × Files) (bs : List B) fs, (cleanMap c bs fs).1.length = bs.length := by
    intro c bs
    induction bs with
    | nil => intro _; rfl
    | cons b bs ih => intro fs; simp [cleanMap, ih]
  constructor
  · apply List.ext_getElem?
    intro i
    rw [List.getElem?_map, List.getElem?_map]
    cases hb : bs[i]? with
    | none =>
      have hi := List.getElem?_eq_none_iff.1 hb
      rw [List.getElem?_eq_none (by rw [hPO.len]; exact hi), List.getElem?_eq_none (by rw [hlen]; exact hi)]
      rfl
    | some b =>
      obtain ⟨t, ht, _⟩ := hPO.tasks i b hb
      obtain ⟨o, ho⟩ := Option.isSome_iff_exists.1 (hf t (List.mem_of_getElem? ht))
      rw [ht, (C101_partial hw h hp clk hl order hP he hb ht ho).1]
      simp [ho]
  · funext x
    cases hx : ρ.owner x with
    | none =>
      rw [hPO.foreign x fun b _ hb => by rw [hx] at hb; cases hb]
      have := before_eq (F0 := m.files) (x := x) hw hg.ds hp (i := 0) (k := bs.length) (by omega)
        (fun j b _ _ _ hb => by rw [hx] at hb; cases hb)
      rw [before, List.take_length] at this
      exact this.symm
    | some q =>
      obtain ⟨g, b⟩ := q
      by_cases hm : g = f ∧ b ∈ bs
      · obtain ⟨rfl, hb⟩ := hm
        obtain ⟨i, hi⟩ := List.mem_iff_getElem?.1 hb
        obtain ⟨t, ht, _⟩ := hPO.tasks i b hi
        obtain ⟨o, ho⟩ := Option.isSome_iff_exists.1 (hf t (List.mem_of_getElem? ht))
        exact (C101_partial hw h hp clk hl order hP he hi ht ho).2 x hx
      · rw [hPO.foreign x fun c hc hb => hm (by rw [hx] at hb; cases hb; exact ⟨rfl, hc⟩)]
        have := before_eq (F0 := m.files) (x := x) hw hg.ds hp (i := 0) (k := bs.length) (by omega)
          (fun j c _ _ hc hb => hm (by rw [hx] at hb; cases hb; exact ⟨rfl, List.mem_of_getElem? hc⟩))
        rw [before, List.take_length] at this
        exact this.symm

/-- **C101**, one task: any program, with nested calls of any depth, that the scheduler runs as its only task returns what it returns
when it is called without the scheduler, and leaves the same database, files and call stack. -/
theorem C101_alone (sg : Sig B R) (script : Script B R) (clk : Nat → Nat) (limit : Nat) (main : Prog B R) (m : Mach B R) :
    ∃ n, ∀ order : List Nat, n ≤ order.count 0 →
      ((Pool.start m [main]).run sg script clk limit (fun _ => []) order).tasks.map Task.result =
          [some (build sg script clk limit main m).1] ∧
        ((Pool.start m [main]).run sg script clk limit (fun _ => []) order).mach = (build sg script clk limit main m).2 := by
  obtain ⟨s', n, hn⟩ := leads_build (sg := sg) (script := script) (clk := clk) (limit := limit) main m false
  refine ⟨n, fun order ho => ?_⟩
  have hrun := run_alone (sg := sg) (script := script) (clk := clk) (limit := limit) (Task.new main) m order
  obtain ⟨k, hk⟩ := Nat.exists_eq_add_of_le ho
  rw [hk, steps_add, Task.new, hn, steps_back] at hrun
  rw [Pool.start, List.map_cons, List.map_nil, Task.new, hrun]
  exact ⟨by simp [result_back], rfl⟩

/-- **C102**: after cached calls in several threads, with their steps in any order, the database is as good as before: the next
build returns what a build without a database returns, and leaves the same files.
Partial: as for C101; in particular the function called in the threads calls no cached functions, see `C102_violated`. -/
theorem C102_partial (hw : WellBehaved sg script ρ) {m : Mach B R} (h : Life sg script ρ vers m) {f : FunName} {bs : List B}
    {after : Nat → List Nat} (hp : ρ.Parallel sg script m.sys.env.funDigest f bs after) {clk clk' : Nat → Nat} {limit limit' : Nat}
    (hl : ρ.depth ≤ limit) (hl' : ρ.depth ≤ limit') (order : List Nat) {P : Pool B R}
    (hP : (Pool.start m (bs.map (callTask f))).run sg script clk limit after order = P)
    (hf : ∀ t ∈ P.tasks, t.result.isSome) {main : Prog B R} (hmain : ρ.Main main)
    (he : EditsOk vers (build sg script clk' limit' main P.mach).2.trace) (he1 : EditsOk vers P.mach.trace) :
    ((build sg script clk' limit' main P.mach).1, (build sg script clk' limit' main P.mach).2.files) =
      cleanProg (cleanCall sg script P.mach.sys.env.funDigest ρ.depth) main P.mach.files := by
  subst hP
  exact C59_partial hw (.parallel h f bs after hp clk limit hl order hf he1) hmain clk' hl' he

end

/-! ### An example

Two modules of ocaml are compiled in threads; the second reads what the first writes (`after`). -/
namespace Ml

def T : Tools Bool where
  srcs _ b := if b then ["a.ml"] else ["b.ml", "a.cmi"]
  out _ b := if b then "a.cmi" else "b.cmi"
  next _ code b seen :=
    match seen, b with
    | [], true => .more "a.ml"
    | [], false => .more "b.ml"
    | [_], false => .more "a.cmi"
    | seen, _ => .done (code ++ String.join (seen.map (·.2)))
  most _ _ := 4
  reports _ := false
  group f := f ≠ "oc"

def none : FileName → Prop := fun _ => False

theorem ok : T.Ok none where
  distinct f b f' b' h h' heq := by
    simp only [T, decide_eq_false_iff_not, ne_eq, Decidable.not_not] at h h'
    refine ⟨h.trans h'.symm, ?_⟩
    cases b <;> cases b' <;> first | rfl | (simp [T] at heq)
  outputs _ _ _ h := h
  reads f code b seen x _ h := by
    left
    simp only [T] at h ⊢
    split at h <;> simp_all
    all_goals (first | (subst h; simp) | skip)
  self f b := by
    intro x hx
    simp only [Tools.result, Tools.jobs] at hx
    by_cases hf : f = "oc"
    · cases b <;> simp [T, hf] at hx ⊢ <;> simp [hx]
    · simp [T, hf] at hx
  parts f b _ := by intro c hc; simp [T] at hc

def env0 : Env where
  fs x := if x = "a.ml" then some ⟨1, some "A"⟩ else if x = "b.ml" then some ⟨2, some "B"⟩ else .none
  now := 5
  funDigest f := if f = "oc" then some "oc-1 " else .none
  md5 := id
  recursionLimit := 10

def vers : FileName → Nat → Option Content := fun x t =>
  if x = "a.ml" then (if t = 1 then some "A" else some "A2") else if x = "b.ml" then some "B"
  else if x = "a.cmi" then (if t < 50 then some "oc-1 A" else some "oc-1 A2")
  else if t < 50 then some "oc-1 Boc-1 A" else some "oc-1 Boc-1 A2"

def m0 : Mach Bool (List FileName) := ⟨Sys.init env0, [], [], 0⟩

def clk : Nat → Nat := fun n => 10 + n
def clk' : Nat → Nat := fun n => 60 + n
def after : Nat → List Nat := fun i => if i = 1 then [0] else []
/-- the first task runs, the second tries to begin, ... -/
def order : List Nat := [0, 1, 0, 1, 1, 0, 0, 0, 1, 1, 1, 1, 1, 1]

def pool (m : Mach Bool (List FileName)) (clk : Nat → Nat) : Pool Bool (List FileName) :=
  (Pool.start m ([true, false].map (callTask "oc"))).run T.sig T.script clk 5 after order

/-- a parallel build, an edit -/
def m1 : Mach Bool (List FileName) := (pool m0 clk).mach
def m2 : Mach Bool (List FileName) := (m1.event T.sig (.edit "a.ml" (some ⟨50, some "A2"⟩))).2

theorem parallel (ds : FunName → Option Digest) : (T.layout none).Parallel T.sig T.script ds "oc" [true, false] after where
  self := fun hl => by simp [Tools.layout, T] at hl
  distinct := by decide
  order i := by intro j hj; simp only [after] at hj; split at hj <;> simp_all
  body i b code hb _ := by
    have hown : ∀ x c, (T.layout none).owner x = some ("oc", c) → x = T.out "oc" c := by
      intro x c hx
      simp only [Tools.layout] at hx
      split at hx
      · rename_i h
        simp only [Option.some.injEq] at hx
        have := h.choose_spec.2
        rw [hx] at this
        exact this.symm
      · cases hx
    have hs : ∀ x, x = "a.ml" ∨ x = "b.ml" → (T.layout none).Sees "oc" [true, false] after i x := by
      intro x hx j c hj hc
      have := hown x c hc
      cases c <;> simp [T] at this <;> subst this <;> simp at hx
    have hgr : T.group "oc" = false := by decide
    simp only [Tools.script, hgr]
    match i, b, hb with
    | 0, _, rfl =>
      show Flat _ (Prog.read "a.ml" _)
      refine ⟨hs _ (.inl rfl), fun o => ?_⟩
      cases o with
      | none => trivial
      | some c => exact ⟨by simp [T], trivial⟩
    | 1, _, rfl =>
      show Flat _ (Prog.read "b.ml" _)
      refine ⟨hs _ (.inr rfl), fun o => ?_⟩
      cases o with
      | none => trivial
      | some c =>
        show Flat _ (Prog.read "a.cmi" _)
        refine ⟨?_, fun o => ?_⟩
        · intro j c hj hc
          have := hown _ c hc
          cases c with
          | false => simp [T] at this
          | true =>
            right
            match j, hj with
            | 0, _ => simp [after]
            | 1, h => simp at h
        · cases o with
          | none => trivial
          | some c => exact ⟨by simp [T], trivial⟩
  srcs i b code hb _ := by
    have hown : ∀ x c, (T.layout none).owner x = some ("oc", c) → x = T.out "oc" c := by
      intro x c hx
      simp only [Tools.layout] at hx
      split at hx
      · rename_i h
        simp only [Option.some.injEq] at hx
        have := h.choose_spec.2
        rw [hx] at this
        exact this.symm
      · cases hx
    intro x hx j c hj hc
    have h1 := hown x c hc
    match i, b, hb with
    | 0, _, rfl =>
      simp [Tools.sig, T] at hx
      subst hx
      cases c <;> simp [T] at h1
    | 1, _, rfl =>
      simp [Tools.sig, T] at hx
      rcases hx with rfl | rfl
      · cases c <;> simp [T] at h1
      · cases c <;> simp [T] at h1
        right
        match j, hj with
        | 0, _ => simp [after]
        | 1, h => simp at h

def editsOkB (tr : Trace Bool (List FileName)) : Bool := tr.all fun q =>
  match q.2 with
  | .edit x (some st) => vers x st.mtime == st.content
  | _ => true

theorem editsOkB_sound {tr : Trace Bool (List FileName)} (h : editsOkB tr = true) : EditsOk vers tr := by
  intro s x st hx
  have := (List.all_eq_true.1 h) _ hx
  simpa using this

theorem life0 : Life T.sig T.script (T.layout none) vers m0 := by
  refine .start env0 ?_ ?_ (by decide) (fun _ _ h => h) ?_
  · intro x f hx
    simp only [env0] at hx
    split at hx
    · cases hx; rename_i h; subst h; rfl
    · split at hx
      · cases hx; rename_i h; subst h; rfl
      · cases hx
  · intro g d hg
    by_cases h : g = "oc" <;> simp [Tools.layout, T, h] at hg
  · intro x k hx
    by_cases h1 : x = "a.ml"
    · subst h1; right; rfl
    · by_cases h2 : x = "b.ml"
      · subst h2; right; rfl
      · left; simp [env0, h1, h2]

set_option maxRecDepth 20000 in
theorem life2 : Life T.sig T.script (T.layout none) vers m2 := by
  have h1 : Life T.sig T.script (T.layout none) vers m1 :=
    .parallel life0 "oc" [true, false] after (parallel _) clk 5 (by show 2 ≤ 5; decide) order (by decide +kernel)
      (editsOkB_sound (by decide +kernel))
  refine .user h1 (.edit "a.ml" (some ⟨50, some "A2"⟩)) ⟨.inl ?_, by simp [Tools.layout, none], by intro f hf; cases hf; rfl⟩
  cases hx : (T.layout none).owner "a.ml" with
  | none => rfl
  | some q =>
    exfalso
    simp only [Tools.layout] at hx
    split at hx
    · rename_i h
      have := h.choose_spec.2
      generalize h.choose = q at this
      obtain ⟨f, b⟩ := q
      cases b <;> simp [T] at this
    · cases hx

/-- C101 applied to the example -/
example : (pool m2 clk').tasks.map Task.result =
      (cleanMap (cleanCall T.sig T.script m2.sys.env.funDigest 2 "oc") [true, false] m2.files).1.map some ∧
    (pool m2 clk').mach.files = (cleanMap (cleanCall T.sig T.script m2.sys.env.funDigest 2 "oc") [true, false] m2.files).2 :=
  C101_files_partial (tools_wellBehaved ok) life2 (parallel _) clk' (by show 2 ≤ 5; decide) order rfl
    (editsOkB_sound (by decide +kernel)) (by decide +kernel)

set_option maxRecDepth 20000 in
/-- both functions ran again; the second one waited for the first, although it was asked to make a step -/
example : (pool m2 clk').tasks.map Task.result = [some (some ["a.cmi"]), some (some ["b.cmi"])] ∧
    (pool m2 clk').mach.files "a.cmi" = some "oc-1 A2" ∧ (pool m2 clk').mach.files "b.cmi" = some "oc-1 Boc-1 A2" ∧
    (pool m2 clk').mach.sys.log.length = 4 := by decide +kernel

/-- C102 applied to the example -/
def mainProg : Prog Bool (List FileName) := .call "oc" false back

set_option maxRecDepth 20000 in
example : (build T.sig T.script clk' 5 mainProg (pool m2 clk').mach).1 = some ["b.cmi"] ∧
    ((build T.sig T.script clk' 5 mainProg (pool m2 clk').mach).1, (build T.sig T.script clk' 5 mainProg (pool m2 clk').mach).2.files) =
      cleanProg (cleanCall T.sig T.script (pool m2 clk').mach.sys.env.funDigest 2) mainProg (pool m2 clk').mach.files := by
  refine ⟨by decide +kernel, ?_⟩
  exact C102_partial (clk := clk') (limit := 5) (tools_wellBehaved ok) life2 (parallel _) (by show 2 ≤ 5; decide) (by show 2 ≤ 5; decide) order rfl (by decide +kernel)
    (by intro o; cases o <;> trivial) (editsOkB_sound (by decide +kernel)) (editsOkB_sound (by decide +kernel))

end Ml

/-! ### Threads share the stack of calls -/
namespace Shared

def sg : Sig Nat Nat := ⟨fun _ _ _ => [], fun _ _ _ => [], fun _ _ _ => []⟩

/-- `f` calls `g`; `g` runs a program (here: reads a file), while it waits other threads run. -/
def script : Script Nat Nat := fun f _ b =>
  if f = "f" then .call "g" b back else .read "x" fun _ => .ret b

def m0 : Mach Nat Nat := ⟨Sys.init {
  fs := fun _ => none
  now := 5
  funDigest := fun f => if f = "f" then some "F" else some "G"
  md5 := id
  recursionLimit := 1000 }, [], [], 0⟩

/-- `f(1)` and `f(2)` in two threads: the second begins while `g(1)` runs. -/
def order : List Nat := [0, 0, 1, 1, 1, 1, 1, 1, 0, 0, 0, 0]

def pool : Pool Nat Nat := (Pool.start m0 [callTask "f" 1, callTask "f" 2]).run sg script id 100 (fun _ => []) order

set_option maxRecDepth 20000 in
theorem pool_facts : pool.tasks.map Task.result = [some (some 1), some (some 2)] ∧ pool.mach.stack = [] ∧
    (CDB.storage Nat Nat).findFunction "f" pool.mach.sys.db = some ("f", "F", ["g"]) ∧
    (CDB.storage Nat Nat).findFunction "g" pool.mach.sys.db = some ("g", "G", ["f"]) ∧
    pool.mach.sys.env.funDigest "f" = some "F" ∧ pool.mach.sys.env.funDigest "g" = some "G" := by decide +kernel

/-- the state after the two tasks, in a process with another recursion limit -/
def later (L : Nat) : Mach Nat Nat :=
  { pool.mach with sys := { pool.mach.sys with env := { pool.mach.sys.env with recursionLimit := L } } }

theorem ask_raises {m : Mach Nat Nat} (hdb : m.sys.db = pool.mach.sys.db) (hf : m.sys.env.funDigest = pool.mach.sys.env.funDigest)
    (id b : Nat) : (m.event sg (.prepare id "f" b)).1 = .raised .recursion := by
  have hd : m.sys.env.funDigest "f" = some "F" := by rw [hf]; exact pool_facts.2.2.2.2.1
  have hrec := fun n => (checkFunction_mutual (CDB.storage Nat Nat) (env := m.sys.env) (s := m.sys.db) (f := "f")
    (g := "g") (by decide) (i := "f") (j := "g") (d := "F") (e := "G") (by rw [hdb]; exact pool_facts.2.2.1)
    (by rw [hdb]; exact pool_facts.2.2.2.1) hd (by rw [hf]; exact pool_facts.2.2.2.2.2) n).1
  simp only [Mach.event, step, stepPrepare, hd, prepare, hrec]

theorem call_raises (run : Mach Nat Nat → Outcome Nat Nat) (clk : Nat → Nat) (L b : Nat) :
    (askCall sg clk run "f" b (later L)).1 = none := by
  have h := ask_raises (m := ((({ later L with stack := noteCall "f" (later L).stack, next := (later L).next + 1 } :
    Mach Nat Nat).event sg (.tick (clk (later L).next))).2)) rfl rfl (later L).next b
  unfold askCall
  simp only
  split
  · rename_i h'; rw [h'] at h; cases h
  · rename_i h'; rw [h'] at h; cases h
  · rfl

set_option maxRecDepth 20000 in
/-- one task alone: after six steps it has returned what the call returns, with the same callers in the database -/
example : let P := (Pool.start m0 [callTask "f" 1]).run sg script id 100 (fun _ => []) [0, 0, 0, 0, 0, 0]
    P.tasks.map Task.result = [some (some 1)] ∧ (build sg script id 100 (callTask "f" 1) m0).1 = some 1 ∧
    P.mach.stack = [] ∧ (CDB.storage Nat Nat).findFunction "f" P.mach.sys.db = some ("f", "F", ["g"]) := by decide +kernel

/-- a third task, which begins when the others have finished -/
def pool3 : Pool Nat Nat :=
  (Pool.start m0 ([1, 2, 3].map (callTask "f"))).run sg script id 100 (fun i => if i = 2 then [0, 1] else []) (order ++ [2, 2, 2])

end Shared

open Shared in
set_option maxRecDepth 20000 in
/-- **C101** is false if the function calls a cached function: the third task raises `RecursionError`, since wrong callers were
recorded (see `C102_violated`). -/
theorem C101_violated :
    pool3.tasks.map Task.result = [some (some 1), some (some 2), some none] ∧
    (cleanMap (cleanCall sg script m0.sys.env.funDigest 2 "f") [1, 2, 3] m0.files).1 = [some 1, some 2, some 3] := by
  refine ⟨by decide +kernel, by decide +kernel⟩

open Shared in
/-- **C102** is false if the function calls a cached function: `Database._callstack` is shared by the threads, so `g`, called in one
thread, is recorded as a caller of `f`, called in the other.  Both tasks succeed; from then on each call of `f` raises
`RecursionError`, whatever the recursion limit is, though without a database it returns its argument. -/
theorem C102_violated :
    pool.tasks.map Task.result = [some (some 1), some (some 2)] ∧ pool.mach.stack = [] ∧
    (∀ (L limit : Nat) (clk : Nat → Nat) (b : Nat), (build sg script clk limit (callTask "f" b) (later L)).1 = none) ∧
    ∀ b, cleanProg (cleanCall sg script pool.mach.sys.env.funDigest 2) (callTask "f" b) pool.mach.files = (some b, pool.mach.files) := by
  refine ⟨pool_facts.1, pool_facts.2.1, ?_, ?_⟩
  · intro L limit clk b
    have : (callFn sg script clk limit "f" b (later L)).1 = none := by
      cases limit <;> exact call_raises _ clk L b
    simp only [build, callTask, runProg, this]
    rfl
  · intro b
    simp [callTask, cleanProg, cleanCall, pool_facts.2.2.2.2, sg, script, back]

end Verif.Calls
