import Verif.Calls.Killed
import Verif.Props.Clean
/-!
# Builds after a process was killed

C123.
-/
namespace Verif.Calls
open Verif.DB
set_option linter.unusedSectionVars false

variable {B R : Type} [DecidableEq B]

/-- **C123** (partial): a process is killed at any moment of whatever it does; then functions and files are deleted from the
database, so that no call is answered whose files the killed process wrote.  The next build returns what it would return if every call
ran its function, and leaves the same files.  Missing (and false): the same without the deletions, see the `C123_..._violated`. -/
theorem C123_partial {sg : Sig B R} {script : Script B R} {ρ : Layout B} {vers : FileName → Nat → Option Content}
    (hw : WellBehaved sg script ρ) {m : Mach B R} (h : Life sg script ρ vers m) (hs : m.sys.saved = m.sys.db)
    {evs dels : List (Event B R)} (hr : ∀ ev ∈ evs, Event.isRun ev = true) (hd : ∀ ev ∈ dels, Event.isDelete ev = true)
    {ds : FunName → Option Digest} (hds : ρ.Respects ds)
    (hl : ∀ x st, Event.edit x st ∈ evs → ρ.Left sg vers (m.killed sg evs dels ds).sys.db (.edit x st))
    {main : Prog B R} (hmain : ρ.Main main) (clk : Nat → Nat) {limit : Nat} (hlim : ρ.depth ≤ limit)
    (he : EditsOk vers (build sg script clk limit main (m.killed sg evs dels ds)).2.trace) :
    ((build sg script clk limit main (m.killed sg evs dels ds)).1,
      (build sg script clk limit main (m.killed sg evs dels ds)).2.files) =
      cleanProg (cleanCall sg script ds ρ.depth) main (m.killed sg evs dels ds).files := by
  obtain ⟨k, hk, hsame⟩ := killed_life hw h hs hr hd hds hl
  obtain ⟨h1, h2⟩ := build_same (sg := sg) (script := script) clk limit main hsame
  have he' : EditsOk vers (build sg script clk limit main k).2.trace :=
    EditsOk.snd.2 fun x st hx => EditsOk.snd.1 he x st (h2.edits x _ hx)
  have h3 := C59_partial hw hk hmain clk hlim he'
  have hf : k.files = (m.killed sg evs dels ds).files := by simp only [Mach.files, hsame.env]
  have hf' : (build sg script clk limit main k).2.files =
      (build sg script clk limit main (m.killed sg evs dels ds)).2.files := by simp only [Mach.files, h2.env]
  have hdig : k.sys.env.funDigest = ds := by
    rw [hsame.env]
    have : ∀ (dels : List (Event B R)) (m : Mach B R), (∀ ev ∈ dels, Event.isDelete ev = true) →
        (m.events sg dels).sys.env = m.sys.env := by
      intro dels
      induction dels with
      | nil => intro m _; rfl
      | cons d dels ih =>
        intro m hd
        refine (ih (m.event sg d).2 (fun e he => hd e (List.mem_cons_of_mem _ he))).trans ?_
        have := hd d (List.mem_cons_self ..)
        cases d with
        | deleteFunction f => simp only [Mach.event, step]; split <;> rfl
        | deleteFile f => simp only [Mach.event, step]; split <;> rfl
        | _ => cases this
    show (m.events sg (evs ++ .crash ds :: dels)).sys.env.funDigest = ds
    rw [events_append]
    show (((m.events sg evs).event sg (.crash ds)).2.events sg dels).sys.env.funDigest = ds
    rw [this dels _ hd]
    rfl
  rw [h1, hf', hf, hdig] at h3
  exact h3

/-- **C123** (partial), builds: the same for a process that is killed after `n` steps of a build of any program. -/
theorem C123_build_partial {sg : Sig B R} {script : Script B R} {ρ : Layout B} {vers : FileName → Nat → Option Content}
    (hw : WellBehaved sg script ρ) {m : Mach B R} (h : Life sg script ρ vers m) (hs : m.sys.saved = m.sys.db)
    (clk' : Nat → Nat) (limit' : Nat) (main' : Prog B R) (n : Nat) {dels : List (Event B R)}
    (hd : ∀ ev ∈ dels, Event.isDelete ev = true) {ds : FunName → Option Digest} (hds : ρ.Respects ds)
    (hl : ∀ x st, Event.edit x st ∈ (buildEvents sg script clk' limit' main' m).take n →
      ρ.Left sg vers (m.killed sg ((buildEvents sg script clk' limit' main' m).take n) dels ds).sys.db (.edit x st))
    {main : Prog B R} (hmain : ρ.Main main) (clk : Nat → Nat) {limit : Nat} (hlim : ρ.depth ≤ limit)
    (he : EditsOk vers (build sg script clk limit main
      (m.killed sg ((buildEvents sg script clk' limit' main' m).take n) dels ds)).2.trace) :
    ((build sg script clk limit main (m.killed sg ((buildEvents sg script clk' limit' main' m).take n) dels ds)).1,
      (build sg script clk limit main (m.killed sg ((buildEvents sg script clk' limit' main' m).take n) dels ds)).2.files) =
      cleanProg (cleanCall sg script ds ρ.depth) main
        (m.killed sg ((buildEvents sg script clk' limit' main' m).take n) dels ds).files :=
  C123_partial hw h hs (fun ev hev => (buildEvents_via clk' limit' main' m).1 ev (List.mem_of_mem_take hev)) hd hds hl hmain clk
    hlim he

/-- **C123**, what the events of a build are: they lead to the state that the build leaves, by the same steps. -/
theorem C123_events (sg : Sig B R) (script : Script B R) (clk : Nat → Nat) (limit : Nat) (main : Prog B R) (m : Mach B R) :
    (m.events sg (buildEvents sg script clk limit main m)).sys = (build sg script clk limit main m).2.sys ∧
      (m.events sg (buildEvents sg script clk limit main m)).trace = (build sg script clk limit main m).2.trace :=
  (buildEvents_via clk limit main m).2

/-! ### What deletions do -/

/-- **C123**, deleting a file: no call of which it is a declared source is answered, and no call that reports it. -/
theorem C123_file (sg : Sig B R) (ρ : Layout B) (db : CDB B R) (f : FunName) (b : B) (y : FileName)
    (hy : ∀ code, y ∈ sg.srcs f code b) : ρ.Lacks sg (CDB.deleteFile y db).2 f b :=
  ⟨y, hy, .inl (by simp [CDB.deleteFile])⟩

/-- **C123**, deleting a function: none of its calls is answered; if its files are reported by callers this is not enough. -/
theorem C123_function (sg : Sig B R) (ρ : Layout B) (db : CDB B R) (f : FunName) (b : B) (y : FileName)
    (hy : ∀ code, y ∈ sg.srcs f code b) (hf : ¬ ρ.leaf f) : ρ.Lacks sg (CDB.deleteFunction f db).2 f b := by
  refine ⟨y, hy, .inr ⟨hf, ?_⟩⟩
  rintro ⟨datas, i, r, d, h1, _⟩
  simp [CDB.deleteFunction] at h1

/-- **C123**, the first build: before a state file was ever saved nothing needs to be deleted. -/
theorem C123_first (sg : Sig B R) (ρ : Layout B) (f : FunName) (b : B) (y : FileName) (env : Env)
    (hy : ∀ code, y ∈ sg.srcs f code b) : ρ.Lacks sg (Sys.init env : Sys B R).saved f b :=
  ⟨y, hy, .inl rfl⟩

/-! ### An example -/
namespace CC

/-- after a build, in a new process, a source is edited -/
def n1 : Mach Bool String := (build sg script clk 5 main ⟨Sys.init env0, [], [], 0⟩).2
def n2 : Mach Bool String := { (n1.event sg (.restart env0.funDigest)).2 with stack := [] }
def n3 : Mach Bool String := (n2.event sg (.edit "a.c" (some ⟨50, some "A2"⟩))).2
/-- the process is killed after it has written `a.o`, and `a.c` is deleted from the database -/
def evs : List (Event Bool String) := (buildEvents sg script clk 5 main n3).take 6
def n4 : Mach Bool String := n3.killed sg evs [.deleteFile "a.c"] env0.funDigest

theorem respects0 : layout.Respects env0.funDigest := by
  intro g d hg
  simp only [layout] at hg
  split at hg
  · cases hg; rename_i h; subst h; rfl
  · cases hg

set_option maxRecDepth 20000 in
theorem life_n3 : Life sg script layout vers n3 := by
  have h1 : Life sg script layout vers n1 :=
    .build life0 main mainOk clk 5 (by decide) (editsOkB_sound (by decide +kernel))
  exact .user (.process h1 env0.funDigest respects0) (.edit "a.c" (some ⟨50, some "A2"⟩))
    ⟨.inl rfl, by simp [layout], by intro f hf; cases hf; rfl⟩

set_option maxRecDepth 20000 in
/-- the killed process has written `a.o`, the call of `cc` had not ended, and the state file is the old one -/
example : n4.files "a.o" = some "cc-1-OA2H" ∧ n3.files "a.o" = some "cc-1-OAH" ∧ evs.length = 6 ∧
    (evs.getLast?.map fun ev => match ev with | .edit x _ => x | _ => "") = some "a.o" ∧
    (build sg script clk 5 main n4).2.files "a.o" = some "cc-1-OA2H" := by decide +kernel

set_option maxRecDepth 20000 in
theorem evs_edits : ∀ x st, Event.edit x st ∈ evs → x = "a.o" ∧ st = some ⟨18, some "cc-1-OA2H"⟩ := by
  have key : evs.all (fun ev => match ev with
      | .edit x st => decide (x = "a.o" ∧ st = some ⟨18, some "cc-1-OA2H"⟩)
      | _ => true) = true := by decide +kernel
  intro x st hx
  have := List.all_eq_true.1 key _ hx
  simpa using this

set_option maxRecDepth 20000 in
/-- `C123_partial` applied to the example -/
example : ((build sg script clk 5 main n4).1, (build sg script clk 5 main n4).2.files) =
    cleanProg (cleanCall sg script env0.funDigest 2) main n4.files := by
  refine C123_build_partial wellBehaved life_n3 rfl clk 5 main 6 (dels := [.deleteFile "a.c"]) (by simp [Event.isDelete])
    respects0 ?_ mainOk clk (by decide) (editsOkB_sound (by decide +kernel))
  intro x st hx
  obtain ⟨rfl, rfl⟩ := evs_edits x st hx
  refine ⟨?_, by simp [layout], .inr (.inr ⟨rfl, "cc", true, rfl, "a.c", by simp [sg, src], .inl (by decide +kernel)⟩)⟩
  intro f hf
  cases hf
  rfl

end CC

/-! ### Without the deletions -/
namespace Bad

/-- `cc` writes its destination in two steps. -/
def halfScript : Script Nat String := fun _ _ _ =>
  .read "a.c" (orRaise fun s => .write "a.o" (some "half") (.write "a.o" (some (s ++ " whole")) (.ret "a.o")))
/-- after a build, in a new process, the destination is removed -/
def half : Mach Nat String :=
  edit sharedSg "a.o" 50 none (process sharedSg (fun _ => some "1")
    (run sharedSg halfScript (.call "cc" 0 (orRaise .ret)) (start [("a.c", 1, "A")] [("cc", "1")])).2)
/-- the next build is killed between the two steps -/
def halfKilled : Mach Nat String :=
  half.killed sharedSg ((buildEvents sharedSg halfScript (fun n => 200 + n) 5 (.call "cc" 0 (orRaise .ret)) half).take 4) []
    (fun _ => some "1")

set_option maxRecDepth 20000 in
/-- **C123 violated**: no source is edited at any time, and yet the next build takes half a file for the result. -/
theorem C123_half_violated :
    half.sys.saved = half.sys.db ∧ half.files "a.c" = some "A" ∧ half.files "a.o" = none ∧
    halfKilled.files "a.c" = some "A" ∧
    (run sharedSg halfScript (.call "cc" 0 (orRaise .ret)) halfKilled).1 = some "a.o" ∧
    (run sharedSg halfScript (.call "cc" 0 (orRaise .ret)) halfKilled).2.files "a.o" = some "half" ∧
    (clean sharedSg halfScript (.call "cc" 0 (orRaise .ret)) halfKilled).2 "a.o" = some "A whole" := by
  refine ⟨rfl, ?_⟩
  decide +kernel

/-- `all` calls `cc` for `a.c`, and reports its files. -/
def deepSg : Sig Nat String :=
  ⟨fun f _ b => if f = "cc" then [if b = 0 then "a.c" else "b.c"] else [],
    fun f _ b => if f = "cc" then [if b = 0 then "a.o" else "b.o"] else [], fun _ _ _ => []⟩
def deepScript : Script Nat String := fun f _ b =>
  if f = "cc" then
    (if b = 0 then .read "a.c" (orRaise fun s => .write "a.o" (some "half") (.write "a.o" (some (s ++ " whole")) (.ret "a.o")))
     else .read "b.c" (orRaise fun s => .write "b.o" (some s) (.ret "b.o")))
  else .callD true "cc" 0 (orRaise .ret)
/-- `b.c` is compiled, then `all` is called -/
def deepMain : Prog Nat String := .call "cc" 1 (orRaise fun _ => .call "all" 0 (orRaise .ret))
def deep : Mach Nat String :=
  edit deepSg "a.o" 50 none (process deepSg (fun _ => some "1")
    (run deepSg deepScript deepMain (start [("a.c", 1, "A"), ("b.c", 2, "B")] [("cc", "1"), ("all", "1")])).2)
/-- the next build is killed while `cc` writes `a.o`; then something is deleted from the database -/
def deepKilled (dels : List (Event Nat String)) : Mach Nat String :=
  deep.killed deepSg ((buildEvents deepSg deepScript (fun n => 200 + n) 5 deepMain deep).take 8) dels (fun _ => some "1")

set_option maxRecDepth 20000 in
/-- **C123 violated**: deleting the function that was running is not enough: a call of it that runs again records the function, and
then the call of its caller is answered.  Deleting the source is enough. -/
theorem C123_caller_violated :
    (run deepSg deepScript deepMain (deepKilled [.deleteFunction "cc"])).2.files "a.o" = some "half" ∧
    (clean deepSg deepScript deepMain (deepKilled [.deleteFunction "cc"])).2 "a.o" = some "A whole" ∧
    (run deepSg deepScript deepMain (deepKilled [.deleteFile "a.c"])).2.files "a.o" = some "A whole" := by
  decide +kernel

end Bad
end Verif.Calls
