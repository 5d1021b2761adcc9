import Verif.Calls.Group
/-!
# Builds with a database against builds without

C59.
-/
namespace Verif.Calls
open Verif.DB
set_option linter.unusedSectionVars false

variable {B R : Type} [DecidableEq B]

/-- **C59**: whatever was built before and whatever was edited since, a build returns what it would return if every call ran its
function, and leaves the same files.  Partial: the script must be well-behaved (`WellBehaved`), which is more than the property
asks for: see the `C59_..._violated` below. -/
theorem C59_partial {sg : Sig B R} {script : Script B R} {ρ : Layout B} {vers : FileName → Nat → Option Content}
    (hw : WellBehaved sg script ρ) {m : Mach B R} (h : Life sg script ρ vers m) {main : Prog B R} (hmain : ρ.Main main)
    (clk : Nat → Nat) {limit : Nat} (hl : ρ.depth ≤ limit)
    (he : EditsOk vers (build sg script clk limit main m).2.trace) :
    ((build sg script clk limit main m).1, (build sg script clk limit main m).2.files) =
      cleanProg (cleanCall sg script m.sys.env.funDigest ρ.depth) main m.files := by
  obtain ⟨hg, hin⟩ := life_ok hw h
  exact (main_ok hw clk hl main hmain m hg hin he).2

/-- **C59**, second form: an incremental build gives what a build with an empty database gives. -/
theorem C59_empty_partial {sg : Sig B R} {script : Script B R} {ρ : Layout B} {vers : FileName → Nat → Option Content}
    (hw : WellBehaved sg script ρ) {m : Mach B R} (h : Life sg script ρ vers m) {main : Prog B R} (hmain : ρ.Main main)
    (clk clk' : Nat → Nat) {limit limit' : Nat} (hl : ρ.depth ≤ limit) (hl' : ρ.depth ≤ limit')
    (he : EditsOk vers (build sg script clk limit main m).2.trace) {vers' : FileName → Nat → Option Content}
    (hv' : ∀ x f, m.sys.env.fs x = some f → vers' x f.mtime = f.content)
    (he' : EditsOk vers' (build sg script clk' limit' main ⟨Sys.init m.sys.env, [], [], 0⟩).2.trace) :
    (build sg script clk limit main m).1 = (build sg script clk' limit' main ⟨Sys.init m.sys.env, [], [], 0⟩).1 ∧
      (build sg script clk limit main m).2.files =
        (build sg script clk' limit' main ⟨Sys.init m.sys.env, [], [], 0⟩).2.files := by
  have h1 := C59_partial hw h hmain clk hl he
  obtain ⟨hg, _⟩ := life_ok hw h
  have h0 : Life sg script ρ vers' ⟨Sys.init m.sys.env, [], [], 0⟩ :=
    .start m.sys.env hv' hg.ds hg.lim hg.md5 hg.plain
  have h2 := C59_partial hw h0 hmain clk' hl' he'
  have h3 := h1.trans h2.symm
  exact Prod.mk.inj h3

/-! ### An example

`cc` compiles a unit: it asks `flags`, reads its declared source, reports and reads a header, and writes its declared destination. -/
namespace CC

def src (b : Bool) : FileName := if b then "a.c" else "b.c"
def obj (b : Bool) : FileName := if b then "a.o" else "b.o"

def sg : Sig Bool String where
  srcs f _ b := if f = "cc" then [src b] else []
  dsts f _ b := if f = "cc" then [obj b] else []
  returnDsts _ _ _ := []

def ccBody (code : Digest) (b : Bool) : Prog Bool String :=
  .call "flags" b fun
    | none => .raise
    | some fl => .read (src b) fun
      | none => .raise
      | some s => .report ["x.h"] [] (.read "x.h" fun
        | none => .raise
        | some h => .write (obj b) (some (code ++ fl ++ s ++ h)) (.ret (obj b)))

def script : Script Bool String := fun f code b =>
  if f = "cc" then ccBody code b else if f = "flags" then .ret "-O" else .ret ""

def layout : Layout Bool where
  lib f := if f = "flags" then some "flags-1" else none
  rank f := if f = "flags" then 0 else 1
  depth := 2
  owner x := if x = "a.o" then some ("cc", true) else if x = "b.o" then some ("cc", false) else none
  keep x := x = "x.h"

theorem call_flags {ds : FunName → Option Digest} (h : layout.Respects ds) (n : Nat) (b : Bool) (fs : Files) :
    cleanCall sg script ds (n + 1) "flags" b fs = (some "-O", fs) := by
  have := h "flags" "flags-1" rfl
  simp [cleanCall, this, sg, script, cleanProg]

/-- what `cc` does without a database -/
theorem call_cc {ds : FunName → Option Digest} (h : layout.Respects ds) {code : Digest} (hc : ds "cc" = some code) (b : Bool)
    (fs : Files) : cleanCall sg script ds 2 "cc" b fs =
      match fs (src b), fs "x.h" with
      | some s, some x => (some (obj b), setFile (obj b) (some (code ++ "-O" ++ s ++ x)) fs)
      | _, _ => (none, fs) := by
  have hf : cleanCall sg script ds 1 "flags" b fs = (some "-O", fs) := call_flags h 0 b fs
  show cleanCall sg script ds (1 + 1) "cc" b fs = _
  rw [cleanCall, hc]
  generalize cleanCall sg script ds 1 = call1 at hf
  cases hs : fs (src b) with
  | none => simp [sg, hs]
  | some s =>
    have : (sg.srcs "cc" code b).all (fun x => (fs x).isSome) = true := by simp [sg, hs]
    simp only [this, if_true, script, ccBody, cleanProg, hf, hs]
    cases hx : fs "x.h" <;> simp [cleanProg]

theorem trail_cc {ds : FunName → Option Digest} (h : layout.Respects ds) {code : Digest} (b : Bool)
    (fs : Files) {s x : Content} (hs : fs (src b) = some s) (hx : fs "x.h" = some x) :
    footprint sg script ds 2 "cc" code b fs = ⟨["x.h"], [], [obj b]⟩ := by
  simp [footprint, script, ccBody, trail, Trail.add, Trail.none, call_flags h 1, hs, hx]

theorem call_other {ds : FunName → Option Digest} {f : FunName} (hf : f ≠ "cc") {code : Digest} (b : Bool) (fs : Files) :
    footprint sg script ds 2 f code b fs = ⟨[], [], []⟩ ∧ (cleanCall sg script ds 2 f b fs).2 = fs ∧
      (∀ r, script f code b = .ret r → ds f = some code → cleanCall sg script ds 2 f b fs = (some r, fs)) ∧
      ∃ r, script f code b = .ret r := by
  have hr : ∀ code, ∃ r, script f code b = .ret r := by
    intro code
    simp only [script, if_neg hf]
    split <;> exact ⟨_, rfl⟩
  obtain ⟨r, hr0⟩ := hr code
  refine ⟨by rw [footprint, hr0]; rfl, ?_, ?_, r, hr0⟩
  · show (cleanCall sg script ds (1 + 1) f b fs).2 = fs
    rw [cleanCall]
    split
    · rfl
    · rename_i code' _
      obtain ⟨r', hr'⟩ := hr code'
      split
      · rw [hr']; rfl
      · rfl
  · intro r' h1 h2
    show cleanCall sg script ds (1 + 1) f b fs = _
    rw [cleanCall, h2]
    simp [sg, hf, h1, cleanProg]

/-- the script is well-behaved -/
theorem wellBehaved : WellBehaved sg script layout where
  rank_lt f := by simp only [layout]; split <;> omega
  body f code b hc := by
    simp only [script]
    split
    · rename_i h; subst h
      refine ⟨by simp [layout], by simp [layout], by simp [layout], by simp, ?_⟩
      intro o
      cases o with
      | none => trivial
      | some fl =>
        intro o
        cases o with
        | none => trivial
        | some s =>
          refine ⟨by simp [layout], ?_⟩
          intro o
          cases o with
          | none => trivial
          | some x => exact ⟨by cases b <;> rfl, fun _ => rfl, trivial⟩
    · split <;> trivial
  pure x f b h := by
    simp only [layout] at h ⊢
    split at h
    · cases h; exact .inl rfl
    · split at h
      · cases h; exact .inl rfl
      · cases h
  leaf_lib _ h := False.elim h
  declared _ _ _ _ _ h := False.elim h
  leaf_declared _ _ _ _ _ h := False.elim h
  leaf_same _ _ _ _ _ _ _ _ _ _ _ _ h := False.elim h
  leaf_trail _ _ _ _ _ _ _ _ _ h := False.elim h
  covered ds f b code fs r fs1 hds hc hr fs2 hag := by
    simp only [layout] at hr hag ⊢
    by_cases hf : f = "cc"
    · subst hf
      rw [call_cc hds hc] at hr
      cases hs : fs (src b) with
      | none => simp [hs] at hr
      | some s =>
        cases hx : fs "x.h" with
        | none => simp [hs, hx] at hr
        | some x =>
          simp only [hs, hx, Prod.mk.injEq, Option.some.injEq] at hr
          obtain ⟨rfl, rfl⟩ := hr
          rw [trail_cc hds b fs hs hx] at hag ⊢
          have hs2 : fs2 (src b) = some s := by rw [hag _ (by simp [sg]), hs]
          have hx2 : fs2 "x.h" = some x := by rw [hag _ (by simp [sg]), hx]
          refine ⟨_, by rw [call_cc hds hc, hs2, hx2], ?_⟩
          rw [trail_cc hds b fs2 hs2 hx2]
          intro y hy
          simp only [List.mem_singleton] at hy
          subst hy
          simp [setFile]
    · obtain ⟨r', hr'⟩ := (call_other (ds := ds) hf (code := code) b fs).2.2.2
      have h1 := (call_other (ds := ds) hf (code := code) b fs).2.2.1 r' hr' hc
      rw [h1] at hr
      simp only [Prod.mk.injEq, Option.some.injEq] at hr
      obtain ⟨rfl, rfl⟩ := hr
      refine ⟨fs2, (call_other hf b fs2).2.2.1 r' hr' hc, ?_⟩
      rw [(call_other hf b fs2).1]
      simp
  outputs ds f b code fs r fs1 hds hc hr := by
    simp only [layout] at hr ⊢
    by_cases hf : f = "cc"
    · subst hf
      rw [call_cc hds hc] at hr
      cases hs : fs (src b) with
      | none => simp [hs] at hr
      | some s =>
        cases hx : fs "x.h" with
        | none => simp [hs, hx] at hr
        | some x =>
          rw [trail_cc hds b fs hs hx]
          simp [sg]
    · rw [(call_other hf b fs).1]
      simp
  inputs ds f b code fs r fs1 hds hc hr := by
    simp only [layout] at hr ⊢
    by_cases hf : f = "cc"
    · subst hf
      rw [call_cc hds hc] at hr
      cases hs : fs (src b) with
      | none => simp [hs] at hr
      | some s =>
        cases hx : fs "x.h" with
        | none => simp [hs, hx] at hr
        | some x =>
          rw [trail_cc hds b fs hs hx]
          cases b <;> simp [sg, src, obj]
    · rw [(call_other hf b fs).1]
      simp
  exist ds f b code fs o fs1 hds hc hsrc hr ho := by
    simp only [layout] at hr ho ⊢
    by_cases hf : f = "cc"
    · subst hf
      rw [call_cc hds hc] at hr
      cases hs : fs (src b) with
      | none =>
        simp [hs] at hr
        obtain ⟨rfl, rfl⟩ := hr
        simp at ho
      | some s =>
        cases hx : fs "x.h" with
        | none =>
          simp [hs, hx] at hr
          obtain ⟨rfl, rfl⟩ := hr
          simp at ho
        | some x =>
          rw [trail_cc hds b fs hs hx]
          simp [hx]
    · rw [(call_other hf b fs).1]
      simp
  atomic ds f b fs fs1 hds hr := by
    simp only [layout] at hr
    by_cases hf : f = "cc"
    · subst hf
      cases hc : ds "cc" with
      | none =>
        have : cleanCall sg script ds (1 + 1) "cc" b fs = (none, fs) := by rw [cleanCall, hc]
        rw [this] at hr
        cases hr; exact fun _ _ => rfl
      | some code =>
        rw [call_cc hds hc] at hr
        cases hs : fs (src b) with
        | none => simp [hs] at hr; rw [hr]; exact fun _ _ => rfl
        | some s =>
          cases hx : fs "x.h" with
          | none => simp [hs, hx] at hr; rw [hr]; exact fun _ _ => rfl
          | some x => simp [hs, hx] at hr
    · have := (call_other (ds := ds) hf (code := "") b fs).2.1
      rw [hr] at this
      simp only at this
      rw [this]
      exact fun _ _ => rfl

def env0 : Env where
  fs x := if x = "a.c" then some ⟨1, some "A"⟩ else if x = "b.c" then some ⟨2, some "B"⟩
    else if x = "x.h" then some ⟨3, some "H"⟩ else none
  now := 5
  funDigest f := if f = "cc" then some "cc-1" else if f = "flags" then some "flags-1" else none
  md5 := id
  recursionLimit := 10

def main : Prog Bool String := .call "cc" true fun _ => .call "cc" false fun
  | none => .raise
  | some r => .ret r

def clk : Nat → Nat := fun n => 10 + n
def ds2 : FunName → Option Digest := fun f =>
  if f = "cc" then some "cc-2" else if f = "flags" then some "flags-1" else none

/-- a build, an edit of a source, a build, an edit of the script and a new process, a build, an object file is removed -/
def m1 : Mach Bool String := (build sg script clk 5 main ⟨Sys.init env0, [], [], 0⟩).2
def m2 : Mach Bool String := (m1.event sg (.edit "a.c" (some ⟨50, some "A2"⟩))).2
def m3 : Mach Bool String := (build sg script clk 5 main m2).2
def m4 : Mach Bool String := { (m3.event sg (.restart ds2)).2 with stack := [] }
def m5 : Mach Bool String := (build sg script clk 5 main m4).2
def m6 : Mach Bool String := (m5.event sg (.edit "b.o" none)).2

/-- the contents written, by file and time -/
def vers : FileName → Nat → Option Content := fun x t =>
  if x = "a.c" then (if t = 1 then some "A" else some "A2")
  else if x = "b.c" then some "B"
  else if x = "x.h" then some "H"
  else if x = "a.o" then (if t = 12 then some "cc-1-OAH" else if t = 18 then some "cc-1-OA2H" else some "cc-2-OA2H")
  else if t = 15 then some "cc-1-OBH" else some "cc-2-OBH"

def editsOkB (tr : Trace Bool String) : Bool := tr.all fun q =>
  match q.2 with
  | .edit x (some st) => vers x st.mtime == st.content
  | _ => true

theorem editsOkB_sound {tr : Trace Bool String} (h : editsOkB tr = true) : EditsOk vers tr := by
  intro s x st hx
  have := (List.all_eq_true.1 h) _ hx
  simpa using this

theorem mainOk : layout.Main main := by
  intro o o'
  cases o' <;> trivial

theorem life0 : Life sg script layout vers ⟨Sys.init env0, [], [], 0⟩ := by
  refine .start env0 ?_ ?_ (by decide) (fun _ _ h => h) ?_
  · intro x f hx
    simp only [env0] at hx
    split at hx
    · cases hx; rename_i h; subst h; rfl
    · split at hx
      · cases hx; rename_i h; subst h; rfl
      · split at hx
        · cases hx; rename_i h; subst h; rfl
        · cases hx
  · intro g d hg
    simp only [layout] at hg
    split at hg
    · cases hg; rename_i h; subst h; rfl
    · cases hg
  · intro x k hx
    simp only [layout] at hx
    left
    split at hx
    · rename_i h; subst h; rfl
    · split at hx
      · rename_i h; subst h; rfl
      · cases hx

set_option maxRecDepth 20000 in
theorem life6 : Life sg script layout vers m6 := by
  have h1 : Life sg script layout vers m1 :=
    .build life0 main mainOk clk 5 (by decide) (editsOkB_sound (by decide +kernel))
  have h2 : Life sg script layout vers m2 :=
    .user h1 (.edit "a.c" (some ⟨50, some "A2"⟩)) ⟨.inl rfl, by simp [layout], by intro f hf; cases hf; rfl⟩
  have h3 : Life sg script layout vers m3 :=
    .build h2 main mainOk clk 5 (by decide) (editsOkB_sound (by decide +kernel))
  have h4 : Life sg script layout vers m4 := by
    refine .process h3 ds2 ?_
    intro g d hg
    simp only [layout] at hg
    split at hg
    · cases hg; rename_i h; subst h; rfl
    · cases hg
  have h5 : Life sg script layout vers m5 :=
    .build h4 main mainOk clk 5 (by decide) (editsOkB_sound (by decide +kernel))
  exact .user h5 (.edit "b.o" none) ⟨.inr rfl, by simp [layout], by intro f hf; cases hf⟩

/-- `C59_partial` applied to the example: both calls are answered correctly, one of them from the database, the other by running
the function, because its object file is gone. -/
example : ((build sg script clk 5 main m6).1, (build sg script clk 5 main m6).2.files) =
    cleanProg (cleanCall sg script m6.sys.env.funDigest 2) main m6.files :=
  C59_partial wellBehaved life6 mainOk clk (by decide) (editsOkB_sound (by decide +kernel))

set_option maxRecDepth 20000 in
example : (build sg script clk 5 main m6).1 = some "b.o" ∧ (build sg script clk 5 main m6).2.files "a.o" = some "cc-2-OA2H" ∧
    (build sg script clk 5 main m6).2.files "b.o" = some "cc-2-OBH" ∧
    ((build sg script clk 5 main m6).2.sys.log.take 2).map (fun e => (e.fn, e.bound)) = [("cc", false), ("cc", false)] ∧
    (build sg script clk 5 main m6).2.sys.log.length = m6.sys.log.length + 1 := by decide +kernel

end CC

/-! ### What the other conditions are for

In each case a function depends only on its arguments, its declared sources, the sources it reports and the cached functions it
calls, and yet the build is wrong. -/
namespace Bad

variable {R : Type}

/-- the start of a build directory: files (with modification times) and functions -/
def start (fs : List (FileName × Nat × Content)) (ds : List (FunName × Digest)) : Mach Nat R :=
  ⟨Sys.init {
    fs := fun x => (fs.find? fun q => q.1 = x).map fun q => ⟨q.2.1, some q.2.2⟩
    now := 5
    funDigest := fun f => (ds.find? fun q => q.1 = f).map (·.2)
    md5 := id
    recursionLimit := 10 }, [], [], 0⟩

def edit (sg : Sig Nat R) (x : FileName) (t : Nat) (c : Option Content) (m : Mach Nat R) : Mach Nat R :=
  (m.event sg (.edit x (c.map fun c => ⟨t, some c⟩))).2

/-- a new process, with other texts of the functions -/
def process (sg : Sig Nat R) (ds : FunName → Option Digest) (m : Mach Nat R) : Mach Nat R :=
  { (m.event sg (.restart ds)).2 with stack := [] }

/-- a build with the database of `m` -/
def run (sg : Sig Nat R) (script : Script Nat R) (main : Prog Nat R) (m : Mach Nat R) :
    Option R × Mach Nat R := build sg script (fun n => 100 + n) 5 main m

/-- a build without a database -/
def clean (sg : Sig Nat R) (script : Script Nat R) (main : Prog Nat R) (m : Mach Nat R) :
    Option R × Files := cleanProg (cleanCall sg script m.sys.env.funDigest 5) main m.files

def orRaise (k : String → Prog Nat String) : Option String → Prog Nat String
  | none => .raise
  | some s => k s

/-- `f` calls `g`, whose argument is a declared source: after an edit of this source `f` is answered with the old result. -/
def nestedSg : Sig Nat String := ⟨fun f _ _ => if f = "g" then ["a.c"] else [], fun _ _ _ => [], fun _ _ _ => []⟩
def nestedScript : Script Nat String := fun f _ _ =>
  if f = "g" then .read "a.c" (orRaise .ret) else .call "g" 0 (orRaise .ret)
def nested : Mach Nat String :=
  edit nestedSg "a.c" 50 (some "new")
    (run nestedSg nestedScript (.call "f" 0 (orRaise .ret)) (start [("a.c", 1, "old")] [("f", "f-1"), ("g", "g-1")])).2

set_option maxRecDepth 20000 in
/-- **C59 violated**: the declared sources of a nested call are not sources of the caller. -/
theorem C59_nested_violated :
    (run nestedSg nestedScript (.call "f" 0 (orRaise .ret)) nested).1 = some "old" ∧
    (clean nestedSg nestedScript (.call "f" 0 (orRaise .ret)) nested).1 = some "new" := by decide +kernel

/-- `f1` and `f2` call `g`; then `g` is edited.  The call of `f1` runs `g` again and records the new text, after which `f2` counts
as unchanged. -/
def textSg : Sig Nat String := ⟨fun _ _ _ => [], fun _ _ _ => [], fun _ _ _ => []⟩
def textScript : Script Nat String := fun f code _ => if f = "g" then .ret code else .call "g" 0 (orRaise .ret)
def textMain : Prog Nat String := .call "f1" 0 (orRaise fun a => .call "f2" 0 (orRaise fun b => .ret (a ++ " " ++ b)))
def text : Mach Nat String :=
  process textSg (fun f => if f = "g" then some "new" else some "f")
    (run textSg textScript textMain (start [] [("f1", "f"), ("f2", "f"), ("g", "old")])).2

set_option maxRecDepth 20000 in
/-- **C59 violated**: after an edit of a function called by two cached functions one of these is answered with the old result. -/
theorem C59_function_violated :
    (run textSg textScript textMain text).1 = some "new old" ∧
    (clean textSg textScript textMain text).1 = some "new new" := by decide +kernel

/-- `cc` writes its destination; in its second version it raises afterwards. -/
def failSg : Sig Nat String := ⟨fun _ _ _ => [], fun _ _ _ => ["a.o"], fun _ _ _ => []⟩
def failScript : Script Nat String := fun _ code _ =>
  if code = "good" then .write "a.o" (some "good") (.ret "a.o") else .write "a.o" (some "bad") .raise
def failMain : Prog Nat String := .call "cc" 0 (orRaise .ret)
def fail : Mach Nat String :=
  let m1 := (run failSg failScript failMain (start [] [("cc", "good")])).2
  let m2 := (run failSg failScript failMain (process failSg (fun _ => some "bad") m1)).2
  process failSg (fun _ => some "good") m2

set_option maxRecDepth 20000 in
/-- **C59 violated**: after a failed build and a return to the old script, the destination of the failed build is kept. -/
theorem C59_failed_violated :
    (run failSg failScript failMain fail).1 = some "a.o" ∧
    (run failSg failScript failMain fail).2.files "a.o" = some "bad" ∧
    (clean failSg failScript failMain fail).1 = some "a.o" ∧
    (clean failSg failScript failMain fail).2 "a.o" = some "good" := by decide +kernel

/-- `cc` writes the same destination for different options. -/
def sharedSg : Sig Nat String := ⟨fun _ _ _ => ["a.c"], fun _ _ _ => ["a.o"], fun _ _ _ => []⟩
def sharedScript : Script Nat String := fun _ _ b =>
  .read "a.c" (orRaise fun s => .write "a.o" (some (if b = 0 then s ++ " -O0" else s ++ " -O2")) (.ret "a.o"))
def shared : Mach Nat String :=
  let m1 := (run sharedSg sharedScript (.call "cc" 0 (orRaise .ret)) (start [("a.c", 1, "A")] [("cc", "1")])).2
  (run sharedSg sharedScript (.call "cc" 2 (orRaise .ret)) m1).2

set_option maxRecDepth 20000 in
/-- **C59 violated**: if two calls write the same file, the file of the other call is kept. -/
theorem C59_shared_violated :
    (run sharedSg sharedScript (.call "cc" 0 (orRaise .ret)) shared).2.files "a.o" = some "A -O2" ∧
    (clean sharedSg sharedScript (.call "cc" 0 (orRaise .ret)) shared).2 "a.o" = some "A -O0" := by decide +kernel

/-- A build of `a.c`; in a new process `a.c` is edited, and the build is killed before the state file is saved, but after `a.o` is
written; then the edit is undone. -/
def crashed : Mach Nat String :=
  let m1 := (run sharedSg sharedScript (.call "cc" 0 (orRaise .ret)) (start [("a.c", 1, "A")] [("cc", "1")])).2
  let m2 := edit sharedSg "a.c" 200 (some "B") (process sharedSg (fun _ => some "1") m1)
  let m3 := (run sharedSg sharedScript (.call "cc" 0 (orRaise .ret)) m2).2
  let m4 : Mach Nat String := { (m3.event sharedSg (.crash fun _ => some "1")).2 with stack := [] }
  edit sharedSg "a.c" 400 (some "A") m4

set_option maxRecDepth 20000 in
/-- **C59 violated**: after a build that was killed, what it wrote may be taken for the result of an earlier build. -/
theorem C59_crash_violated :
    (run sharedSg sharedScript (.call "cc" 0 (orRaise .ret)) crashed).2.files "a.o" = some "B -O0" ∧
    (clean sharedSg sharedScript (.call "cc" 0 (orRaise .ret)) crashed).2 "a.o" = some "A -O0" := by decide +kernel

/-- somebody edits a destination -/
def edited : Mach Nat String :=
  edit sharedSg "a.o" 60 (some "junk")
    (run sharedSg sharedScript (.call "cc" 0 (orRaise .ret)) (start [("a.c", 1, "A")] [("cc", "1")])).2

set_option maxRecDepth 20000 in
/-- **C59 violated**: an edited destination is kept. -/
theorem C59_edited_violated :
    (run sharedSg sharedScript (.call "cc" 0 (orRaise .ret)) edited).2.files "a.o" = some "junk" ∧
    (clean sharedSg sharedScript (.call "cc" 0 (orRaise .ret)) edited).2 "a.o" = some "A -O0" := by decide +kernel

/-- `f` reports and reads a header, and raises if it is missing. -/
def deletedScript : Script Nat String := fun _ _ _ => .report ["x.h"] [] (.read "x.h" (orRaise .ret))
def deleted : Mach Nat String :=
  edit textSg "x.h" 60 none
    (run textSg deletedScript (.call "f" 0 (orRaise .ret)) (start [("x.h", 1, "H")] [("f", "1")])).2

set_option maxRecDepth 20000 in
/-- **C59 violated**: a deleted external source is not noticed. -/
theorem C59_deleted_violated :
    (run textSg deletedScript (.call "f" 0 (orRaise .ret)) deleted).1 = some "H" ∧
    (clean textSg deletedScript (.call "f" 0 (orRaise .ret)) deleted).1 = none := by decide +kernel

end Bad

end Verif.Calls
