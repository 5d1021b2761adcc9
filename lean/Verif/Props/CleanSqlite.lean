import Verif.Calls.SqliteSame
import Verif.Props.Clean
/-!
# C59 with the engine `sqlite`
-/
namespace Verif.Calls
open Verif.DB
set_option linter.unusedSectionVars false
variable {B R : Type} [DecidableEq B]

/-- **C59** with sqlite: whatever was built before and whatever was edited since, a build returns what it would return if every call
ran its function, and leaves the same files.  Partial: besides what `C59_partial` asks for, the functions report no files (`Declared`):
see `C59_sqlite_header_violated`. -/
theorem C59_sqlite_partial {sg : Sig B R} {script : Script B R} {ρ : Layout B} {vers : FileName → Nat → Option Content}
    (hw : WellBehaved sg script ρ) (hd : Declared sg script ρ) {n : SMach B R} (h : SLife sg script ρ vers n) {main : Prog B R}
    (hmain : ρ.Main main) (clk : Nat → Nat) {limit : Nat} (hl : ρ.depth ≤ limit)
    (he : SEditsOk vers (SMach.build sg script clk limit main n).2.trace) :
    ((SMach.build sg script clk limit main n).1, (SMach.build sg script clk limit main n).2.files) =
      cleanProg (cleanCall sg script n.sys.env.funDigest ρ.depth) main n.files := by
  obtain ⟨m, h1, h2, h3, h4⟩ := slife_same hw hd h
  obtain ⟨k1, k2, _, _⟩ := main_same hw hd (clk := clk) (limit := limit) main m n h2 h3 h4 he
  have h5 := C59_partial hw h1 hmain clk hl (k2.edits he)
  have e1 : (build sg script clk limit main m).1 = (SMach.build sg script clk limit main n).1 := k1
  have e2 : (build sg script clk limit main m).2.files = (SMach.build sg script clk limit main n).2.files := k2.files
  rw [e1, e2, h2.sys.env, h2.files] at h5
  exact h5

/-! ### An example

`cc` compiles a unit: it asks `flags`, reads its declared sources (a unit and a header), and writes its declared destination. -/
namespace SCC

def src (b : Bool) : FileName := if b then "a.c" else "b.c"
def obj (b : Bool) : FileName := if b then "a.o" else "b.o"

def sg : Sig Bool String where
  srcs f _ b := if f = "cc" then [src b, "x.h"] else []
  dsts f _ b := if f = "cc" then [obj b] else []
  returnDsts _ _ _ := []

def ccBody (code : Digest) (b : Bool) : Prog Bool String :=
  .call "flags" b fun
    | none => .raise
    | some fl => .read (src b) fun
      | none => .raise
      | some s => .read "x.h" fun
        | none => .raise
        | some h => .write (obj b) (some (code ++ fl ++ s ++ h)) (.ret (obj b))

def script : Script Bool String := fun f code b =>
  if f = "cc" then ccBody code b else if f = "flags" then .ret "-O" else .ret ""

def layout : Layout Bool where
  lib f := if f = "flags" then some "flags-1" else none
  rank f := if f = "flags" then 0 else 1
  depth := 2
  owner x := if x = "a.o" then some ("cc", true) else if x = "b.o" then some ("cc", false) else none
  keep _ := False

theorem call_flags {ds : FunName → Option Digest} (h : layout.Respects ds) (n : Nat) (b : Bool) (fs : Files) :
    cleanCall sg script ds (n + 1) "flags" b fs = (some "-O", fs) := by
  have := h "flags" "flags-1" rfl
  simp [cleanCall, this, sg, script, cleanProg]

/-- what `cc` does without a database -/
theorem call_cc {ds : FunName → Option Digest} (h : layout.Respects ds) {code : Digest} (hc : ds "cc" = some code) (b : Bool)
    (fs : Files) : cleanCall sg script ds 2 "cc" b fs =
      match fs (src b), fs "x.h" with
      | some s, some x => (some (obj b), setFile (obj b) (some (code ++ "-O" ++ s ++ x)) fs)
      | _, _ => (none, fs) := by
  have hf : cleanCall sg script ds 1 "flags" b fs = (some "-O", fs) := call_flags h 0 b fs
  show cleanCall sg script ds (1 + 1) "cc" b fs = _
  rw [cleanCall, hc]
  generalize cleanCall sg script ds 1 = call1 at hf
  cases hs : fs (src b) with
  | none => simp [sg, hs]
  | some s =>
    cases hx : fs "x.h" with
    | none => simp [sg, hs, hx]
    | some x =>
      have : (sg.srcs "cc" code b).all (fun x => (fs x).isSome) = true := by simp [sg, hs, hx]
      simp only [this, if_true, script, ccBody, cleanProg, hf, hs, hx]

theorem trail_cc {ds : FunName → Option Digest} (h : layout.Respects ds) {code : Digest} (b : Bool)
    (fs : Files) {s x : Content} (hs : fs (src b) = some s) (hx : fs "x.h" = some x) :
    footprint sg script ds 2 "cc" code b fs = ⟨[], [], [obj b]⟩ := by
  simp [footprint, script, ccBody, trail, Trail.add, Trail.none, call_flags h 1, hs, hx]

theorem call_other {ds : FunName → Option Digest} {f : FunName} (hf : f ≠ "cc") {code : Digest} (b : Bool) (fs : Files) :
    footprint sg script ds 2 f code b fs = ⟨[], [], []⟩ ∧ (cleanCall sg script ds 2 f b fs).2 = fs ∧
      (∀ r, script f code b = .ret r → ds f = some code → cleanCall sg script ds 2 f b fs = (some r, fs)) ∧
      ∃ r, script f code b = .ret r := by
  have hr : ∀ code, ∃ r, script f code b = .ret r := by
    intro code
    simp only [script, if_neg hf]
    split <;> exact ⟨_, rfl⟩
  obtain ⟨r, hr0⟩ := hr code
  refine ⟨by rw [footprint, hr0]; rfl, ?_, ?_, r, hr0⟩
  · show (cleanCall sg script ds (1 + 1) f b fs).2 = fs
    rw [cleanCall]
    split
    · rfl
    · rename_i code' _
      obtain ⟨r', hr'⟩ := hr code'
      split
      · rw [hr']; rfl
      · rfl
  · intro r' h1 h2
    show cleanCall sg script ds (1 + 1) f b fs = _
    rw [cleanCall, h2]
    simp [sg, hf, h1, cleanProg]

/-- the script is well-behaved -/
theorem wellBehaved : WellBehaved sg script layout where
  rank_lt f := by simp only [layout]; split <;> omega
  body f code b hc := by
    simp only [script]
    split
    · rename_i h; subst h
      refine ⟨by simp [layout], by simp [layout], by simp [layout], by simp, ?_⟩
      intro o
      cases o with
      | none => trivial
      | some fl =>
        intro o
        cases o with
        | none => trivial
        | some s =>
          intro o
          cases o with
          | none => trivial
          | some x => exact ⟨by cases b <;> rfl, fun _ => rfl, trivial⟩
    · split <;> trivial
  pure x f b h := by
    simp only [layout] at h ⊢
    split at h
    · cases h; exact .inl rfl
    · split at h
      · cases h; exact .inl rfl
      · cases h
  leaf_lib _ h := False.elim h
  declared _ _ _ _ _ h := False.elim h
  leaf_declared _ _ _ _ _ h := False.elim h
  leaf_same _ _ _ _ _ _ _ _ _ _ _ _ h := False.elim h
  leaf_trail _ _ _ _ _ _ _ _ _ h := False.elim h
  covered ds f b code fs r fs1 hds hc hr fs2 hag := by
    simp only [layout] at hr hag ⊢
    by_cases hf : f = "cc"
    · subst hf
      rw [call_cc hds hc] at hr
      cases hs : fs (src b) with
      | none => simp [hs] at hr
      | some s =>
        cases hx : fs "x.h" with
        | none => simp [hs, hx] at hr
        | some x =>
          simp only [hs, hx, Prod.mk.injEq, Option.some.injEq] at hr
          obtain ⟨rfl, rfl⟩ := hr
          rw [trail_cc hds b fs hs hx] at hag ⊢
          have hs2 : fs2 (src b) = some s := by rw [hag _ (by simp [sg]), hs]
          have hx2 : fs2 "x.h" = some x := by rw [hag _ (by simp [sg]), hx]
          refine ⟨_, by rw [call_cc hds hc, hs2, hx2], ?_⟩
          rw [trail_cc hds b fs2 hs2 hx2]
          intro y hy
          simp only [List.mem_singleton] at hy
          subst hy
          simp [setFile]
    · obtain ⟨r', hr'⟩ := (call_other (ds := ds) hf (code := code) b fs).2.2.2
      have h1 := (call_other (ds := ds) hf (code := code) b fs).2.2.1 r' hr' hc
      rw [h1] at hr
      simp only [Prod.mk.injEq, Option.some.injEq] at hr
      obtain ⟨rfl, rfl⟩ := hr
      refine ⟨fs2, (call_other hf b fs2).2.2.1 r' hr' hc, ?_⟩
      rw [(call_other hf b fs2).1]
      simp
  outputs ds f b code fs r fs1 hds hc hr := by
    simp only [layout] at hr ⊢
    by_cases hf : f = "cc"
    · subst hf
      rw [call_cc hds hc] at hr
      cases hs : fs (src b) with
      | none => simp [hs] at hr
      | some s =>
        cases hx : fs "x.h" with
        | none => simp [hs, hx] at hr
        | some x =>
          rw [trail_cc hds b fs hs hx]
          simp [sg]
    · rw [(call_other hf b fs).1]
      simp
  inputs ds f b code fs r fs1 hds hc hr := by
    simp only [layout] at hr ⊢
    by_cases hf : f = "cc"
    · subst hf
      rw [call_cc hds hc] at hr
      cases hs : fs (src b) with
      | none => simp [hs] at hr
      | some s =>
        cases hx : fs "x.h" with
        | none => simp [hs, hx] at hr
        | some x =>
          rw [trail_cc hds b fs hs hx]
          cases b <;> simp [sg, src, obj]
    · rw [(call_other hf b fs).1]
      simp
  exist ds f b code fs o fs1 hds hc hsrc hr ho := by
    simp only [layout] at hr ho ⊢
    by_cases hf : f = "cc"
    · subst hf
      rw [call_cc hds hc] at hr
      cases hs : fs (src b) with
      | none =>
        simp [hs] at hr
        obtain ⟨rfl, rfl⟩ := hr
        simp at ho
      | some s =>
        cases hx : fs "x.h" with
        | none =>
          simp [hs, hx] at hr
          obtain ⟨rfl, rfl⟩ := hr
          simp at ho
        | some x =>
          rw [trail_cc hds b fs hs hx]
          simp [hx]
    · rw [(call_other hf b fs).1]
      simp
  atomic ds f b fs fs1 hds hr := by
    simp only [layout] at hr
    by_cases hf : f = "cc"
    · subst hf
      cases hc : ds "cc" with
      | none =>
        have : cleanCall sg script ds (1 + 1) "cc" b fs = (none, fs) := by rw [cleanCall, hc]
        rw [this] at hr
        cases hr; exact fun _ _ => rfl
      | some code =>
        rw [call_cc hds hc] at hr
        cases hs : fs (src b) with
        | none => simp [hs] at hr; rw [hr]; exact fun _ _ => rfl
        | some s =>
          cases hx : fs "x.h" with
          | none => simp [hs, hx] at hr; rw [hr]; exact fun _ _ => rfl
          | some x => simp [hs, hx] at hr
    · have := (call_other (ds := ds) hf (code := "") b fs).2.1
      rw [hr] at this
      simp only at this
      rw [this]
      exact fun _ _ => rfl

/-- its files are declared -/
theorem declared : Declared sg script layout where
  silent f code b _ := by
    simp only [script]
    split
    · refine ⟨rfl, fun o => ?_⟩
      cases o with
      | none => trivial
      | some fl =>
        intro o
        cases o with
        | none => trivial
        | some s =>
          intro o
          cases o <;> trivial
    · split <;> trivial
  own x f b code h := by
    simp only [layout] at h
    split at h
    · cases h
      rename_i h; subst h
      simp [sg, src]
    · split at h
      · cases h
        rename_i h; subst h
        simp [sg, src]
      · cases h

def env0 : Env where
  fs x := if x = "a.c" then some ⟨1, some "A"⟩ else if x = "b.c" then some ⟨2, some "B"⟩
    else if x = "x.h" then some ⟨3, some "H"⟩ else none
  now := 5
  funDigest f := if f = "cc" then some "cc-1" else if f = "flags" then some "flags-1" else none
  md5 := id
  recursionLimit := 10

def main : Prog Bool String := .call "cc" true fun _ => .call "cc" false fun
  | none => .raise
  | some r => .ret r

def clk : Nat → Nat := fun n => 10 + n
def ds2 : FunName → Option Digest := fun f =>
  if f = "cc" then some "cc-2" else if f = "flags" then some "flags-1" else none

/-- a build, an edit of a source, a build, an edit of the script and a new process, a build, an object file is removed -/
def m1 : SMach Bool String := (SMach.build sg script clk 5 main ⟨SSys.init env0, [], [], 0⟩).2
def m2 : SMach Bool String := (m1.event sg (.edit "a.c" (some ⟨50, some "A2"⟩))).2
def m3 : SMach Bool String := (SMach.build sg script clk 5 main m2).2
def m4 : SMach Bool String := { (m3.event sg (.restart ds2)).2 with stack := [] }
def m5 : SMach Bool String := (SMach.build sg script clk 5 main m4).2
def m6 : SMach Bool String := (m5.event sg (.edit "b.o" none)).2

/-- the contents written, by file and time -/
def vers : FileName → Nat → Option Content := fun x t =>
  if x = "a.c" then (if t = 1 then some "A" else some "A2")
  else if x = "b.c" then some "B"
  else if x = "x.h" then some "H"
  else if x = "a.o" then (if t = 12 then some "cc-1-OAH" else if t = 18 then some "cc-1-OA2H" else some "cc-2-OA2H")
  else if t = 15 then some "cc-1-OBH" else some "cc-2-OBH"

def editsOkB (tr : List (Event Bool String)) : Bool := tr.all fun q =>
  match q with
  | .edit x (some st) => vers x st.mtime == st.content
  | _ => true

theorem editsOkB_sound {tr : List (Event Bool String)} (h : editsOkB tr = true) : SEditsOk vers tr := by
  intro x st hx
  have := (List.all_eq_true.1 h) _ hx
  simpa using this

theorem mainOk : layout.Main main := by
  intro o o'
  cases o' <;> trivial

theorem life0 : SLife sg script layout vers ⟨SSys.init env0, [], [], 0⟩ := by
  refine .start env0 ?_ ?_ (by decide) (fun _ _ h => h) ?_
  · intro x f hx
    simp only [env0] at hx
    split at hx
    · cases hx; rename_i h; subst h; rfl
    · split at hx
      · cases hx; rename_i h; subst h; rfl
      · split at hx
        · cases hx; rename_i h; subst h; rfl
        · cases hx
  · intro g d hg
    simp only [layout] at hg
    split at hg
    · cases hg; rename_i h; subst h; rfl
    · cases hg
  · intro x k hx
    simp only [layout] at hx
    left
    split at hx
    · rename_i h; subst h; rfl
    · split at hx
      · rename_i h; subst h; rfl
      · cases hx

set_option maxRecDepth 20000 in
theorem life6 : SLife sg script layout vers m6 := by
  have h1 : SLife sg script layout vers m1 :=
    .build life0 main mainOk clk 5 (by decide) (editsOkB_sound (by decide +kernel))
  have h2 : SLife sg script layout vers m2 :=
    .user h1 (.edit "a.c" (some ⟨50, some "A2"⟩)) ⟨.inl rfl, by simp [layout], by intro f hf; cases hf; rfl⟩
  have h3 : SLife sg script layout vers m3 :=
    .build h2 main mainOk clk 5 (by decide) (editsOkB_sound (by decide +kernel))
  have h4 : SLife sg script layout vers m4 := by
    refine .process h3 ds2 ?_
    intro g d hg
    simp only [layout] at hg
    split at hg
    · cases hg; rename_i h; subst h; rfl
    · cases hg
  have h5 : SLife sg script layout vers m5 :=
    .build h4 main mainOk clk 5 (by decide) (editsOkB_sound (by decide +kernel))
  exact .user h5 (.edit "b.o" none) ⟨.inr rfl, by simp [layout], by intro f hf; cases hf⟩

/-- `C59_sqlite_partial` applied to the example: both calls are answered correctly, one of them from the database, the other by running
the function, because its object file is gone. -/
example : ((SMach.build sg script clk 5 main m6).1, (SMach.build sg script clk 5 main m6).2.files) =
    cleanProg (cleanCall sg script m6.sys.env.funDigest 2) main m6.files :=
  C59_sqlite_partial wellBehaved declared life6 mainOk clk (by decide) (editsOkB_sound (by decide +kernel))

set_option maxRecDepth 20000 in
example : (SMach.build sg script clk 5 main m6).1 = some "b.o" ∧ (SMach.build sg script clk 5 main m6).2.files "a.o" = some "cc-2-OA2H" ∧
    (SMach.build sg script clk 5 main m6).2.files "b.o" = some "cc-2-OBH" ∧
    ((SMach.build sg script clk 5 main m6).2.sys.log.take 2).map (fun e => (e.fn, e.bound)) = [("cc", false), ("cc", false)] ∧
    (SMach.build sg script clk 5 main m6).2.sys.log.length = m6.sys.log.length + 1 := by decide +kernel

end SCC

/-! ### Reported files

The script of `Verif/Props/Clean.lean`, for which `C59_partial` holds with the other engines: `cc` reports the header `x.h`. -/
namespace Header

def built : SMach Bool String := (SMach.build CC.sg CC.script CC.clk 5 CC.main ⟨SSys.init CC.env0, [], [], 0⟩).2
/-- the header is edited -/
def edited : SMach Bool String := (built.event CC.sg (.edit "x.h" (some ⟨50, some "H2"⟩))).2

def vers : FileName → Nat → Option Content := fun x t =>
  if x = "a.c" then some "A"
  else if x = "b.c" then some "B"
  else if x = "x.h" then (if t = 3 then some "H" else some "H2")
  else if x = "a.o" then (if t = 12 then some "cc-1-OAH" else some "cc-1-OAH2")
  else (if t = 15 then some "cc-1-OBH" else some "cc-1-OBH2")

def editsOkB (tr : List (Event Bool String)) : Bool := tr.all fun q =>
  match q with
  | .edit x (some st) => vers x st.mtime == st.content
  | _ => true

theorem editsOkB_sound {tr : List (Event Bool String)} (h : editsOkB tr = true) : SEditsOk vers tr := by
  intro x st hx
  have := (List.all_eq_true.1 h) _ hx
  simpa using this

theorem life0 : SLife CC.sg CC.script CC.layout vers ⟨SSys.init CC.env0, [], [], 0⟩ := by
  refine .start CC.env0 ?_ ?_ (by decide) (fun _ _ h => h) ?_
  · intro x f hx
    simp only [CC.env0] at hx
    split at hx
    · cases hx; rename_i h; subst h; rfl
    · split at hx
      · cases hx; rename_i h; subst h; rfl
      · split at hx
        · cases hx; rename_i h; subst h; rfl
        · cases hx
  · intro g d hg
    simp only [CC.layout] at hg
    split at hg
    · cases hg; rename_i h; subst h; rfl
    · cases hg
  · intro x k hx
    simp only [CC.layout] at hx
    left
    split at hx
    · rename_i h; subst h; rfl
    · split at hx
      · rename_i h; subst h; rfl
      · cases hx

set_option maxRecDepth 20000 in
theorem life : SLife CC.sg CC.script CC.layout vers edited := by
  have h1 : SLife CC.sg CC.script CC.layout vers built :=
    .build life0 CC.main CC.mainOk CC.clk 5 (by decide) (editsOkB_sound (by decide +kernel))
  exact .user h1 (.edit "x.h" (some ⟨50, some "H2"⟩)) ⟨.inl rfl, by simp [CC.layout], by intro f hf; cases hf; rfl⟩

set_option maxRecDepth 20000 in
/-- **C59 violated** with sqlite: of two units that include an edited header only the first one is compiled again, although the script
is well-behaved. -/
theorem C59_sqlite_header_violated :
    WellBehaved CC.sg CC.script CC.layout ∧ SLife CC.sg CC.script CC.layout vers edited ∧ CC.layout.Main CC.main ∧
    SEditsOk vers (SMach.build CC.sg CC.script CC.clk 5 CC.main edited).2.trace ∧
    (SMach.build CC.sg CC.script CC.clk 5 CC.main edited).2.files "a.o" = some "cc-1-OAH2" ∧
    (SMach.build CC.sg CC.script CC.clk 5 CC.main edited).2.files "b.o" = some "cc-1-OBH" ∧
    (cleanProg (cleanCall CC.sg CC.script edited.sys.env.funDigest 2) CC.main edited.files).2 "b.o" = some "cc-1-OBH2" :=
  ⟨CC.wellBehaved, life, CC.mainOk, editsOkB_sound (by decide +kernel), by decide +kernel, by decide +kernel, by decide +kernel⟩

end Header

end Verif.Calls
