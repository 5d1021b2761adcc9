import Verif.Props.Tools
import Verif.Props.GccLibs
import Verif.Props.Files
/-!
# C84: an example, the declared files of `link_exe`, and what goes wrong otherwise
-/
namespace Verif.Calls
open Verif.DB
set_option linter.unusedSimpArgs false

/-! ## An example -/
namespace ProjEx

/-- the words of an argument -/
def words : List Char → List (List Char)
  | [] => [[]]
  | c :: cs =>
    if c = ' ' then [] :: words cs
    else match words cs with
      | [] => [[c]]
      | w :: ws => (c :: w) :: ws

theorem words_length (b : List Char) : ∀ w ∈ words b, w.length ≤ b.length := by
  induction b with
  | nil => simp [words]
  | cons c b ih =>
    intro w hw
    rw [words] at hw
    split at hw
    · rcases List.mem_cons.1 hw with rfl | hw
      · simp
      · exact Nat.le_succ_of_le (ih w hw)
    · split at hw
      · simp only [List.mem_singleton] at hw; subst hw; simp
      · rename_i w' ws he
        rw [he] at ih
        rcases List.mem_cons.1 hw with rfl | hw
        · simpa using ih w' (.head _)
        · exact Nat.le_succ_of_le (ih w (.tail _ hw))

def name (a : List Char) (suffix : String) : FileName := String.ofList a ++ suffix

/-- `cc` compiles one source, which includes `x.h` if it says so, and fails for `#error`; `objs` compiles the sources that its argument names; `ld` links
the object files that its argument names with `libm.a`. -/
def T : Tools (List Char) where
  srcs f b := if f = "cc" then [name b ".c"] else if f = "ld" then (words b).map (name · "") ++ ["libm.a"]
    else (words b).map (name · ".c")
  out f b := if f = "cc" then name b ".o" else name b ".x"
  next f code b seen :=
    if f = "cc" then
      match seen with
      | [] => .more (name b ".c")
      | [(_, c)] => if c = "#error" then .error else if c = "#include" then .more "x.h" else .done (code ++ "-" ++ c)
      | [(_, c), (_, h)] => .done (code ++ "-" ++ c ++ "-" ++ h)
      | _ => .error
    else
      match ((words b).map (name · "") ++ ["libm.a"])[seen.length]? with
      | some x => .more x
      | none => .done (code ++ "(" ++ String.join (seen.map fun q => q.2 ++ ",") ++ ")")
  most f b := if f = "cc" then 3 else (words b).length + 2
  reports f := f = "cc"
  group f := f ≠ "cc" ∧ f ≠ "ld"
  parts f b := if f = "objs" then (words b).map fun a => ("cc", a) else []
  text f := if f = "cc" then some "cc-1" else none

def header (x : FileName) : Prop := x = "x.h"

theorem name_suffix {a : List Char} {s t : String} (h : name a s = t) : s.toList <:+ t.toList := by
  subst h
  exact ⟨a, by simp [name]⟩

theorem name_ne {a a' : List Char} {s t : String} (hl : s.toList.length = t.toList.length) (hne : s.toList ≠ t.toList) :
    name a s ≠ name a' t := by
  intro h
  have h := congrArg String.toList h
  simp only [name, String.toList_append, String.toList_ofList] at h
  exact hne (List.append_inj' h hl).2

theorem name_inj {a a' : List Char} {s : String} (h : name a s = name a' s) : a = a' := by
  have h := congrArg String.toList h
  simp only [name, String.toList_append, String.toList_ofList] at h
  exact List.append_cancel_right h

theorem group_iff (f : FunName) : T.group f = false ↔ f = "cc" ∨ f = "ld" := by
  simp only [T, decide_eq_false_iff_not]
  by_cases h1 : f = "cc" <;> by_cases h2 : f = "ld" <;> simp [h1, h2]

theorem ok : T.Ok header where
  distinct f b f' b' hf hf' h := by
    rw [group_iff] at hf hf'
    rcases hf with rfl | rfl <;> rcases hf' with rfl | rfl
    · exact ⟨rfl, name_inj (s := ".o") h⟩
    · exact absurd (show name b ".o" = name b' ".x" from h) (name_ne rfl (by decide))
    · exact absurd (show name b ".x" = name b' ".o" from h) (name_ne rfl (by decide))
    · exact ⟨rfl, name_inj (s := ".x") h⟩
  outputs f b hf h := by
    rw [group_iff] at hf
    rcases hf with rfl | rfl
    · exact absurd (name_suffix (a := b) (s := ".o") h) (by decide)
    · exact absurd (name_suffix (a := b) (s := ".x") h) (by decide)
  reads f code b seen x hf h := by
    rw [group_iff] at hf
    rcases hf with rfl | rfl
    · simp only [T, if_true] at h ⊢
      split at h
      · cases h; simp
      · split at h
        · cases h
        · split at h
          · cases h; exact .inr ⟨by simp, rfl⟩
          · cases h
      · cases h
      · cases h
    · left
      simp only [T, show ("ld" : String) ≠ "cc" by decide, if_false, if_true] at h ⊢
      split at h
      · rename_i x' hx
        cases h
        exact List.mem_of_getElem? hx
      · cases h
  self f b x hx hs := by
    by_cases h1 : f = "cc"
    · subst h1
      simp only [Tools.result, Tools.jobs, show T.group "cc" = false from by decide, Bool.false_eq_true, if_false, List.map_cons,
        List.map_nil, List.mem_singleton] at hx
      simp only [T, if_true, List.mem_singleton] at hx hs
      rw [hx] at hs
      exact name_ne (s := ".o") (t := ".c") rfl (by decide) hs
    · by_cases h2 : f = "ld"
      · subst h2
        simp only [Tools.result, Tools.jobs, show T.group "ld" = false from by decide, Bool.false_eq_true, if_false, List.map_cons,
          List.map_nil, List.mem_singleton] at hx
        simp only [T, h1, if_false, if_true] at hx hs
        subst hx
        rcases List.mem_append.1 hs with hs | hs
        · obtain ⟨w, hw, he⟩ := List.mem_map.1 hs
          have h3 := words_length b w hw
          have h4 := congrArg (fun s => s.toList.length) he
          simp [name] at h4
          omega
        · simp only [List.mem_singleton] at hs
          exact absurd (name_suffix hs) (by decide)
      · have hg : T.group f = true := by simp [T, h1, h2]
        simp only [Tools.result, Tools.jobs, hg, if_true] at hx
        simp only [T, h1, h2, if_false] at hx hs
        split at hx
        · simp only [List.map_map, List.mem_map, Function.comp] at hx hs
          obtain ⟨w, _, hx⟩ := hx
          obtain ⟨w', _, hs⟩ := hs
          rw [← hx] at hs
          exact name_ne (s := ".c") (t := ".o") rfl (by decide) hs
        · cases hx
  parts f b hf c hc := by
    have h1 : f ≠ "cc" := by rintro rfl; cases hf
    have h2 : f ≠ "ld" := by rintro rfl; cases hf
    simp only [T] at hc
    split at hc
    · obtain ⟨w, hw, rfl⟩ := List.mem_map.1 hc
      refine ⟨rfl, rfl, ?_⟩
      intro x hx
      simp only [T, if_true, List.mem_singleton, h1, h2, if_false] at hx ⊢
      rw [hx]
      exact List.mem_map.2 ⟨w, hw, rfl⟩
    · cases hc

def env0 : Env where
  fs x := if x = "a.c" then some ⟨1, some "#include"⟩ else if x = "b.c" then some ⟨1, some "B"⟩
    else if x = "x.h" then some ⟨2, some "H"⟩ else if x = "libm.a" then some ⟨3, some "M"⟩ else none
  now := 5
  funDigest f := if f = "cc" then some "cc-1" else if f = "ld" then some "ld-1" else if f = "objs" then some "objs-1" else none
  md5 := id
  recursionLimit := 10

def clk : Nat → Nat := fun n => 10 + n

/-- `build_exe` of `a.c` and `b.c` -/
def steps : List (Step (List Char)) := buildSteps "objs" ['a', ' ', 'b'] "ld" fun os => [' '].intercalate (os.map String.toList)

def ds2 : FunName → Option Digest := fun f => if f = "cc" then some "cc-1" else if f = "ld" then some "ld-2"
  else if f = "objs" then some "objs-1" else none

/-- a build, an edit of the header, a new process with another linker function -/
def m0 : Mach (List Char) (List FileName) := ⟨Sys.init env0, [], [], 0⟩
def m1 : Mach (List Char) (List FileName) := (build T.sig T.script clk 5 (makeAll steps []) m0).2
def m2 : Mach (List Char) (List FileName) := (m1.event T.sig (.edit "x.h" (some ⟨50, some "H2"⟩))).2
def m3 : Mach (List Char) (List FileName) := { (m2.event T.sig (.restart ds2)).2 with stack := [] }
def m4 : Mach (List Char) (List FileName) := (build T.sig T.script (fun n => 100 + n) 5 (makeAll steps []) m3).2

def vers : FileName → Nat → Option Content := fun x t =>
  if x = "a.c" then some "#include"
  else if x = "b.c" then (if t = 60 then some "#error" else some "B")
  else if x = "x.h" then (if t = 2 then some "H" else some "H2")
  else if x = "libm.a" then some "M"
  else if x = "a.o" then (if t < 50 then some "cc-1-#include-H" else some "cc-1-#include-H2")
  else if x = "b.o" then some "cc-1-B"
  else if t < 50 then some "ld-1(cc-1-#include-H,cc-1-B,M,)" else some "ld-2(cc-1-#include-H2,cc-1-B,M,)"

def editsOkB (tr : Trace (List Char) (List FileName)) : Bool := tr.all fun q =>
  match q.2 with
  | .edit x (some st) => vers x st.mtime == st.content
  | _ => true

theorem editsOkB_sound {tr : Trace (List Char) (List FileName)} (h : editsOkB tr = true) : EditsOk vers tr := by
  intro s x st hx
  have := (List.all_eq_true.1 h) _ hx
  simpa using this

theorem owner_none {x : FileName} (h : ¬ ".o".toList <:+ x.toList) (h' : ¬ ".x".toList <:+ x.toList) :
    (T.layout header).owner x = none := by
  simp only [Tools.layout]
  rw [dif_neg]
  rintro ⟨⟨f, b⟩, hf, he⟩
  rw [group_iff] at hf
  rcases hf with rfl | rfl
  · exact h (name_suffix (a := b) (s := ".o") he)
  · exact h' (name_suffix (a := b) (s := ".x") he)

theorem life0 : Life T.sig T.script (T.layout header) vers m0 := by
  refine .start env0 ?_ ?_ (by show 2 ≤ 10; decide) (fun _ _ h => h) ?_
  · intro x f hx
    simp only [env0] at hx
    split at hx
    · cases hx; rename_i h; subst h; rfl
    · split at hx
      · cases hx; rename_i h; subst h; rfl
      · split at hx
        · cases hx; rename_i h; subst h; rfl
        · split at hx
          · cases hx; rename_i h; subst h; rfl
          · cases hx
  · intro f d h
    simp only [Tools.layout] at h
    split at h
    · cases h
    · simp only [T] at h
      split at h
      · cases h; rename_i h; subst h; rfl
      · cases h
  · intro x k hx
    left
    simp only [env0]
    split
    · rename_i h; subst h; rw [owner_none (by decide) (by decide)] at hx; cases hx
    · split
      · rename_i h; subst h; rw [owner_none (by decide) (by decide)] at hx; cases hx
      · split
        · rename_i h; subst h; rw [owner_none (by decide) (by decide)] at hx; cases hx
        · split
          · rename_i h; subst h; rw [owner_none (by decide) (by decide)] at hx; cases hx
          · rfl

set_option maxRecDepth 20000 in
theorem life3 : Life T.sig T.script (T.layout header) vers m3 := by
  have h1 : Life T.sig T.script (T.layout header) vers m1 :=
    .build life0 _ (makeAll_main steps []) clk 5 (by show 2 ≤ 5; decide) (editsOkB_sound (by decide +kernel))
  have h2 : Life T.sig T.script (T.layout header) vers m2 :=
    .user h1 (.edit "x.h" (some ⟨50, some "H2"⟩)) ⟨.inl (owner_none (by decide) (by decide)), by simp, by intro f hf; cases hf; rfl⟩
  refine .process h2 ds2 ?_
  intro f d h
  simp only [Tools.layout] at h
  split at h
  · cases h
  · simp only [T] at h
    split at h
    · cases h; rename_i h; subst h; rfl
    · cases h

set_option maxRecDepth 20000 in
/-- the hypotheses of `C84_build_partial` are met: the header is not declared anywhere, and yet `a.o` and the executable are made
again -/
example : (∀ c ∈ T.parts "objs" ['a', ' ', 'b'], UpToDate T m3.sys.env.funDigest m4.files c) ∧
    UpToDate T m3.sys.env.funDigest m4.files ("ld", "a.o b.o".toList) :=
  C84_build_partial ok life3 "objs" "ld" ['a', ' ', 'b'] (fun os => [' '].intercalate (os.map String.toList)) (by decide) (by decide)
    (by decide +kernel) (fun n => 100 + n) (by decide) (editsOkB_sound (by decide +kernel)) (by decide +kernel)

set_option maxRecDepth 20000 in
/-- `b.o` is not made again: its modification time is from the first build -/
example : m3.files "a.o" = some "cc-1-#include-H" ∧ m3.files "a.o b.o.x" = some "ld-1(cc-1-#include-H,cc-1-B,M,)" ∧
    m4.files "a.o" = some "cc-1-#include-H2" ∧ m4.files "a.o b.o.x" = some "ld-2(cc-1-#include-H2,cc-1-B,M,)" ∧
    m4.sys.env.fs "b.o" = m1.sys.env.fs "b.o" := by decide +kernel

end ProjEx
/-! ## Outside these conditions -/
namespace Bad

/-- Number 0 of `ar` makes `liba.a` from `a.o`; the library says that it needs `libb.a`, so this is declared (`libs=`), but an
archive contains object files only.  Number 1 makes `libb.a` from `b.o`.  `ld` is given `x.o` and `liba.a`, and links with
`libb.a` as well. -/
def transTools : Tools Nat where
  srcs f b := if f = "ar" then (if b = 0 then ["a.o", "libb.a"] else ["b.o"]) else ["x.o", "liba.a"]
  out f b := if f = "ar" then (if b = 0 then "liba.a" else "libb.a") else "exe"
  next f _ b seen :=
    if f = "ar" then
      match seen with
      | [] => .more (if b = 0 then "a.o" else "b.o")
      | (_, c) :: _ => .done ("!" ++ c)
    else
      match seen with
      | [] => .more "x.o"
      | [_] => .more "liba.a"
      | [_, _] => .more "libb.a"
      | _ => .done (String.join (seen.map (·.2)))
  most _ _ := 4
  reports _ := false

def transMain : Prog Nat (List FileName) := makeAll [("ar", fun _ => 1), ("ar", fun _ => 0), ("ld", fun _ => 0)] []
def trans : Mach Nat (List FileName) :=
  edit transTools.sig "b.o" 50 (some "B2")
    (run transTools.sig transTools.script transMain
      (start [("a.o", 1, "A"), ("b.o", 2, "B"), ("x.o", 3, "X")] [("ar", "ar"), ("ld", "ld")])).2

set_option maxRecDepth 20000 in
/-- **C84 violated**: a static library that another library needs is built again, the executable is not linked again. -/
theorem C84_transitive_violated :
    (run transTools.sig transTools.script transMain trans).2.files "libb.a" = some "!B2" ∧
    (run transTools.sig transTools.script transMain trans).2.files "exe" = some "X!A!B" ∧
    (clean transTools.sig transTools.script transMain trans).2 "exe" = some "X!A!B2" := by decide +kernel

/-- `link_exe('exe', ['a.o'])` (0) and `link_exe('exe', ['a.o', 'b.o'])` (1): different calls, one file -/
def twoTools : Tools Nat where
  srcs _ b := if b = 0 then ["a.o"] else ["a.o", "b.o"]
  out _ _ := "exe"
  next _ _ b seen :=
    match (if b = 0 then ["a.o"] else ["a.o", "b.o"])[seen.length]? with
    | some x => .more x
    | none => .done (String.join (seen.map (·.2)))
  most _ _ := 4
  reports _ := false

def twoMain (b : Nat) : Prog Nat (List FileName) := makeAll [("ld", fun _ => b)] []
def two : Mach Nat (List FileName) :=
  (run twoTools.sig twoTools.script (twoMain 1) (run twoTools.sig twoTools.script (twoMain 0)
    (start [("a.o", 1, "A"), ("b.o", 2, "B")] [("ld", "ld")])).2).2

set_option maxRecDepth 20000 in
/-- **C84 violated**: an object file is added to an executable, and taken away again; the executable still contains it. -/
theorem C84_back_violated :
    two.files "exe" = some "AB" ∧
    (run twoTools.sig twoTools.script (twoMain 0) two).1 = some ["exe"] ∧
    (run twoTools.sig twoTools.script (twoMain 0) two).2.files "exe" = some "AB" ∧
    (clean twoTools.sig twoTools.script (twoMain 0) two).2 "exe" = some "A" := by decide +kernel

/-- `gcc -Iinc1 -Iinc2` takes the header of the first directory that has it, and `-MMD` names the one that was taken. -/
def shadowSg : Sig Nat String := ⟨fun _ _ _ => ["a.c"], fun _ _ _ => [], fun _ _ r => [r]⟩
def shadowScript : Script Nat String := fun _ _ _ =>
  .read "a.c" (orRaise fun a => .read "inc1/x.h" fun
    | some h => .report ["a.c", "inc1/x.h"] [] (.write "a.o" (some (a ++ h)) (.ret "a.o"))
    | none => .read "inc2/x.h" (orRaise fun h =>
        .report ["a.c", "inc2/x.h"] [] (.write "a.o" (some (a ++ h)) (.ret "a.o"))))
def shadowMain : Prog Nat String := .call "cc" 0 (orRaise .ret)
def shadow : Mach Nat String :=
  edit shadowSg "inc1/x.h" 50 (some "1")
    (run shadowSg shadowScript shadowMain (start [("a.c", 1, "A"), ("inc2/x.h", 2, "2")] [("cc", "cc")])).2

set_option maxRecDepth 20000 in
/-- **C84 violated**: a new header that is found before the one used so far is not noticed. -/
theorem C84_shadow_violated :
    (run shadowSg shadowScript shadowMain shadow).2.files "a.o" = some "A2" ∧
    (clean shadowSg shadowScript shadowMain shadow).2 "a.o" = some "A1" := by decide +kernel

end Bad
end Verif.Calls

/-! ## The declared files of `link_exe` and `link_lib` -/
namespace Verif.Functools
open Verif.Gcc

/-- `def link_exe(self, dst, srcs:SRCS, *args, libs:SRCS=(), **kwargs) -> DST` (builders/__init__.py:269-276; `link_lib`
197-204 is the same) -/
def linkSig {V : Type} (empty : V) : Sig V where
  args := ["self", "dst", "srcs"]
  varargs := some "args"
  kwonly := ["libs"]
  kwdefaults := [("libs", empty)]
  varkw := some "kwargs"

def linkAnn : List (Name × Annot) := [("srcs", .srcs), ("libs", .srcs), ("return", .dst)]

/-- The declared files of `builder.link_exe(dst, objs, libs=libs)` are the object files and the libraries that are given. -/
theorem link_declares {V : Type} (ops : Ops V) (fo : FileOps V) (empty self dst objs libs : V) (os ls : List V)
    (ho : fo.iter objs = some os) (hl : fo.iter libs = some ls) (hh : ∀ x ∈ os ++ ls, fo.hashable x = true) :
    ∃ bound, findCallFilenames ops fo (linkSig empty) linkAnn [self, dst, objs] [("libs", libs)] =
      .ok (bound, (os ++ ls).map .one, [], some .dst) := by
  have h1 : (os.map Value.one).all (hashable fo) = true := by
    simp only [List.all_map, List.all_eq_true, Function.comp]
    exact fun x hx => hh x (List.mem_append_left _ hx)
  have h2 : (ls.map Value.one).all (hashable fo) = true := by
    simp only [List.all_map, List.all_eq_true, Function.comp]
    exact fun x hx => hh x (List.mem_append_right _ hx)
  have hb : bindArgs ops (linkSig empty) [self, dst, objs] [("libs", libs)] =
      .ok [("self", .one self), ("dst", .one dst), ("srcs", .one objs), ("args", .tuple []), ("libs", .one libs),
        ("kwargs", .dict [])] := by
    rfl
  refine ⟨[("self", .one self), ("dst", .one dst), ("srcs", .one objs), ("args", .tuple []), ("libs", .one libs),
        ("kwargs", .dict [])], ?_⟩
  simp [findCallFilenames, hb, linkAnn, annotLoop, Annot.isSrc, List.lookup, updateFiles, convert, ho, hl, h1, h2]

/-- Every library that gcc is told to link is declared, if the builder has no libraries of its own and every library needed
by a library that is given is given too. -/
theorem link_declared_partial (g : LibFiles) (b : Cc) (a : Args) (hb : b.libs = [])
    (hclosed : ∀ l ∈ a.libs, ∀ d ∈ g.deps l, d ∈ a.libs) (l : Nat) (h : Linked g b a l) : l ∈ a.libs := by
  induction h with
  | root h => simpa [hb] using h
  | dep _ hd ih => exact hclosed _ ih _ hd

end Verif.Functools
