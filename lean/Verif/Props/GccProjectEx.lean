import Verif.Props.GccProject
import Verif.Props.ToolsEx
/-!
# C132: an example, and what goes wrong otherwise
-/
namespace Verif.Gcc.Project
open Verif.DB Verif.Calls Verif.Gcc.Factory
namespace Ex

def t (s : String) : Text := s.toList

/-- the last word of a command -/
def last (cmd : List Text) : FileName := String.ofList (cmd.getLast?.getD [])

/-- the files that are linked -/
def linked (cmd : List Text) : List Text :=
  (cmd.filter fun w => (t ".o").isSuffixOf w) ++ if t "-ltest" ∈ cmd then [t "build/libtest.so"] else []

/-- A compiler: the source is the last word; `x.h` is read if the source says so.  A linker: the objects are the words that end with
`.o`; `-ltest` is a library. -/
def run : Programs := fun cmd seen =>
  if t "-c" ∈ cmd then
    match seen with
    | [] => .more (last cmd)
    | [(_, c)] => if c = "#include" then .more "x.h" else .done ("o " ++ c)
    | [(_, c), (_, h)] => .done ("o " ++ c ++ h)
    | _ => .error
  else
    match (linked cmd)[seen.length]? with
    | some x => .more (String.ofList x)
    | none => .done (String.join (seen.map fun q => q.2 ++ ","))

/-- each file on its own line -/
def depText : Text → List Text → Text := fun target deps => depFile target (deps.map fun d => (true, d))

theorem writes : WritesDeps depText := by
  intro target deps
  refine ⟨deps.map fun _ => true, by simp, ?_⟩
  unfold depText
  congr 1
  induction deps with
  | nil => rfl
  | cons d ds ih => simp [ih]

/-- one library, with the path `build/libtest.so` -/
def libFiles : LibFiles := ⟨fun _ => [], fun _ => false, fun _ => t "build/libtest.so", fun _ => [], fun _ => []⟩

/-- `build_exe('prog', ['a.c', 'lib/b.c'])`, `build_lib('test', ['lib/b.c'])` and `build_exe('app', ['a.c'], libs=[...])` -/
def prog : Target := ⟨⟨false, t "prog"⟩, [t "a.c", t "lib/b.c"], []⟩
def test : Target := ⟨⟨true, t "test"⟩, [t "lib/b.c"], []⟩
def app : Target := ⟨⟨false, t "app"⟩, [t "a.c"], [0]⟩
def P : Project where
  root := t "build"
  compiler := ⟨{ exe := t "gcc" }, [], t ".o"⟩
  libLinker := ⟨{ exe := t "gcc" }, [t "-shared"], t "lib", t ".so"⟩
  exeLinker := ⟨{ exe := t "gcc" }, [], [], []⟩
  libs := libFiles
  limit := 100
  ckwargs := { srcs := [], macros := [t "NDEBUG"] }
  dep := t "/tmp/dep"
  targets := [prog, test, app]

def header (x : FileName) : Prop := x = "x.h"

theorem compile_a : P.compileCommand (t "a.c") =
    some [t "gcc", t "-c", t "-DNDEBUG", t "-o", t "build/a.o", t "-MMD", t "-MF", t "/tmp/dep", t "a.c"] := by decide +kernel
theorem compile_b : P.compileCommand (t "lib/b.c") =
    some [t "gcc", t "-c", t "-Ilib", t "-DNDEBUG", t "-o", t "build/lib/b.o", t "-MMD", t "-MF", t "/tmp/dep", t "lib/b.c"] := by
  decide +kernel
theorem link_prog : P.linkCommand prog.dst (prog.srcs.map P.object) prog.libs =
    some [t "gcc", t "-Ibuild", t "-Ibuild/lib", t "-o", t "build/prog", t "build/a.o", t "build/lib/b.o"] := by decide +kernel
theorem link_test : P.linkCommand test.dst (test.srcs.map P.object) test.libs =
    some [t "gcc", t "-shared", t "-Ibuild/lib", t "-o", t "build/libtest.so", t "build/lib/b.o"] := by decide +kernel
theorem link_app : P.linkCommand app.dst (app.srcs.map P.object) app.libs =
    some [t "gcc", t "-Ibuild", t "-Lbuild", t "-o", t "build/app", t "build/a.o", t "-ltest"] := by decide +kernel

theorem each_target {p : Target → Prop} (h1 : p prog) (h2 : p test) (h3 : p app) : ∀ t ∈ P.targets, p t := by
  intro t ht
  simp only [P, List.mem_cons, List.not_mem_nil, or_false] at ht
  rcases ht with rfl | rfl | rfl
  · exact h1
  · exact h2
  · exact h3

theorem each_source {p : Text → Prop} (h1 : p (t "a.c")) (h2 : p (t "lib/b.c")) : ∀ t ∈ P.targets, ∀ s ∈ t.srcs, p s := by
  refine each_target (fun s hs => ?_) (fun s hs => ?_) (fun s hs => ?_)
  · simp only [prog, List.mem_cons, List.not_mem_nil, or_false] at hs
    rcases hs with rfl | rfl
    · exact h1
    · exact h2
  · simp only [test, List.mem_cons, List.not_mem_nil, or_false] at hs
    subst hs
    exact h2
  · simp only [app, List.mem_cons, List.not_mem_nil, or_false] at hs
    subst hs
    exact h1

theorem run_compile {cmd : List Text} (hc : t "-c" ∈ cmd) {seen x} (h : run cmd seen = .more x) : x = last cmd ∨ header x := by
  unfold run at h
  rw [if_pos hc] at h
  split at h
  · cases h; exact .inl rfl
  · split at h
    · cases h; exact .inr rfl
    · cases h
  · cases h
  · cases h

theorem run_link {cmd : List Text} (hc : t "-c" ∉ cmd) {seen x} (h : run cmd seen = .more x) :
    ∃ y ∈ linked cmd, x = String.ofList y := by
  unfold run at h
  rw [if_neg hc] at h
  split at h
  · rename_i y hy
    cases h
    exact ⟨y, List.mem_of_getElem? hy, rfl⟩
  · cases h

theorem ok : P.Ok run header where
  relative := each_source (by decide +kernel) (by decide +kernel)
  extension := each_source (p := fun s => ∀ t' ∈ P.targets, ∀ s' ∈ t'.srcs, (Posix.splitext s).2 = (Posix.splitext s').2)
    (each_source (by decide +kernel) (by decide +kernel)) (each_source (by decide +kernel) (by decide +kernel))
  root := by decide +kernel
  once := each_target (by decide +kernel) (by decide +kernel) (by decide +kernel)
  plain := each_source ⟨⟨by decide +kernel, by decide +kernel⟩, ⟨by decide +kernel, by decide +kernel⟩⟩
    ⟨⟨by decide +kernel, by decide +kernel⟩, ⟨by decide +kernel, by decide +kernel⟩⟩
  plainHeader := by rintro x rfl; exact ⟨by decide +kernel, by decide +kernel⟩
  null := each_target (by decide +kernel) (by decide +kernel) (by decide +kernel)
  nullHeader := by rintro x rfl; decide +kernel
  targets := each_target (p := fun x => ∀ t' ∈ P.targets, P.file x.dst = P.file t'.dst → x = t')
    (each_target (fun _ => rfl) (fun h => absurd h (by decide +kernel)) (fun h => absurd h (by decide +kernel)))
    (each_target (fun h => absurd h (by decide +kernel)) (fun _ => rfl) (fun h => absurd h (by decide +kernel)))
    (each_target (fun h => absurd h (by decide +kernel)) (fun h => absurd h (by decide +kernel)) (fun _ => rfl))
  notObject := each_target (p := fun x => ∀ t' ∈ P.targets, ∀ s ∈ t'.srcs, P.file x.dst ≠ P.object s)
    (each_source (by decide +kernel) (by decide +kernel)) (each_source (by decide +kernel) (by decide +kernel)) (each_source (by decide +kernel) (by decide +kernel))
  notSource := each_target (by decide +kernel) (by decide +kernel) (by decide +kernel)
  notLibrary := each_target (by decide +kernel) (by decide +kernel) (by decide +kernel)
  notHeader := by
    have ho := each_source (p := fun s => P.object s ≠ t "x.h") (by decide +kernel) (by decide +kernel)
    have hf := each_target (p := fun x => P.file x.dst ≠ t "x.h") (by decide +kernel) (by decide +kernel) (by decide +kernel)
    exact fun x hx => ⟨fun s hs h => ho x hx s hs (ofList_inj h), fun h => hf x hx (ofList_inj h)⟩
  compiler := by
    refine each_source (p := fun s => ∀ cmd, P.compileCommand s = some cmd → ∀ seen x, run cmd seen = .more x →
      x = String.ofList s ∨ header x) ?_ ?_
    · intro cmd hc seen x hx
      rw [compile_a] at hc
      cases hc
      exact run_compile (by decide +kernel) hx
    · intro cmd hc seen x hx
      rw [compile_b] at hc
      cases hc
      exact run_compile (by decide +kernel) hx
  linker := by
    refine each_target ?_ ?_ ?_
    · intro cmd hc seen x hx
      rw [link_prog] at hc
      cases hc
      obtain ⟨y, hy, rfl⟩ := run_link (by decide +kernel) hx
      have : y = t "build/a.o" ∨ y = t "build/lib/b.o" := by
        clear hx
        revert y
        decide +kernel
      rcases this with rfl | rfl
      · exact .inl ⟨t "a.c", by simp [prog], by decide +kernel⟩
      · exact .inl ⟨t "lib/b.c", by simp [prog], by decide +kernel⟩
    · intro cmd hc seen x hx
      rw [link_test] at hc
      cases hc
      obtain ⟨y, hy, rfl⟩ := run_link (by decide +kernel) hx
      have : y = t "build/lib/b.o" := by
        clear hx
        revert y
        decide +kernel
      subst this
      exact .inl ⟨t "lib/b.c", by simp [test], by decide +kernel⟩
    · intro cmd hc seen x hx
      rw [link_app] at hc
      cases hc
      obtain ⟨y, hy, rfl⟩ := run_link (by decide +kernel) hx
      have : y = t "build/a.o" ∨ y = t "build/libtest.so" := by
        clear hx
        revert y
        decide +kernel
      rcases this with rfl | rfl
      · exact .inl ⟨t "a.c", by simp [app], by decide +kernel⟩
      · exact .inr ⟨0, by simp [app], rfl⟩

/-- a compiler that leaves the dependency file empty -/
example : ¬ Returns (P.script run (fun _ _ => []) 5 text "compile" "" ⟨.compile (t "a.c"), by decide +kernel⟩) :=
  C132_unreadable _ run 5 text "" ⟨.compile (t "a.c"), _⟩ (t "a.c") rfl (fun _ => by decide +kernel)

/-- the hypotheses of `C132_commands` are met -/
example := C132_commands P (by decide +kernel) rfl

def text : Digest := "compile-1"
def T : Tools P.Arg := P.tools run 5 text
abbrev M := Mach P.Arg (List FileName)
def script : Script P.Arg (List FileName) := P.script run depText 5 text

def env0 : Env where
  fs x := if x = "a.c" then some ⟨1, some "#include"⟩ else if x = "lib/b.c" then some ⟨1, some "B"⟩
    else if x = "x.h" then some ⟨2, some "H"⟩ else none
  now := 5
  funDigest f := if f = "compile" then some text else if f = "link_exe" then some "link-1" else if f = "link_lib" then some "link-2" else if f = "build_objects" then some "objs-1" else none
  md5 := id
  recursionLimit := 10

def vers : FileName → Nat → Option Content := fun x t =>
  if x = "a.c" then some "#include"
  else if x = "lib/b.c" then some "B"
  else if x = "x.h" then (if t = 2 then some "H" else some "H2")
  else if x = "build/a.o" then (if t < 50 then some "o #includeH" else some "o #includeH2")
  else if x = "build/lib/b.o" then some "o B"
  else if x = "build/libtest.so" then some "o B,"
  else if x = "build/prog" then (if t < 50 then some "o #includeH,o B," else some "o #includeH2,o B,")
  else if t < 50 then some "o #includeH,o B,," else some "o #includeH2,o B,,"

def editsOkB (tr : Trace P.Arg (List FileName)) : Bool := tr.all fun q =>
  match q.2 with
  | .edit x (some st) => vers x st.mtime == st.content
  | _ => true

theorem editsOkB_sound {tr : Trace P.Arg (List FileName)} (h : editsOkB tr = true) : EditsOk vers tr := by
  intro s x st hx
  have := (List.all_eq_true.1 h) _ hx
  simpa using this

theorem source_none {x : FileName} (hx : '\x00' ∉ x.toList) (h1 : x ≠ "build/a.o") (h2 : x ≠ "build/lib/b.o") (h3 : x ≠ "build/prog")
    (h4 : x ≠ "build/libtest.so") (h5 : x ≠ "build/app") : (T.layout header).owner x = none := by
  simp only [Tools.layout]
  rw [dif_neg]
  rintro ⟨⟨f, b⟩, hf, he⟩
  simp only [T] at hf he
  rcases out_cases (run := run) (most := 5) (text := text) f hf b with ⟨s, rfl, hb, ho⟩ | ⟨d, o, l, rfl, hb, ho⟩ | ⟨⟨k, _, _, ho⟩, _⟩
  · rw [ho] at he
    obtain ⟨t', ht, hs⟩ := compile_mem (hb ▸ b.2)
    have := each_source (p := fun s => P.object s = t "build/a.o" ∨ P.object s = t "build/lib/b.o") (by decide +kernel) (by decide +kernel)
      t' ht s hs
    rcases this with h | h <;> rw [h] at he
    · exact h1 he.symm
    · exact h2 he.symm
  · rw [ho] at he
    obtain ⟨t', ht, rfl, rfl, rfl⟩ := link_mem (hb ▸ b.2)
    have := each_target (p := fun x => P.file x.dst = t "build/prog" ∨ P.file x.dst = t "build/libtest.so" ∨
      P.file x.dst = t "build/app") (by decide +kernel) (by decide +kernel) (by decide +kernel) t' ht
    rcases this with h | h | h <;> rw [h] at he
    · exact h3 he.symm
    · exact h4 he.symm
    · exact h5 he.symm
  · rw [ho] at he
    exact hx (by rw [← he]; simp)

def m0 : M := ⟨Sys.init env0, [], [], 0⟩

theorem life0 : Life T.sig script (T.layout header) vers m0 := by
  refine .start env0 ?_ ?_ (by show 2 ≤ 10; decide) (fun _ _ h => h) ?_
  · intro x f hx
    simp only [env0] at hx
    split at hx
    · cases hx; rename_i h; subst h; rfl
    · split at hx
      · cases hx; rename_i h; subst h; rfl
      · split at hx
        · cases hx; rename_i h; subst h; rfl
        · cases hx
  · intro f d h
    simp only [Tools.layout] at h
    split at h
    · cases h
    · simp only [T, Project.tools] at h
      split at h
      · cases h; rename_i h; subst h; rfl
      · cases h
  · intro x k hx
    left
    simp only [env0]
    split
    · rename_i h; subst h; rw [source_none (by decide) (by decide) (by decide) (by decide) (by decide) (by decide)] at hx; cases hx
    · split
      · rename_i h; subst h; rw [source_none (by decide) (by decide) (by decide) (by decide) (by decide) (by decide)] at hx; cases hx
      · split
        · rename_i h; subst h; rw [source_none (by decide) (by decide) (by decide) (by decide) (by decide) (by decide)] at hx; cases hx
        · rfl

/-- two files are compiled at the same time, one of them by the thread that waits -/
def order : List Nat := [0, 1, 1, 0, 0, 1, 0, 1, 1, 0, 0, 1, 0, 1, 0, 1]
def mine : Nat → Bool := fun i => i == 1

/-- a build, an edit of the header, another build -/
def q1 : Option (List FileName) × M := P.buildTarget run depText 5 text (fun n => 10 + n) 5 mine order prog m0
def m2 : M := (q1.2.event T.sig (.edit "x.h" (some ⟨50, some "H2"⟩))).2
def q3 : Option (List FileName) × M := P.buildTarget run depText 5 text (fun n => 100 + n) 5 mine order prog m2

set_option maxRecDepth 20000 in
theorem life2 : Life T.sig script (T.layout header) vers m2 := by
  have h1 := (C132_partial ok writes life0 (t := prog) (by simp [P]) (fun n => 10 + n) (limit := 5) (by decide) mine order (q := q1) rfl
    (editsOkB_sound (by decide +kernel)) (by decide +kernel)).2.2
  exact .user h1 (.edit "x.h" (some ⟨50, some "H2"⟩))
    ⟨.inl (source_none (by decide) (by decide) (by decide) (by decide) (by decide) (by decide)), by simp, by intro f hf; cases hf; rfl⟩

set_option maxRecDepth 20000 in
/-- the hypotheses of `C132_partial` are met: the header is not declared anywhere, and yet the object and the executable are made
again, the other object is not -/
example : (∀ s ∈ prog.srcs, Made run 5 q3.2.files (P.compileCommand s) (P.object s)) ∧
    Made run 5 q3.2.files (P.linkCommand prog.dst (prog.srcs.map P.object) []) (P.file prog.dst) ∧
    q1.2.files "build/prog" = some "o #includeH,o B," ∧ q3.2.files "build/prog" = some "o #includeH2,o B," ∧
    q3.2.sys.env.fs "build/lib/b.o" = q1.2.sys.env.fs "build/lib/b.o" := by
  have h := C132_partial ok writes life2 (t := prog) (by simp [P]) (fun n => 100 + n) (limit := 5) (by decide) mine order (q := q3) rfl
    (editsOkB_sound (by decide +kernel)) (by decide +kernel)
  exact ⟨h.1, h.2.1, by decide +kernel, by decide +kernel, by decide +kernel⟩

set_option maxRecDepth 20000 in
/-- the hypotheses of `C132_scratch_partial` are met -/
example : P.fromScratch run 5 prog m2.files = some q3.2.files :=
  C132_scratch_partial ok writes life2 (by simp [P]) (fun n => 100 + n) (limit := 5) (by decide) mine order rfl
    (editsOkB_sound (by decide +kernel)) (by decide +kernel)

def long : List Nat := order ++ order

set_option maxRecDepth 20000 in
/-- the hypotheses of `C132_succeeds_partial` and `C132_after_partial` are met -/
example : (P.buildTarget run depText 5 text (fun n => 100 + n) 5 mine long prog m2).1.isSome ∧
    Life T.sig script (T.layout header) vers (P.buildTarget run depText 5 text (fun n => 100 + n) 5 mine long prog m2).2 := by
  have hf : ∀ i, i < prog.srcs.length → 5 + 4 ≤ long.count i := by decide
  refine ⟨C132_succeeds_partial ok writes life2 (by simp [P]) (fun n => 100 + n) (limit := 5) (by decide) mine long hf rfl
    (editsOkB_sound (by decide +kernel)) ?_ ?_ (fun l hl => nomatch hl) (by decide +kernel),
    C132_after_partial ok writes life2 (by simp [P]) (fun n => 100 + n) (limit := 5) (by decide) mine long hf rfl
    (editsOkB_sound (by decide +kernel))⟩
  · rintro f (rfl | rfl | rfl) <;> decide +kernel
  · intro s hs
    simp only [prog, List.mem_cons, List.not_mem_nil, or_false] at hs
    rcases hs with rfl | rfl <;> decide +kernel

/-! ### Several targets -/

def all : List (Target × Threads) := [(prog, ⟨fun n => 10 + n, mine, order⟩), (test, ⟨fun n => 10 + n, mine, order⟩),
  (app, ⟨fun n => 10 + n, mine, order⟩)]
def again : List (Target × Threads) := [(test, ⟨fun n => 100 + n, mine, order⟩), (app, ⟨fun n => 100 + n, mine, order⟩),
  (prog, ⟨fun n => 100 + n, mine, order⟩)]
/-- all targets are built, the header is edited, all targets are built in another order -/
def r1 : Bool × M := P.buildAll run depText 5 text 5 all m0
def r2 : M := (r1.2.event T.sig (.edit "x.h" (some ⟨50, some "H2"⟩))).2
def r3 : Bool × M := P.buildAll run depText 5 text 5 again r2

instance (a b : Target) : Decidable (P.Before a b) := by unfold Project.Before; infer_instance

set_option maxRecDepth 20000 in
/-- the hypotheses of `C132_all_partial` are met, twice: the executables are linked again, the library is not -/
example : P.UpToDate run 5 r3.2.files prog ∧ P.UpToDate run 5 r3.2.files test ∧ P.UpToDate run 5 r3.2.files app ∧
    r1.2.files "build/app" = some "o #includeH,o B,," ∧ r3.2.files "build/app" = some "o #includeH2,o B,," ∧
    r3.2.sys.env.fs "build/libtest.so" = r1.2.sys.env.fs "build/libtest.so" := by
  have h1 := C132_all_partial ok writes life0 (limit := 5) (by decide) all (m' := r1.2)
    (by intro q hq; simp only [all, List.mem_cons, List.not_mem_nil, or_false] at hq; rcases hq with rfl | rfl | rfl <;> simp [P])
    (by simp only [all, List.pairwise_cons, List.mem_cons, List.not_mem_nil, or_false, forall_eq_or_imp, forall_eq, false_imp_iff, implies_true, List.Pairwise.nil, and_true]; decide +kernel)
    (by rw [show (true, r1.2) = r1 from Prod.ext (by decide +kernel) rfl]; rfl) (editsOkB_sound (by decide +kernel))
  have h2 : Life T.sig script (T.layout header) vers r2 := .user h1.2.2 (.edit "x.h" (some ⟨50, some "H2"⟩))
    ⟨.inl (source_none (by decide) (by decide) (by decide) (by decide) (by decide) (by decide)), by simp, by intro f hf; cases hf; rfl⟩
  have h3 := C132_all_partial ok writes h2 (limit := 5) (by decide) again (m' := r3.2)
    (by intro q hq; simp only [again, List.mem_cons, List.not_mem_nil, or_false] at hq; rcases hq with rfl | rfl | rfl <;> simp [P])
    (by simp only [again, List.pairwise_cons, List.mem_cons, List.not_mem_nil, or_false, forall_eq_or_imp, forall_eq, false_imp_iff, implies_true, List.Pairwise.nil, and_true]; decide +kernel)
    (by rw [show (true, r3.2) = r3 from Prod.ext (by decide +kernel) rfl]; rfl) (editsOkB_sound (by decide +kernel))
  exact ⟨h3.1 (prog, _) (by simp only [again]; exact .tail _ (.tail _ (.head _))), h3.1 (test, _) (.head _),
    h3.1 (app, _) (by simp only [again]; exact .tail _ (.head _)), by decide +kernel, by decide +kernel, by decide +kernel⟩

/-! ## Outside these conditions -/

/-- the source of the library is edited, then the executable that is linked with it is built, and the library after that -/
def s2 : M := (r1.2.event T.sig (.edit "lib/b.c" (some ⟨50, some "B2"⟩))).2
def s3 : Bool × M := P.buildAll run depText 5 text 5 [(app, ⟨fun n => 100 + n, mine, order⟩), (test, ⟨fun n => 100 + n, mine, order⟩)] s2

set_option maxRecDepth 20000 in
/-- **C132** fails for several targets if the library is built after the executable that needs it: nothing fails, but the executable
is linked with the old library. -/
theorem C132_order_violated : s3.1 = true ∧ s3.2.files "build/libtest.so" = some "o B2," ∧
    s3.2.files "build/app" = some "o #includeH,o B,," ∧ ¬ P.UpToDate run 5 s3.2.files app := by
  refine ⟨by decide +kernel, by decide +kernel, by decide +kernel, ?_⟩
  rintro ⟨_, words, read, out, h1, h2, h3⟩
  have h4 : (P.linkCommand app.dst (app.srcs.map P.object) app.libs).bind (fun w => (toolRun (run w) s3.2.files 5 []).map (·.2)) =
      some "o #includeH,o B2,," := by decide +kernel
  have h5 : s3.2.files (String.ofList (P.file app.dst)) = some "o #includeH,o B,," := by decide +kernel
  rw [h1] at h4
  simp only [Option.bind_some, h2, Option.map_some, Option.some.injEq] at h4
  rw [h5, h4] at h3
  exact absurd h3 (by decide)

/-- `x.c` and `x.m` have the same object file -/
def two : Target := ⟨⟨false, t "two"⟩, [t "x.c", t "x.m"], []⟩
def P2 : Project := { P with targets := [two] }
def q2 : Option (List FileName) × Mach P2.Arg (List FileName) :=
  P2.buildTarget run depText 5 text (fun n => 10 + n) 5 (fun _ => false) [0, 0, 0, 0, 0, 0, 0, 0, 1, 1, 1, 1, 1, 1, 1, 1] two
    ⟨Sys.init { env0 with fs := fun x => if x = "x.c" then some ⟨1, some "C"⟩ else if x = "x.m" then some ⟨1, some "M"⟩ else none },
      [], [], 0⟩

set_option maxRecDepth 20000 in
/-- **C132** fails for two sources that differ in their extension only: the build succeeds, but the object is that of the second
source, and the executable contains it twice. -/
theorem C132_extension_violated : q2.1.isSome ∧ q2.2.files "build/two" = some "o M,o M," ∧
    ¬ Made run 5 q2.2.files (P2.compileCommand (t "x.c")) (P2.object (t "x.c")) := by
  refine ⟨by decide +kernel, by decide +kernel, ?_⟩
  rintro ⟨words, read, out, h1, h2, h3⟩
  have h4 : (P2.compileCommand (t "x.c")).bind (fun w => (toolRun (run w) q2.2.files 5 []).map (·.2)) = some "o C" := by decide +kernel
  have h5 : q2.2.files (String.ofList (P2.object (t "x.c"))) = some "o M" := by decide +kernel
  rw [h1] at h4
  simp only [Option.bind_some, h2, Option.map_some, Option.some.injEq] at h4
  rw [h5, h4] at h3
  exact absurd h3 (by decide)

/-- a library that itself needs `build/libsub.a`, `Library(..., libs=[...])` -/
def needs : LibFiles where
  deps l := if l = 0 then [1] else []
  isLib _ := true
  path l := if l = 0 then t "build/libtest.so" else t "build/libsub.a"
  libpaths _ := []
  external _ := []
/-- a linker that links the libraries, too -/
def runSub : Programs := fun cmd seen =>
  if t "-c" ∈ cmd then run cmd seen
  else
    match (linked cmd ++ if t "-lsub" ∈ cmd then [t "build/libsub.a"] else [])[seen.length]? with
    | some x => .more (String.ofList x)
    | none => .done (String.join (seen.map fun q => q.2 ++ ","))
def P3 : Project := { P with targets := [app], libs := needs }
def u0 : Mach P3.Arg (List FileName) :=
  ⟨Sys.init { env0 with fs := fun x => if x = "a.c" then some ⟨1, some "A"⟩ else if x = "build/libtest.so" then some ⟨1, some "T"⟩
    else if x = "build/libsub.a" then some ⟨1, some "S"⟩ else none }, [], [], 0⟩
def u1 : Option (List FileName) × Mach P3.Arg (List FileName) :=
  P3.buildTarget runSub depText 5 text (fun n => 10 + n) 5 mine (List.replicate 20 0) app u0
def u2 : Mach P3.Arg (List FileName) := (u1.2.event (P3.tools runSub 5 text).sig (.edit "build/libsub.a" (some ⟨50, some "S2"⟩))).2
def u3 : Option (List FileName) × Mach P3.Arg (List FileName) :=
  P3.buildTarget runSub depText 5 text (fun n => 100 + n) 5 mine (List.replicate 20 0) app u2

set_option maxRecDepth 20000 in
/-- **C132** fails if a library needs another library that the target does not name itself: the other library is linked, but when it
changes the executable is not linked again. -/
theorem C132_needs_violated : u1.2.files "build/app" = some "o A,T,S," ∧ u3.1.isSome ∧ u3.2.files "build/libsub.a" = some "S2" ∧
    u3.2.files "build/app" = some "o A,T,S," ∧ ¬ P3.UpToDate runSub 5 u3.2.files app := by
  refine ⟨by decide +kernel, by decide +kernel, by decide +kernel, by decide +kernel, ?_⟩
  rintro ⟨_, words, read, out, h1, h2, h3⟩
  have h4 : (P3.linkCommand app.dst (app.srcs.map P3.object) app.libs).bind (fun w => (toolRun (runSub w) u3.2.files 5 []).map (·.2)) =
      some "o A,T,S2," := by decide +kernel
  have h5 : u3.2.files (String.ofList (P3.file app.dst)) = some "o A,T,S," := by decide +kernel
  rw [h1] at h4
  simp only [Option.bind_some, h2, Option.map_some, Option.some.injEq] at h4
  rw [h5, h4] at h3
  exact absurd h3 (by decide)

/-- a compiler that reads `my x.h` -/
def runBlank : Programs := fun cmd seen =>
  if t "-c" ∈ cmd then
    match seen with
    | [] => .more (last cmd)
    | [_] => .more "my x.h"
    | _ => .done "o"
  else .done "exe"
def one : Target := ⟨⟨false, t "one"⟩, [t "a.c"], []⟩
def P1 : Project := { P with targets := [one] }
def blank : Mach P1.Arg (List FileName) :=
  ⟨Sys.init { env0 with fs := fun x => if x = "a.c" then some ⟨1, some "A"⟩ else if x = "my x.h" then some ⟨1, some "H"⟩ else none },
    [], [], 0⟩

set_option maxRecDepth 20000 in
/-- **C132** fails for a header whose name has a blank: all commands succeed, but the build does not. -/
theorem C132_blank_violated :
    (P1.fromScratch runBlank 5 one blank.files).isSome ∧
    (P1.buildTarget runBlank depText 5 text (fun n => 10 + n) 5 (fun _ => false) (List.replicate 20 0) one blank).1 = none := by
  decide +kernel

end Ex
end Verif.Gcc.Project
