import Verif.Java.Compile
import Verif.Props.Java
import Verif.Props.Path
/-!
# Compiling and running with Java and Scala (C138, C139)
-/
namespace Verif.Java
open Verif.Posix (isabs join split tail tail_name tail_slash splitext)
open Verif.Path (addroot replaceext splitext_dot snoc_of_last inner_rel prefix_join)

/-! ## Scripts (C138) -/

def sScala : Text := ['.', 's', 'c', 'a', 'l', 'a']
def sJar : Text := ['.', 'j', 'a', 'r']
def sSave : Text := ['-', 's', 'a', 'v', 'e', 'c', 'o', 'm', 'p', 'i', 'l', 'e', 'd']

/-- How scala runs a script: with `-savecompiled` among its options it compiles it with `jar` and saves the result beside it, and it
changes no other file.  Without the file it fails. -/
def Saves (jar : Text → Text) (execute : List Text → Files → Option Files) : Prop :=
  ∀ (opts : List Text) (stem : Text) (fs fs' : Files), execute (opts ++ [stem ++ sScala]) fs = some fs' → sSave ∈ opts →
    ∃ code, fs (stem ++ sScala) = some code ∧ fs' (stem ++ sJar) = some (jar code) ∧ ∀ p, p ≠ stem ++ sJar → fs' p = fs p

/-- a directory as it is written in front of a name -/
def IsDir (d : Text) : Prop := d = [] ∨ d.getLast? = some '/'

/-- a file name without an extension -/
def IsName (n : Text) : Prop := '/' ∉ n ∧ ∃ c ∈ n, c ≠ '.'

theorem tail_file_name {d n : Text} (hd : IsDir d) (hn : '/' ∉ n) : tail (d ++ n) = n := by
  rcases hd with rfl | hd
  · exact tail_name hn
  · obtain ⟨d', rfl⟩ := snoc_of_last hd
    rw [List.append_assoc, List.singleton_append]
    exact tail_slash _ _ hn

/-- where the copy of a script lies: its path has the same ending -/
theorem addroot_scala {d n root : Text} (hd : IsDir d) (hn : IsName n) (h : ¬ root <+: d ++ n ++ sScala) :
    ∃ stem, addroot (d ++ n ++ sScala) root = stem ++ sScala ∧ root <+: stem := by
  have hname : '/' ∉ n ++ sScala := by
    rw [List.mem_append, not_or]
    exact ⟨hn.1, by decide⟩
  have key : ∃ x, (if isabs (d ++ n ++ sScala) then (split (d ++ n ++ sScala)).2 else d ++ n ++ sScala) = x ++ sScala := by
    split
    · refine ⟨n, ?_⟩
      show tail (d ++ n ++ sScala) = n ++ sScala
      rw [List.append_assoc]
      exact tail_file_name hd hname
    · exact ⟨_, rfl⟩
  have hrel := inner_rel (d ++ n ++ sScala)
  obtain ⟨x, hx⟩ := key
  unfold addroot
  rw [if_neg (fun hp => h (List.isPrefixOf_iff_prefix.1 hp))]
  rw [hx] at hrel ⊢
  unfold join
  rw [hrel]
  simp only [Bool.false_eq_true, if_false]
  split
  · exact ⟨root ++ x, by simp, List.prefix_append _ _⟩
  · exact ⟨root ++ '/' :: x, by simp, List.prefix_append _ _⟩

theorem replaceext_jar {d n : Text} (hd : IsDir d) (hn : IsName n) : replaceext (d ++ n ++ sScala) dotJar = d ++ n ++ sJar := by
  unfold replaceext
  have := splitext_dot d n ['s', 'c', 'a', 'l', 'a'] hd hn.1 (by decide) (by decide) hn.2
  rw [List.append_assoc]
  show (splitext (d ++ (n ++ '.' :: ['s', 'c', 'a', 'l', 'a']))).1 ++ dotJar = _
  rw [this]
  rfl

/-- the command for the script: the script comes last, behind `-savecompiled` -/
theorem script_cmd (c : Compiler) (a : Args) (file : Text) :
    ∃ opts, runScala c { a with flags := a.flags ++ [saveCompiled] } none [file] = some (opts ++ [file]) ∧ sSave ∈ opts := by
  unfold runScala runJava
  rw [if_pos (by simp)]
  unfold javac
  refine ⟨_, rfl, ?_⟩
  have h : sSave ∈ (if wanted a.optimize c.optimize then (a.flags ++ [saveCompiled]) ++ c.optimizeFlags else a.flags ++ [saveCompiled]) := by
    have : sSave ∈ a.flags ++ [saveCompiled] := by simp [sSave, saveCompiled]
    split
    · exact List.mem_append_left _ this
    · exact this
  exact List.mem_append_right _ h

/-- the pieces of a run -/
theorem script_run {root : Text} {buildroot : Option Text} {c : Compiler} {a : Args} {src : Text}
    {execute : List Text → Files → Option Files} {fs fs' : Files} {dst : Text}
    (h : script root buildroot c a src execute fs = some (dst, fs')) :
    dst = replaceext src dotJar ∧ ∃ file fs1 opts, stage (orElse buildroot root) src fs = some (file, fs1) ∧
      sSave ∈ opts ∧ execute (opts ++ [file]) fs1 = some fs' := by
  unfold script at h
  generalize hs : stage (orElse buildroot root) src fs = s at h
  match s, h with
  | none, h => cases h
  | some (file, fs1), h =>
    obtain ⟨opts, hc, hm⟩ := script_cmd c a file
    simp only [hc] at h
    generalize he : execute (opts ++ [file]) fs1 = e at h
    cases e with
    | none => cases h
    | some x =>
      simp only [Option.map_some, Option.some.injEq, Prod.mk.injEq] at h
      exact ⟨h.1.symm, file, fs1, opts, rfl, hm, he.trans (congrArg some h.2)⟩

/-- the buildroot of a call: that given, unless it is empty, or that of the context -/
def rootOf : Option Text → Text → Text
  | some (c :: r), _ => c :: r
  | _, root => root

theorem orElse_rootOf (b : Option Text) (root : Text) : orElse b root = rootOf b root := by
  unfold orElse rootOf
  split <;> simp_all

/-- **C138**: running a script leaves every file outside of the buildroot as it was, and what scala saves, below the buildroot, was
compiled from what is in the script now.  Partial: the path that is returned is where it was saved only for scripts in the buildroot. -/
theorem C138_partial (jar : Text → Text) (execute : List Text → Files → Option Files) (hexec : Saves jar execute)
    (root : Text) (buildroot : Option Text) (c : Compiler) (a : Args) (d n : Text) (hd : IsDir d) (hn : IsName n) (fs fs' : Files) (dst : Text)
    (hroot : ¬ rootOf buildroot root <+: d ++ n ++ sScala ∨ rootOf buildroot root <+: d)
    (h : script root buildroot c a (d ++ n ++ sScala) execute fs = some (dst, fs')) :
    (∀ p, ¬ rootOf buildroot root <+: p → fs' p = fs p) ∧
    (∃ stem code, fs (d ++ n ++ sScala) = some code ∧ rootOf buildroot root <+: stem ∧ fs' (stem ++ sJar) = some (jar code)) ∧
    (rootOf buildroot root <+: d → ∃ code, fs (d ++ n ++ sScala) = some code ∧ fs' dst = some (jar code) ∧ ∀ p, p ≠ dst → fs' p = fs p) := by
  obtain ⟨rfl, file, fs1, opts, hs, hm, he⟩ := script_run h
  rw [orElse_rootOf] at hs
  generalize rootOf buildroot root = r at *
  rw [replaceext_jar hd hn]
  unfold stage at hs
  by_cases hp : r <+: d ++ n ++ sScala
  · have hrd : r <+: d := hroot.resolve_left (fun x => x hp)
    have : addroot (d ++ n ++ sScala) r = d ++ n ++ sScala := by
      unfold addroot
      rw [if_pos (List.isPrefixOf_iff_prefix.2 hp)]
    rw [this, if_neg (fun x => x rfl)] at hs
    cases hs
    obtain ⟨code, h1, h2, h3⟩ := hexec opts (d ++ n) _ _ he hm
    refine ⟨fun p hpp => h3 p ?_, ⟨d ++ n, code, h1, ?_, h2⟩, fun _ => ⟨code, h1, h2, h3⟩⟩
    · rintro rfl
      exact hpp (hrd.trans (by rw [List.append_assoc]; exact List.prefix_append _ _))
    · exact hrd.trans (List.prefix_append _ _)
  · obtain ⟨stem, hst, hrs⟩ := addroot_scala hd hn hp
    have hne : d ++ n ++ sScala ≠ addroot (d ++ n ++ sScala) r := by
      rw [hst]
      intro hc
      exact hp (hc ▸ hrs.trans (List.prefix_append _ _))
    rw [if_pos hne, hst] at hs
    generalize hcode : fs (d ++ n ++ sScala) = code at hs
    cases code with
    | none => cases hs
    | some code =>
      cases hs
      obtain ⟨code', h1, h2, h3⟩ := hexec opts stem _ _ he hm
      rw [Files.set, if_pos rfl] at h1
      cases h1
      refine ⟨fun p hpp => ?_, ⟨stem, code, rfl, hrs, h2⟩, fun hrd => absurd (hrd.trans (by rw [List.append_assoc]; exact List.prefix_append _ _)) hp⟩
      rw [h3 p, Files.set, if_neg]
      · rintro rfl
        exact hpp (hrs.trans (List.prefix_append _ _))
      · rintro rfl
        exact hpp (hrs.trans (List.prefix_append _ _))

/-- **C138** is false for every script outside of the buildroot (with a name without a dot): at the path that is returned there is what
was there before, which is not what scala has saved. -/
theorem C138_violated (jar : Text → Text) (execute : List Text → Files → Option Files) (hexec : Saves jar execute)
    (root : Text) (buildroot : Option Text) (c : Compiler) (a : Args) (d n : Text) (hd : IsDir d) (hn : IsName n) (fs fs' : Files) (dst : Text)
    (hroot : ¬ rootOf buildroot root <+: d ++ n ++ sScala) (hdot : '.' ∉ rootOf buildroot root)
    (h : script root buildroot c a (d ++ n ++ sScala) execute fs = some (dst, fs')) :
    dst = d ++ n ++ sJar ∧ fs' dst = fs dst ∧ ∃ stem code, fs (d ++ n ++ sScala) = some code ∧ stem ++ sJar ≠ dst ∧ fs' (stem ++ sJar) = some (jar code) := by
  have h2 := (C138_partial jar execute hexec root buildroot c a d n hd hn fs fs' dst (.inl hroot) h).2.1
  have h1 := (C138_partial jar execute hexec root buildroot c a d n hd hn fs fs' dst (.inl hroot) h).1
  obtain ⟨rfl, _⟩ := script_run h
  rw [replaceext_jar hd hn]
  have hout : ¬ rootOf buildroot root <+: d ++ n ++ sJar := fun hp =>
    hroot ((prefix_of_stop hdot hp).trans (List.prefix_append _ _))
  obtain ⟨stem, code, hc, hr, hj⟩ := h2
  exact ⟨rfl, h1 _ hout, stem, code, hc, fun he => hout (he ▸ hr.trans (List.prefix_append _ _)), hj⟩

/-! ### A run -/

/-- a scala for the example: the compiled form is the code reversed -/
def someScala (cmd : List Text) (fs : Files) : Option Files :=
  match cmd.getLast? with
  | none => none
  | some file =>
    match fs file with
    | none => none
    | some code =>
      if sScala.isSuffixOf file then some (fs.set (file.take (file.length - 6) ++ sJar) code.reverse) else none

theorem someScala_saves : Saves List.reverse someScala := by
  intro opts stem fs fs' h _
  unfold someScala at h
  simp only [List.getLast?_append, List.getLast?_singleton, Option.some_or] at h
  generalize hc : fs (stem ++ sScala) = code at h
  cases code with
  | none => cases h
  | some code =>
    simp only at h
    have : sScala.isSuffixOf (stem ++ sScala) = true := List.isSuffixOf_iff_suffix.2 (List.suffix_append _ _)
    rw [if_pos this] at h
    have ht : (stem ++ sScala).take ((stem ++ sScala).length - 6) = stem := by
      rw [List.length_append, show sScala.length = 6 from rfl, Nat.add_sub_cancel, List.take_left]
    rw [ht] at h
    cases h
    refine ⟨code, rfl, by simp [Files.set], fun p hp => by simp [Files.set, hp]⟩

/-- `C138_partial` and `C138_violated`: a script in a directory of the sources. -/
example : ∃ dst fs', script "build".toList none { exe := "scala".toList, optimizeFlags := ["-optimise".toList] } {} ("src/".toList ++ "run".toList ++ sScala)
      someScala (fun p => if p = "src/run.scala".toList then some "code".toList else none) = some (dst, fs') ∧
    dst = "src/run.jar".toList ∧ fs' dst = none ∧ fs' "build/src/run.jar".toList = some "edoc".toList ∧
    fs' "build/src/run.scala".toList = some "code".toList := by
  refine ⟨_, _, rfl, ?_, ?_, ?_, ?_⟩ <;> decide +kernel

/-! ## Compiling (C139) -/

def sVerbose : Text := ['-', 'v', 'e', 'r', 'b', 'o', 's', 'e']
def sTarget : Text := ['-', 't', 'a', 'r', 'g', 'e', 't', ':']

/-- what the compiler reads from its command line: the arguments of `-d`, `-cp` and `-sourcepath`, and the other words -/
structure Read where
  dirs : List Text
  classpaths : List Text
  sourcepaths : List Text
  words : List Text
  deriving DecidableEq

def Read.empty : Read := ⟨[], [], [], []⟩

def read : List Text → Read
  | [] => .empty
  | [x] => { Read.empty with words := [x] }
  | x :: y :: rest =>
    if x = sD then { read rest with dirs := y :: (read rest).dirs }
    else if x = sCp then { read rest with classpaths := y :: (read rest).classpaths }
    else if x = sSource then { read rest with sourcepaths := y :: (read rest).sourcepaths }
    else { read (y :: rest) with words := x :: (read (y :: rest)).words }

theorem read_word {x : Text} {l : List Text} (h : NoOpt x) : read (x :: l) = { read l with words := x :: (read l).words } := by
  cases l with
  | nil => rfl
  | cons y l => rw [read, if_neg h.2.1, if_neg h.1, if_neg h.2.2]

theorem read_words {a l : List Text} (h : ∀ x ∈ a, NoOpt x) : read (a ++ l) = { read l with words := a ++ (read l).words } := by
  induction a with
  | nil => rfl
  | cons x a ih => rw [List.cons_append, read_word (h x (.head _)), ih (fun y hy => h y (.tail _ hy))]; rfl

theorem read_cps {ps l : List Text} :
    read (ps.flatMap (fun p => [cp, p]) ++ l) = { read l with classpaths := ps ++ (read l).classpaths } := by
  induction ps with
  | nil => rfl
  | cons p ps ih =>
    rw [List.flatMap_cons, List.append_assoc]
    show read (sCp :: p :: (ps.flatMap (fun p => [cp, p]) ++ l)) = _
    rw [read, if_neg (by decide), if_pos rfl, ih]
    rfl

theorem read_sources {ps l : List Text} :
    read (ps.flatMap (fun p => [optSource, p]) ++ l) = { read l with sourcepaths := ps ++ (read l).sourcepaths } := by
  induction ps with
  | nil => rfl
  | cons p ps ih =>
    rw [List.flatMap_cons, List.append_assoc]
    show read (sSource :: p :: (ps.flatMap (fun p => [optSource, p]) ++ l)) = _
    rw [read, if_neg (by decide), if_neg (by decide), if_pos rfl, ih]
    rfl

/-- the words for the target: that of the call, or that of the compiler -/
def targetWords : Option Text → Option Text → List Text
  | some t, _ => [sTarget ++ t]
  | none, some t => [sTarget ++ t]
  | none, none => []

/-- a setting of the call, or that of the compiler -/
def flag : Option Bool → Bool → Bool
  | some b, _ => b
  | none, own => own

theorem wanted_flag (x : Option Bool) (own : Bool) : wanted x own = flag x own := by
  cases x with
  | none => cases own <;> rfl
  | some b => cases b <;> rfl

/-- what `javac` reads -/
theorem read_run (c : Compiler) (a : Args) (dst : Text) (srcs : List Text) (h0 : srcs ≠ [])
    (h : ∀ x ∈ c.exe :: (c.debugFlags ++ c.flags ++ a.flags ++ srcs), NoOpt x) :
    ∃ cmd, runJava c a (some dst) srcs = some cmd ∧ read cmd =
      { dirs := [dst], classpaths := c.classpaths ++ a.classpaths, sourcepaths := c.sourcepaths ++ a.sourcepaths,
        words := c.exe :: ((if flag a.debug c.debug then c.debugFlags else []) ++ targetWords a.target c.target ++ c.flags ++ a.flags ++ srcs) } := by
  have hf : ∀ x ∈ c.debugFlags ++ c.flags ++ a.flags ++ srcs, NoOpt x := fun x hx => h x (.tail _ hx)
  simp only [List.mem_append] at hf
  unfold runJava
  rw [if_pos (List.length_pos_iff.2 h0)]
  refine ⟨_, rfl, ?_⟩
  unfold javac
  rw [wanted_flag]
  have hdbg : ∀ x ∈ (if flag a.debug c.debug then c.debugFlags else []), NoOpt x := by
    intro x hx
    split at hx
    · exact hf x (.inl (.inl (.inl hx)))
    · cases hx
  have htgt : targetArgs (if a.target = none then c.target else a.target) = targetWords a.target c.target := by
    cases a.target with
    | none => cases c.target <;> rfl
    | some t => rfl
  have htn : ∀ x ∈ targetWords a.target c.target, NoOpt x := by
    intro x hx
    have hh : ∀ t : Text, NoOpt (sTarget ++ t) := noOpt_target
    unfold targetWords at hx
    split at hx <;> simp only [List.mem_singleton, List.not_mem_nil] at hx <;> subst hx <;> exact hh _
  rw [htgt]
  have hlast : read srcs = { Read.empty with words := srcs } := by
    have := read_words (l := []) (fun x hx => hf x (.inr hx))
    rw [List.append_nil] at this
    rw [this]
    simp [read, Read.empty]
  simp only [List.append_assoc]
  rw [List.singleton_append, read_word (h c.exe (.head _))]
  show Read.mk _ _ _ _ = _
  have hd : ∀ l, read (dstArgs (some dst) ++ l) = { read l with dirs := dst :: (read l).dirs } := by
    intro l
    show read (sD :: dst :: l) = _
    rw [read, if_pos rfl]
  rw [hd, read_words hdbg, read_words htn, read_cps, read_sources, read_words (fun x hx => hf x (.inl (.inl (.inr hx)))),
    read_words (fun x hx => hf x (.inl (.inr hx))), hlast]
  simp [Read.empty]

/-- The directory for the classes without a `buildroot` in the call: that given or that of the source, in the buildroot. -/
def classesOf (root : Text) (dst : Option Text) (src : Text) : Text :=
  match dst with
  | some (c :: r) => addroot (c :: r) root
  | _ => addroot (split src).1 root

theorem classDir_same {root src : Text} {dst buildroot : Option Text} (hb : rootOf buildroot root = root) :
    classDir root none (addroot (orElse dst (split src).1) (orElse buildroot root)) = classesOf root dst src := by
  unfold classDir
  rw [orElse_rootOf buildroot, hb]
  show addroot (addroot _ root) root = _
  rw [Path.C41_idempotent]
  match dst with
  | none => rfl
  | some [] => rfl
  | some (_ :: _) => rfl

/-- **C139**: the directory for the classes is in the buildroot.  Partial: as `addroot` (C41), for directories without `..` that do not
begin with the letters of the buildroot, or that are in it already. -/
theorem C139_below_partial (root : Text) (dst : Option Text) (src d : Text) (hr : root ≠ []) (hd : d = rootOf dst (split src).1)
    (hdd : ['.', '.'] ∉ Path.parts d) (h : ¬ root <+: d ∨ ∃ s, d = root ++ '/' :: s) : Path.Below root (classesOf root dst src) := by
  have : classesOf root dst src = addroot d root := by
    subst hd
    match dst with
    | none => rfl
    | some [] => rfl
    | some (_ :: _) => rfl
  rw [this]
  refine Path.C41_below_partial d root hr hdd (h.imp_left fun h => ?_)
  rw [← Bool.not_eq_true]
  exact fun hp => h (List.isPrefixOf_iff_prefix.1 hp)

/-- the words and paths that a compiler has to be called with -/
def expected (c : Compiler) (a : Args) (dir : Text) (more : List Text) (src : Text) : Read :=
  { dirs := [dir], classpaths := c.classpaths ++ a.classpaths, sourcepaths := c.sourcepaths ++ a.sourcepaths,
    words := c.exe :: ((if flag a.debug c.debug then c.debugFlags else []) ++ targetWords a.target c.target ++ c.flags ++
      (sVerbose :: a.flags ++ more) ++ [src]) }

/-- **C139**, javac: `compile` runs the compiler once on the source, with the options of the builder and of the call, those of the call
counting for `debug` and `target`, and lets it write to the directory given or that of the source, below the buildroot.
Partial: the call has no buildroot of its own (`C139_root_violated`), and no flag is `-d`, `-cp` or `-sourcepath`. -/
theorem C139_javac_partial (root : Text) (c : Compiler) (a : Args) (src : Text) (dst buildroot : Option Text)
    (hb : rootOf buildroot root = root)
    (h : ∀ x ∈ c.exe :: (c.debugFlags ++ c.flags ++ a.flags ++ [src]), NoOpt x) :
    ∃ cmd, compile root (javacCall root none c) src dst buildroot a = some (classesOf root dst src, cmd) ∧
      read cmd = expected c a (classesOf root dst src) [] src := by
  unfold compile javacCall
  rw [classDir_same hb]
  obtain ⟨cmd, h1, h2⟩ := read_run c { a with flags := verbose :: a.flags } (classesOf root dst src) [src] (by simp) (by
    intro x hx
    have : x = verbose ∨ x ∈ c.exe :: (c.debugFlags ++ c.flags ++ a.flags ++ [src]) := by
      simp only [List.mem_cons, List.mem_append] at hx ⊢
      grind
    rcases this with rfl | hx
    · exact ⟨by decide, by decide, by decide⟩
    · exact h x hx)
  refine ⟨cmd, by rw [h1]; rfl, ?_⟩
  rw [h2]
  simp [expected, verbose, sVerbose]

/-- **C139**, scalac: the same, and the flags for optimizing if the call, or else the builder, asks for it. -/
theorem C139_scalac_partial (root : Text) (c : Compiler) (a : Args) (src : Text) (dst buildroot : Option Text)
    (hb : rootOf buildroot root = root)
    (h : ∀ x ∈ c.exe :: (c.debugFlags ++ c.flags ++ c.optimizeFlags ++ a.flags ++ [src]), NoOpt x) :
    ∃ cmd, compile root (scalacCall root none c) src dst buildroot a = some (classesOf root dst src, cmd) ∧
      read cmd = expected c a (classesOf root dst src) (if flag a.optimize c.optimize then c.optimizeFlags else []) src := by
  unfold compile scalacCall runScala
  rw [classDir_same hb]
  simp only [wanted_flag]
  have hfl : (if flag a.optimize c.optimize then verbose :: a.flags ++ c.optimizeFlags else verbose :: a.flags) =
      verbose :: a.flags ++ (if flag a.optimize c.optimize then c.optimizeFlags else []) := by
    split <;> simp
  rw [hfl]
  obtain ⟨cmd, h1, h2⟩ := read_run c
    { a with flags := verbose :: a.flags ++ (if flag a.optimize c.optimize then c.optimizeFlags else []) } (classesOf root dst src) [src] (by simp) (by
    intro x hx
    have : x = verbose ∨ x ∈ c.exe :: (c.debugFlags ++ c.flags ++ c.optimizeFlags ++ a.flags ++ [src]) := by
      simp only [List.mem_cons, List.mem_append] at hx ⊢
      have : x ∈ (if flag a.optimize c.optimize then c.optimizeFlags else []) → x ∈ c.optimizeFlags := by
        split
        · exact id
        · intro hx; cases hx
      grind
    rcases this with rfl | hx
    · exact ⟨by decide, by decide, by decide⟩
    · exact h x hx)
  refine ⟨cmd, by rw [h1]; rfl, ?_⟩
  rw [h2]
  simp [expected, verbose, sVerbose]

/-- **C139**, a compiler object that is called itself: it writes to the directory given, below the buildroot of the call or else that of the
context, and returns it.  Partial: no flag is `-d`, `-cp` or `-sourcepath`. -/
theorem C139_call_partial (root : Text) (c : Compiler) (a : Args) (dst : Text) (buildroot : Option Text) (srcs : List Text) (hs : srcs ≠ [])
    (h : ∀ x ∈ c.exe :: (c.debugFlags ++ c.flags ++ c.optimizeFlags ++ a.flags ++ srcs), NoOpt x) :
    (∃ cmd, javacCall root buildroot c a dst srcs = some (addroot dst (rootOf buildroot root), cmd) ∧
      (read cmd).dirs = [addroot dst (rootOf buildroot root)] ∧ srcs <:+ (read cmd).words) ∧
    (∃ cmd, scalacCall root buildroot c a dst srcs = some (addroot dst (rootOf buildroot root), cmd) ∧
      (read cmd).dirs = [addroot dst (rootOf buildroot root)] ∧ srcs <:+ (read cmd).words) := by
  unfold javacCall scalacCall runScala classDir
  rw [orElse_rootOf]
  constructor
  · obtain ⟨cmd, h1, h2⟩ := read_run c a (addroot dst (rootOf buildroot root)) srcs hs (by
      intro x hx
      refine h x ?_
      simp only [List.mem_cons, List.mem_append] at hx ⊢
      grind)
    refine ⟨cmd, by rw [h1]; rfl, by rw [h2], ?_⟩
    rw [h2]
    exact (List.suffix_append _ _).trans (List.suffix_cons _ _)
  · obtain ⟨cmd, h1, h2⟩ := read_run c { a with flags := if wanted a.optimize c.optimize then a.flags ++ c.optimizeFlags else a.flags }
      (addroot dst (rootOf buildroot root)) srcs hs (by
      intro x hx
      refine h x ?_
      have : x ∈ (if wanted a.optimize c.optimize then a.flags ++ c.optimizeFlags else a.flags) → x ∈ a.flags ++ c.optimizeFlags := by
        split
        · exact id
        · exact List.mem_append_left _
      simp only [List.mem_cons, List.mem_append] at hx this ⊢
      grind)
    refine ⟨cmd, by rw [h1]; rfl, by rw [h2], ?_⟩
    rw [h2]
    exact (List.suffix_append _ _).trans (List.suffix_cons _ _)

/-- **C139** is false with a buildroot in the call: whatever the source and the destination, the classes go to a directory that does not
begin with that buildroot, but with that of the context (if none of the two is the beginning of the other). -/
theorem C139_root_violated (root b : Text) (c : Compiler) (a : Args) (src : Text) (dst : Option Text) (dir : Text) (cmd : List Text)
    (h1 : ¬ root <+: b) (h2 : ¬ b <+: root)
    (h : compile root (javacCall root none c) src dst (some b) a = some (dir, cmd) ∨
      compile root (scalacCall root none c) src dst (some b) a = some (dir, cmd)) :
    root <+: dir ∧ ¬ b <+: dir := by
  have key : ∃ x, dir = addroot x root := by
    unfold compile javacCall scalacCall classDir at h
    rcases h with h | h <;> rw [Option.map_eq_some_iff] at h <;> obtain ⟨_, _, h⟩ := h <;> cases h <;> exact ⟨_, rfl⟩
  obtain ⟨x, rfl⟩ := key
  have hr : root <+: addroot x root := by
    unfold addroot
    split
    · exact List.isPrefixOf_iff_prefix.1 ‹_›
    · exact List.isPrefixOf_iff_prefix.1 (prefix_join root _ (inner_rel x))
  exact ⟨hr, fun hb => (List.prefix_or_prefix_of_prefix hr hb).elim h1 h2⟩

theorem wrote_bracket {l f : Text} (h : wrote l = some f) : ['['] <+: l := by
  unfold wrote after at h
  split at h
  · cases h
  · rename_i s hs
    split at hs
    · rename_i hp
      exact (show ['['] <+: litWrote by decide).trans (List.isPrefixOf_iff_prefix.1 hp)
    · cases hs

/-- **C139**, messages: whether the compiler succeeds or fails, the log gets exactly the lines of its output that do not begin with a
bracket, in this order; with `quieter` or `stderr_quieter` none. -/
theorem C139_messages (quieter stderrQuieter : Nat) (failed : Bool) (ls : List Text) (h : ∀ l ∈ ls, '\n' ∉ l) :
    shown quieter stderrQuieter failed (ls.flatMap (fun l => l ++ ['\n'])) =
      if quieter = 0 ∧ stderrQuieter = 0 then (ls.filter (fun l => decide (l.head? ≠ some '['))).map (fun l => l ++ ['\n']) else [] := by
  have hl : lines [] (ls.flatMap (fun l => l ++ ['\n'])) = ls.map (fun l => l ++ ['\n']) := by
    induction ls with
    | nil => rfl
    | cons l ls ih =>
      rw [List.flatMap_cons, List.append_assoc, List.singleton_append, lines_line _ _ (h l (.head _)),
        ih (fun x hx => h x (.tail _ hx))]
      rfl
  have hb : ∀ l : Text, (!['['].isPrefixOf (l ++ ['\n'])) = decide (l.head? ≠ some '[') := by
    intro l
    cases l with
    | nil => rfl
    | cons c l => 
      simp only [List.cons_append, List.isPrefixOf, List.head?_cons, ne_eq, Option.some.injEq]
      by_cases hc : c = '['
      · subst hc; rfl
      · simp [hc, Ne.symm hc]
  unfold shown
  rw [hl]
  by_cases hq : quieter = 0 ∧ stderrQuieter = 0
  · obtain ⟨rfl, rfl⟩ := hq
    simp only [and_self, if_true, decide_true, Bool.and_true]
    have hw : ((ls.map (fun l => l ++ ['\n'])).filter fun l => wrote l == none && !['['].isPrefixOf l) =
        ((ls.map (fun l => l ++ ['\n'])).filter fun l => !['['].isPrefixOf l) := by
      congr 1
      funext l
      cases hwl : wrote l with
      | none => rfl
      | some f =>
        have := List.isPrefixOf_iff_prefix.2 (wrote_bracket hwl)
        rw [this]; rfl
    have hfin : ((ls.map (fun l => l ++ ['\n'])).filter fun l => !['['].isPrefixOf l) =
        (ls.filter (fun l => decide (l.head? ≠ some '['))).map (fun l => l ++ ['\n']) := by
      rw [List.filter_map]
      congr 1
      congr 1
      funext l
      exact hb l
    cases failed with
    | true => exact hfin
    | false => exact hw.trans hfin
  · have hq' : (decide (quieter = 0) && decide (stderrQuieter = 0)) = false := by
      rw [← Bool.not_eq_true]
      intro h'
      simp only [Bool.and_eq_true, decide_eq_true_eq] at h'
      exact hq h'
    cases failed with
    | true => simp [hq]
    | false =>
      simp only [hq', Bool.and_false, Bool.false_and, if_neg hq, Bool.false_eq_true, if_false]
      rw [List.filter_eq_nil_iff]
      intro l _
      simp

/-- a scalac for the example -/
def someScalac : Compiler :=
  { exe := "scalac".toList, debug := true, debugFlags := ["-g:vars".toList], classpaths := ["a.jar".toList], optimizeFlags := ["-optimise".toList] }

/-- `C139_javac_partial`, `C139_scalac_partial`: with options of the builder and of the call. -/
example : (compile "build".toList (scalacCall "build".toList none someScalac) "src/A.scala".toList none none
        { optimize := some true, flags := ["-x".toList], target := some "jvm-1.5".toList }).map (fun r => (r.1, read r.2)) =
    some ("build/src".toList, ⟨["build/src".toList], ["a.jar".toList], [],
      ["scalac".toList, "-g:vars".toList, "-target:jvm-1.5".toList, "-verbose".toList, "-x".toList, "-optimise".toList, "src/A.scala".toList]⟩) := by
  decide +kernel

/-- `C139_call_partial` -/
example : (javacCall "build".toList (some "other".toList) { exe := "javac".toList } {} "classes".toList ["A.java".toList]).map
    (fun r => (r.1, read r.2)) = some ("other/classes".toList, ⟨["other/classes".toList], [], [], ["javac".toList, "A.java".toList]⟩) := by
  decide +kernel

/-- `C139_root_violated`: the classes are in `build/other/src`. -/
example : (compile "build".toList (javacCall "build".toList none { exe := "javac".toList }) "src/A.java".toList none (some "other".toList) {}).map
    (fun r => r.1) = some "build/other/src".toList := by decide +kernel

/-- `C139_messages` -/
example : shown 0 0 false "[wrote A.class]\nA.java:1: warning\n[total 5ms]\n".toList = ["A.java:1: warning\n".toList] := by decide +kernel

end Verif.Java
