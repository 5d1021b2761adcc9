import Verif.Msvc.Lib
import Verif.Props.GccFactory
/-!
# Visual C: the linkers of builders made by `static` and `shared`

C161.
-/
namespace Verif.Msvc
open Gcc.Factory (Names)
open Library (Obj)

/-! ## Specification: how `lib` and `link` read their words -/

/-- the word is an option, not the name of a file -/
def isOption (w : Text) : Bool := w.head? = some '/' || w.head? = some '-'

/-- the files that are read -/
def inputs : List Text → List Text
  | [] => []
  | w :: ws => if isOption w then inputs ws else w :: inputs ws

/-- the file that the option names, if it is `/OUT:` -/
def outOf : Text → Option Text
  | '/' :: 'O' :: 'U' :: 'T' :: ':' :: f => some f
  | _ => none

/-- the files that are written -/
def outputs : List Text → List Text
  | [] => []
  | w :: ws => match outOf w with | some f => f :: outputs ws | none => outputs ws

/-- words that are options but do not name the file to write -/
def Flags (ws : List Text) : Prop := ∀ w ∈ ws, isOption w = true ∧ outOf w = none

/-- words that name files -/
def Files (ws : List Text) : Prop := ∀ w ∈ ws, isOption w = false

/-- A program is run with the flags in the order given, reads the files in the order given and writes one file. -/
def Runs (cmd : List Text) (exe : Text) (flags files : List Text) (file : Text) : Prop :=
  ∃ words, cmd = exe :: words ∧ flags.Sublist words ∧ inputs words = files ∧ outputs words = [file]

/-! ## Proofs -/

theorem inputs_append (xs ys : List Text) : inputs (xs ++ ys) = inputs xs ++ inputs ys := by
  induction xs with
  | nil => rfl
  | cons x xs ih =>
    simp only [List.cons_append, inputs]
    split <;> simp [ih]

theorem outputs_append (xs ys : List Text) : outputs (xs ++ ys) = outputs xs ++ outputs ys := by
  induction xs with
  | nil => rfl
  | cons x xs ih =>
    simp only [List.cons_append, outputs]
    split <;> simp [ih]

theorem flags_read {ws : List Text} (h : Flags ws) : inputs ws = [] ∧ outputs ws = [] := by
  induction ws with
  | nil => exact ⟨rfl, rfl⟩
  | cons w ws ih =>
    obtain ⟨h1, h2⟩ := h w (by simp)
    obtain ⟨i1, i2⟩ := ih fun x hx => h x (by simp [hx])
    simp [inputs, outputs, h1, h2, i1, i2]

theorem outOf_file {w : Text} (h : isOption w = false) : outOf w = none := by
  unfold outOf
  split
  · simp [isOption] at h
  · rfl

theorem files_read {ws : List Text} (h : Files ws) : inputs ws = ws ∧ outputs ws = [] := by
  induction ws with
  | nil => exact ⟨rfl, rfl⟩
  | cons w ws ih =>
    obtain ⟨i1, i2⟩ := ih fun x hx => h x (by simp [hx])
    simp [inputs, outputs, h w (by simp), outOf_file (h w (by simp)), i1, i2]

theorem Flags.append {xs ys : List Text} (hx : Flags xs) (hy : Flags ys) : Flags (xs ++ ys) := by
  intro w hw
  rcases List.mem_append.1 hw with h | h
  · exact hx w h
  · exact hy w h

/-- flags, the file, more flags, the sources -/
theorem runs_of (exe : Text) (front back files : List Text) (file : Text) (hf : Flags front) (hb : Flags back) (hs : Files files)
    (given : List Text) (hg : given.Sublist (front ++ back)) :
    Runs (exe :: (front ++ ["/OUT:".toList ++ file] ++ back ++ files)) exe given files file := by
  obtain ⟨f1, f2⟩ := flags_read hf
  obtain ⟨b1, b2⟩ := flags_read hb
  obtain ⟨s1, s2⟩ := files_read hs
  refine ⟨_, rfl, ?_, ?_, ?_⟩
  · refine hg.trans ?_
    rw [List.append_assoc, List.append_assoc]
    exact (List.Sublist.refl front).append (((List.Sublist.refl back).trans (List.sublist_append_left _ _)).trans
      (List.sublist_append_right _ _))
  · have : inputs ["/OUT:".toList ++ file] = [] := by simp [inputs, isOption]
    rw [inputs_append, inputs_append, inputs_append, f1, b1, s1, this]
    rfl
  · have : outputs ["/OUT:".toList ++ file] = [file] := by
      show outputs ['/' :: 'O' :: 'U' :: 'T' :: ':' :: file] = _
      simp [outputs, outOf]
    rw [outputs_append, outputs_append, outputs_append, f2, b2, s2, this]
    rfl

theorem linkCommand_runs (b : Linker) (a : Args) (hf : Flags (b.preFlags ++ a.preFlags)) (hb : Flags (b.flags ++ a.flags))
    (hs : Files (a.srcs ++ a.ldlibs)) :
    Runs (Msvc.command b a) b.exe (b.preFlags ++ a.preFlags ++ (b.flags ++ a.flags)) (a.srcs ++ a.ldlibs) a.dst := by
  have hn : Flags ["/nologo".toList] := by
    intro w hw
    rw [List.mem_singleton.1 hw]
    decide +kernel
  have hp : ∀ xs : List Text, Flags (xs.map ("/LIBRARYPATH:".toList ++ ·)) := by
    intro xs w hw
    obtain ⟨x, _, rfl⟩ := List.mem_map.1 hw
    exact ⟨rfl, rfl⟩
  have hl : ∀ xs : List Obj, Flags (xs.map fun l => "/DEFAULTLIB:".toList ++ importName l.str) := by
    intro xs w hw
    obtain ⟨x, _, rfl⟩ := List.mem_map.1 hw
    exact ⟨rfl, rfl⟩
  have key := runs_of b.exe (["/nologo".toList] ++ (b.preFlags ++ a.preFlags))
    ((b.flags ++ a.flags) ++ (((Gcc.sorted Gcc.leText ((collect b a).libpaths.map Obj.str)).filter (· ≠ [])).map
      ("/LIBRARYPATH:".toList ++ ·) ++ (b.external ++ (collect b a).external ++ b.libs ++ (collect b a).libs.reverse).map
        fun l => "/DEFAULTLIB:".toList ++ importName l.str)) (a.srcs ++ a.ldlibs) a.dst
    (hn.append hf) (hb.append ((hp _).append (hl _))) hs (b.preFlags ++ a.preFlags ++ (b.flags ++ a.flags))
    ((List.sublist_append_right _ _).append (List.sublist_append_left _ _))
  have he : Msvc.command b a = b.exe :: (["/nologo".toList] ++ (b.preFlags ++ a.preFlags) ++ ["/OUT:".toList ++ a.dst] ++
      ((b.flags ++ a.flags) ++ (((Gcc.sorted Gcc.leText ((collect b a).libpaths.map Obj.str)).filter (· ≠ [])).map
      ("/LIBRARYPATH:".toList ++ ·) ++ (b.external ++ (collect b a).external ++ b.libs ++ (collect b a).libs.reverse).map
        fun l => "/DEFAULTLIB:".toList ++ importName l.str)) ++ (a.srcs ++ a.ldlibs)) := by
    simp only [Msvc.command, List.append_assoc, List.cons_append, List.nil_append]
  rw [he]
  exact key

/-- **C161**, static libraries: `lib` is run with `link_flags`, `lib_link_flags` and the flags of the call, reads exactly the objects
and `ldlibs` of the call in their order, and writes the file that is returned, whose name is that asked for with `.lib`. -/
theorem C161_static_partial (find : Text → Text) (o : LinkOptions) (root : Text) (a : Args)
    (hf : Flags (o.linkFlags ++ o.libLinkFlags ++ a.preFlags ++ a.flags)) (hs : Files (a.srcs ++ a.ldlibs)) :
    Runs ((staticLib find o).command root a) (find "lib".toList) (o.linkFlags ++ o.libLinkFlags ++ a.preFlags ++ a.flags)
      (a.srcs ++ a.ldlibs) ((staticLib find o).file root a.dst) ∧
    Posix.tail ((staticLib find o).file root a.dst) = Posix.tail a.dst ++ ".lib".toList := by
  refine ⟨?_, Gcc.Factory.tail_linked root [] ".lib".toList a.dst (by simp) (by decide +kernel)⟩
  have hn : Flags ["/nologo".toList] := by
    intro w hw
    rw [List.mem_singleton.1 hw]
    decide +kernel
  have key := runs_of (find "lib".toList) (["/nologo".toList] ++ (o.linkFlags ++ o.libLinkFlags ++ a.preFlags)) a.flags
    (a.srcs ++ a.ldlibs) ((staticLib find o).file root a.dst)
    (hn.append fun w hw => hf w (List.mem_append_left _ hw)) (fun w hw => hf w (List.mem_append_right _ hw)) hs
    (o.linkFlags ++ o.libLinkFlags ++ a.preFlags ++ a.flags)
    ((List.sublist_append_right _ _).append (List.Sublist.refl _))
  have he : (staticLib find o).command root a = find "lib".toList :: (["/nologo".toList] ++
      (o.linkFlags ++ o.libLinkFlags ++ a.preFlags) ++ ["/OUT:".toList ++ (staticLib find o).file root a.dst] ++ a.flags ++
      (a.srcs ++ a.ldlibs)) := by
    simp only [Lib.command, staticLib, makeLib, List.append_assoc, List.cons_append, List.nil_append]
  rw [he]
  exact key

/-- **C161**, executables: `link` is run with `link_flags`, `exe_link_flags` and the flags of the call, reads exactly the objects and
`ldlibs` of the call in their order, and writes the file that is returned.  Its name is that asked for with the suffix given, or that
of the platform, if it is not empty. -/
theorem C161_exe_partial (find : Text → Text) (names host : Names) (o : LinkOptions) (root : Text) (a : Args)
    (hf : Flags (o.linkFlags ++ o.exeLinkFlags ++ a.preFlags ++ a.flags)) (hs : Files (a.srcs ++ a.ldlibs)) :
    Runs ((exeLinker find names host o).exeCommand root a) (find "link".toList)
      (o.linkFlags ++ o.exeLinkFlags ++ a.preFlags ++ a.flags) (a.srcs ++ a.ldlibs) ((exeLinker find names host o).file root a.dst) ∧
    ∀ s, (o.exeSuffix = some s ∨ o.exeSuffix = none ∧ s = names.exe) → s ≠ [] → '/' ∉ s →
      Posix.tail ((exeLinker find names host o).file root a.dst) = Posix.tail a.dst ++ s := by
  constructor
  · have := linkCommand_runs (exeLinker find names host o).linker { a with dst := (exeLinker find names host o).file root a.dst }
      (fun w hw => hf w (List.mem_append_left _ hw)) (fun w hw => hf w (List.mem_append_right _ hw)) hs
    exact this
  · intro s h hne hsl
    have hsuf : (exeLinker find names host o).suffix = s := by
      have : o.exeSuffix.getD names.exe = s := by
        rcases h with h | ⟨h, rfl⟩ <;> simp [h]
      simp [exeLinker, exeLink, Gcc.Factory.orElse, this, hne]
    have hpre : (exeLinker find names host o).pre = [] := rfl
    have := Gcc.Factory.tail_linked root [] s a.dst (by simp) hsl
    unfold Named.file
    rw [hsuf, hpre, this, List.nil_append]

/-- **C161**, shared libraries: the same for `link` with `/DLL`, which comes behind the flags of the call. -/
theorem C161_shared_partial (find : Text → Text) (names host : Names) (o : LinkOptions) (root : Text) (a : Args)
    (hf : Flags (o.linkFlags ++ o.libLinkFlags ++ a.preFlags ++ a.flags)) (hs : Files (a.srcs ++ a.ldlibs)) :
    Runs ((sharedLib find names host o).dllCommand root a) (find "link".toList)
      (o.linkFlags ++ o.libLinkFlags ++ a.preFlags ++ a.flags ++ ["/DLL".toList]) (a.srcs ++ a.ldlibs)
      ((sharedLib find names host o).file root a.dst) ∧
    ∀ p s, (o.libPrefix = some p ∨ o.libPrefix = none ∧ p = names.sharedLibPrefix) →
      (o.libSuffix = some s ∨ o.libSuffix = none ∧ s = names.sharedLibSuffix) → p ≠ [] → s ≠ [] → '/' ∉ p → '/' ∉ s →
      Posix.tail ((sharedLib find names host o).file root a.dst) = p ++ Posix.tail a.dst ++ s := by
  constructor
  · have hb : Flags ([] ++ (a.flags ++ ["/DLL".toList])) := by
      refine Flags.append (xs := []) (by intro w hw; simp at hw) (Flags.append (fun w hw => hf w (List.mem_append_right _ hw)) ?_)
      intro w hw
      rw [List.mem_singleton.1 hw]
      decide +kernel
    have := linkCommand_runs (sharedLib find names host o).linker
      { a with dst := (sharedLib find names host o).file root a.dst, flags := a.flags ++ ["/DLL".toList] }
      (fun w hw => hf w (List.mem_append_left _ hw)) hb hs
    have e : o.linkFlags ++ o.libLinkFlags ++ a.preFlags ++ a.flags ++ ["/DLL".toList] =
        o.linkFlags ++ o.libLinkFlags ++ a.preFlags ++ ([] ++ (a.flags ++ ["/DLL".toList])) := by
      simp only [List.append_assoc, List.nil_append]
    rw [e]
    exact this
  · intro p s hp hsf hpne hsne hps hss
    have h1 : (sharedLib find names host o).pre = p := by
      have : o.libPrefix.getD names.sharedLibPrefix = p := by
        rcases hp with h | ⟨h, rfl⟩ <;> simp [h]
      simp [sharedLib, dllLink, Gcc.Factory.orElse, this, hpne]
    have h2 : (sharedLib find names host o).suffix = s := by
      have : o.libSuffix.getD names.sharedLibSuffix = s := by
        rcases hsf with h | ⟨h, rfl⟩ <;> simp [h]
      simp [sharedLib, dllLink, Gcc.Factory.orElse, this, hsne]
    have := Gcc.Factory.tail_linked root p s a.dst hps hss
    unfold Named.file
    rw [h1, h2, this]

/-- **C161** is false for names that are given as empty, or are so on the platform asked for: those of the machine that fbuild runs
on are used. -/
theorem C161_empty_violated (find : Text → Text) (names host : Names) (o : LinkOptions) (root dst : Text)
    (hs : '/' ∉ host.exe) (hp : '/' ∉ host.sharedLibPrefix) :
    (o.exeSuffix = some [] ∨ o.exeSuffix = none ∧ names.exe = [] →
      Posix.tail ((exeLinker find names host o).file root dst) = Posix.tail dst ++ host.exe) ∧
    (o.libPrefix = some [] ∨ o.libPrefix = none ∧ names.sharedLibPrefix = [] → o.libSuffix = some ".dll".toList →
      Posix.tail ((sharedLib find names host o).file root dst) = host.sharedLibPrefix ++ Posix.tail dst ++ ".dll".toList) := by
  constructor
  · intro h
    have hsuf : (exeLinker find names host o).suffix = host.exe := by
      rcases h with h | ⟨h, h'⟩ <;> simp [exeLinker, exeLink, Gcc.Factory.orElse, *]
    have := Gcc.Factory.tail_linked root [] host.exe dst (by simp) hs
    unfold Named.file
    rw [hsuf]
    exact this
  · intro h hd
    have h1 : (sharedLib find names host o).pre = host.sharedLibPrefix := by
      rcases h with h | ⟨h, h'⟩ <;> simp [sharedLib, dllLink, Gcc.Factory.orElse, *]
    have h2 : (sharedLib find names host o).suffix = ".dll".toList := by
      simp [sharedLib, dllLink, Gcc.Factory.orElse, hd]
    have := Gcc.Factory.tail_linked root host.sharedLibPrefix ".dll".toList dst hp (by decide +kernel)
    unfold Named.file
    rw [h1, h2, this]

/-- **C161** is false for the names of static libraries, and for the program: `lib_prefix`, `lib_suffix` and `exe` of `static` have
no effect. -/
theorem C161_names_violated (find : Text → Text) (o : LinkOptions) (p s e : Option Text) :
    staticLib find { o with libPrefix := p, libSuffix := s, exe := e } = staticLib find o := rfl

/-- **C161** is false for the libraries: what a static library needs, by the builder or by the call, does not get to `lib`. -/
theorem C161_libs_violated (find : Text → Text) (o : LinkOptions) (root : Text) (a : Args) (lp lb ex lp' lb' ex' : List Obj) :
    (staticLib find { o with libpaths := lp, libs := lb, external := ex }).command root
        { a with libpaths := lp', libs := lb', external := ex' } =
      (staticLib find o).command root a := rfl

/-! ## An instance -/

namespace LibEx

def t (s : String) : Text := s.toList

def windows : Names := ⟨t ".obj", t ".obj", [], t ".dll", t ".exe"⟩
def linux : Names := ⟨t ".o", t ".os", t "lib", t ".so", []⟩
def options : LinkOptions :=
  { linkFlags := [t "/DEBUG"], libLinkFlags := [t "/MACHINE:X64"], exeLinkFlags := [t "/STACK:9"], libPrefix := some (t "my") }
def args : Args := ⟨t "src/x", [t "b/a.obj", t "b/b.obj"], [], [t "/WX"], [], [.text false (t "z.dll")], [t "c.lib"], []⟩

theorem met : Flags (options.linkFlags ++ options.libLinkFlags ++ args.preFlags ++ args.flags) ∧
    Flags (options.linkFlags ++ options.exeLinkFlags ++ args.preFlags ++ args.flags) ∧ Files (args.srcs ++ args.ldlibs) := by
  unfold Flags Files
  decide +kernel

/-- a static library -/
example : (staticLib id options).command (t "b") args =
    [t "lib", t "/nologo", t "/DEBUG", t "/MACHINE:X64", t "/OUT:b/src/x.lib", t "/WX", t "b/a.obj", t "b/b.obj", t "c.lib"] := by
  decide +kernel

/-- a program and a shared library -/
example : (exeLinker id windows windows options).exeCommand (t "b") args =
      [t "link", t "/nologo", t "/DEBUG", t "/STACK:9", t "/OUT:b/src/x.exe", t "/WX", t "/DEFAULTLIB:z.lib", t "b/a.obj",
        t "b/b.obj", t "c.lib"] ∧
    (sharedLib id windows windows options).dllCommand (t "b") args =
      [t "link", t "/nologo", t "/DEBUG", t "/MACHINE:X64", t "/OUT:b/src/myx.dll", t "/WX", t "/DLL", t "/DEFAULTLIB:z.lib",
        t "b/a.obj", t "b/b.obj", t "c.lib"] := by
  decide +kernel

/-- made for Windows on Linux: the shared library gets the prefix of Linux -/
example : (sharedLib id windows linux { options with libPrefix := none }).file (t "b") (t "x") = t "b/libx.dll" := by decide +kernel

end LibEx

end Verif.Msvc
