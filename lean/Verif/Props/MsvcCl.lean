import Verif.Msvc.Cl
import Verif.Props.GccCommand
/-!
# msvc: the command line of the compiler

C128.
-/
namespace Verif.Msvc
open Verif.Gcc (dedup sortedSet sorted leText asked objectFile)

/-! ## Specification -/

/-- the elements of the list are these, each once -/
def Exactly (xs : List (List Char)) (P : List Char → Prop) : Prop := xs.Nodup ∧ ∀ x, x ∈ xs ↔ P x

/-- `words` are the flags if they are asked for: by the call, or by the builder and the call says nothing -/
def Switched (own given : Option Bool) (flags words : List (List Char)) : Prop :=
  (given = some true ∨ given = none ∧ own = some true → words = flags) ∧
  (¬ (given = some true ∨ given = none ∧ own = some true) → words = [])

/-! ## Proofs -/

theorem switched (own given : Option Bool) (flags : List (List Char)) :
    Switched own given flags (if asked own given then flags else []) := by
  have := Gcc.asked_iff own given
  unfold Gcc.Wanted at this
  constructor <;> intro h
  · rw [if_pos (this.mpr h)]
  · rw [if_neg (fun e => h (this.mp e))]

theorem exactly_set (xs ys : List (List Char)) : Exactly (sortedSet xs ys) fun x => x ∈ ys ∨ x ∈ xs :=
  ⟨(Gcc.sortedSet_spec xs ys).1, fun x => by rw [(Gcc.sortedSet_spec xs ys).2, Or.comm]⟩

theorem exactly_includes (xs : List (List Char)) :
    Exactly ((sorted leText (dedup xs [])).filter (· ≠ [])) fun x => x ≠ [] ∧ x ∈ xs := by
  have hp := Gcc.sorted_perm leText (dedup xs [])
  obtain ⟨h1, h2⟩ := Gcc.dedup_spec xs [] (by simp)
  refine ⟨(hp.nodup_iff.mpr h1).filter _, fun x => ?_⟩
  rw [List.mem_filter, hp.mem_iff, h2]
  simp [and_comm]

theorem dedup_nodup (xs new : List (List Char)) (h : (new ++ xs).Nodup) : dedup xs new = new ++ xs := by
  induction xs generalizing new with
  | nil => simp [dedup]
  | cons x xs ih =>
    have hx : x ∉ new := by
      intro hm
      have := List.nodup_append.mp h
      exact this.2.2 x hm x (.head _) rfl
    rw [dedup, if_neg hx, ih (new ++ [x]) (by simpa using h)]
    simp

/-- **C128**: the command for a source has the options of the builder and of the call, with `/c` and `/showIncludes`, and the source
behind them; each include directory, macro and warning is there once, and no other.  Missing for the full claim: flags of the
call in which a word is repeated, the order of the include directories and macros. -/
theorem C128_compile_partial (find : List Char → List Char) (platformSuffix : List Char) (o : Options)
    (root src : List Char) (dst suffix : Option (List Char)) (a : Call) (hnd : ("/showIncludes".toList :: a.flags).Nodup) :
    ∃ dbg opt incs macs warns obj,
      (makeCompiler find platformSuffix o).cached root src dst suffix a =
        [find "cl".toList, "/nologo".toList] ++ o.cl.preFlags ++ ["/c".toList] ++ o.flags ++ o.compileFlags ++ dbg ++ opt ++
          incs.map ("/I".toList ++ ·) ++ macs.map ("/D".toList ++ ·) ++ warns.map ("/W".toList ++ ·) ++
          ["/Fo".toList ++ obj] ++ ["/showIncludes".toList] ++ a.flags ++ [src] ∧
      Switched o.cl.debug a.debug o.cl.debugFlags dbg ∧ Switched o.cl.optimize a.optimize o.cl.optimizeFlags opt ∧
      Exactly incs (fun d => d ≠ [] ∧ (d ∈ o.cl.includes ∨ d ∈ a.includes ∨
        (a.includeSourceDirs = true ∧ d = (Posix.split src).1))) ∧
      Exactly macs (fun m => m ∈ o.cl.macros ∨ m ∈ a.macros) ∧
      Exactly warns (fun w => w ∈ o.cl.warnings ∨ w ∈ a.warnings) ∧
      (∃ stem, obj = stem ++ match suffix with
        | some (c :: s) => c :: s
        | _ => o.objSuffix.getD platformSuffix) := by
  refine ⟨if asked o.cl.debug a.debug then o.cl.debugFlags else [], if asked o.cl.optimize a.optimize then o.cl.optimizeFlags else [],
    (sorted leText (dedup (o.cl.includes ++ a.includes ++
      (if a.includeSourceDirs then [(Posix.split src).1] else [])) [])).filter (· ≠ []),
    sortedSet a.macros o.cl.macros, sortedSet a.warnings o.cl.warnings,
    (makeCompiler find platformSuffix o).object root src dst suffix, ?_,
    switched o.cl.debug a.debug o.cl.debugFlags, switched o.cl.optimize a.optimize o.cl.optimizeFlags, ?_,
    exactly_set a.macros o.cl.macros, exactly_set a.warnings o.cl.warnings, ?_⟩
  · unfold Compiler.cached Compiler.command Cl.command
    have hf : dedup ([] ++ "/showIncludes".toList :: a.flags) [] = "/showIncludes".toList :: a.flags := by
      rw [List.nil_append, dedup_nodup _ _ (by simpa using hnd), List.nil_append]
    generalize (makeCompiler find platformSuffix o).object root src dst suffix = obj
    simp only [makeCompiler, hf, List.map_cons, List.map_nil]
    simp only [List.append_assoc, List.cons_append, List.nil_append]
    rfl
  · have := exactly_includes (o.cl.includes ++ a.includes ++ (if a.includeSourceDirs then [(Posix.split src).1] else []))
    refine ⟨this.1, fun x => (this.2 x).trans ?_⟩
    cases a.includeSourceDirs <;> simp [or_assoc]
  · refine ⟨(Posix.splitext (Path.addroot (match dst with | none => src | some d => if d = [] then src else d) root)).1, ?_⟩
    unfold Compiler.object objectFile Path.replaceext
    cases suffix with
    | none => rfl
    | some s =>
      cases s with
      | nil => rfl
      | cons c s => rfl

/-! ## Examples and violations -/

private abbrev t (s : String) : List Char := s.toList

def sampleOptions : Options where
  flags := [t "/EHsc"]
  cl := { exe := [], includes := [t "inc"], macros := [t "NDEBUG"], warnings := [t "3"], optimize := some true }

/-- hypotheses met, with the command that results -/
example : (t "/showIncludes" :: ({ flags := [t "/MD"], includes := [t "gen"], debug := some true } : Call).flags).Nodup ∧
    (makeCompiler id (t ".obj") sampleOptions).cached (t "build") (t "src/a.c") none none
      { flags := [t "/MD"], includes := [t "gen"], debug := some true } =
    [t "cl", t "/nologo", t "/c", t "/EHsc", t "/Zi", t "/Ox", t "/Igen", t "/Iinc", t "/Isrc", t "/DNDEBUG", t "/W3",
      t "/Fobuild/src/a.obj", t "/showIncludes", t "/MD", t "src/a.c"] := by decide +kernel

/-- **C128** is false for the order of include directories: the directory of the call is searched first although that of the builder
comes first, because of their names. -/
theorem C128_includes_violated :
    (makeCompiler id (t ".obj") { cl := { exe := [], includes := [t "own"] } }).cached (t "build") (t "a.c") none none
      { includes := [t "gen"] } =
    [t "cl", t "/nologo", t "/c", t "/Igen", t "/Iown", t "/Fobuild/a.obj", t "/showIncludes", t "a.c"] := by decide +kernel

/-- **C128** is false for flags with an argument: the second `/FI` is taken for a repetition of the first, so that its argument
becomes a source. -/
theorem C128_flags_violated :
    (makeCompiler id (t ".obj") {}).cached (t "build") (t "a.c") none none { flags := [t "/FI", t "x.h", t "/FI", t "y.h"] } =
    [t "cl", t "/nologo", t "/c", t "/Fobuild/a.obj", t "/showIncludes", t "/FI", t "x.h", t "y.h", t "a.c"] := by decide +kernel

/-- **C128** is false for a macro that the call defines in another way than the builder: the larger text is last and counts. -/
theorem C128_macro_violated :
    (makeCompiler id (t ".obj") { cl := { exe := [], macros := [t "N=1"] } }).cached (t "build") (t "a.c") none none
      { macros := [t "N=0"] } =
    [t "cl", t "/nologo", t "/c", t "/DN=0", t "/DN=1", t "/Fobuild/a.obj", t "/showIncludes", t "a.c"] := by decide +kernel

/-- **C128** is false for the argument `exe` of `static` and `shared`: whatever is given, the program is `cl`. -/
theorem C128_exe_violated (find : List Char → List Char) (platformSuffix : List Char) (o : Options) (exe : Option (List Char)) :
    (makeCompiler find platformSuffix { o with exe := exe }).cl.exe = find "cl".toList := rfl

end Verif.Msvc
