import Verif.Ocaml.Rebuild
import Verif.Props.Ocaml
/-!
# OCaml: when an object is compiled again

C149: an object file can only be another one if one of the files that the compilation reported is another one.
-/
namespace Verif.Ocaml.Rebuild
open Verif.Posix Verif.Path

/-- A compiler.  `refers` is what `ocamldep` finds in a text, `reads` are the source files whose compiled forms the
compiler opens when it compiles a file with a text, `make` is what it writes, given the text and these forms. -/
structure Compiler (C V : Type) where
  refers : C → Option (List Text)
  reads : Text → C → List Text
  make : Text → C → List V → V

/-- all the results, if there are all -/
def gather {V : Type} (f : Text → Option V) : List Text → Option (List V)
  | [] => some []
  | x :: xs => match f x, gather f xs with
    | some v, some vs => some (v :: vs)
    | _, _ => none

/-- What compiling a file anew gives, after compiling anew what it needs, and so on; with texts `text`.  `none`: there is
no such file, or the files need each other in more than `n` steps. -/
def compiled {C V : Type} (k : Compiler C V) (text : Text → Option C) : Nat → Text → Option V
  | 0, _ => none
  | n + 1, f => match text f with
    | none => none
    | some c => match gather (compiled k text n) (k.reads f c) with
      | none => none
      | some vs => some (k.make f c vs)

/-- the directories `w` with the texts `text` in the files -/
def withTexts {C V : Type} (k : Compiler C V) (w : World) (text : Text → Option C) : World :=
  { w with modules := fun f => (text f).bind k.refers }

theorem gather_congr {V : Type} {f g : Text → Option V} {l : List Text} (h : ∀ x ∈ l, f x = g x) :
    gather f l = gather g l := by
  induction l with
  | nil => rfl
  | cons x xs ih =>
    simp only [gather, h x (by simp), ih (fun y hy => h y (by simp [hy]))]

/-- agreement on what is reached is enough -/
theorem compiled_congr {C V : Type} (k : Compiler C V) (text text' : Text → Option C) (R : Text → Text → Prop)
    (hr : ∀ f c, text f = some c → ∀ b ∈ k.reads f c, R f b) (n : Nat) (src : Text)
    (h : ∀ x, x = src ∨ Reaches R src x → text' x = text x) : compiled k text' n src = compiled k text n src := by
  induction n generalizing src with
  | zero => rfl
  | succ n ih =>
    simp only [compiled, h src (Or.inl rfl)]
    cases hc : text src with
    | none => rfl
    | some c =>
      have : gather (compiled k text' n) (k.reads src c) = gather (compiled k text n) (k.reads src c) := by
        apply gather_congr
        intro b hb
        have hs := hr src c hc b hb
        apply ih
        rintro x (rfl | hx)
        · exact h _ (Or.inr (.one hs))
        · exact h _ (Or.inr (.more hs hx))
      simp only [this]

/-- **C149**, bytecode: let the compiler open compiled forms only of files that are dependencies of the file, and of an
implementation only if there is no interface of it among them.  If no file appears or disappears, and compiling
a file anew gives something else than before, then its text or the text of a file that was reported has changed. -/
theorem C149_byte_partial {C V : Type} (k : Compiler C V) (w : World) (text text' : Text → Option C)
    (includes : List Text) (buildroot : Text) (limit : Nat) (src : Text) (files : List Text)
    (hk : ∀ f c, text f = some c → ∀ b ∈ k.reads f c, Uses (sourceDeps (withTexts k w text) includes buildroot) f b)
    (hs : ∀ f ds, sourceDeps (withTexts k w text) includes buildroot f = some ds → ∀ d ∈ ds, Suffix (splitext d).2)
    (hf : compileSrcs (withTexts k w text) includes buildroot limit src = some files)
    (n : Nat) (hd : compiled k text' n src ≠ compiled k text n src) : ∃ x ∈ src :: files, text' x ≠ text x := by
  apply Classical.byContradiction
  intro hn
  apply hd
  apply compiled_congr k text text' _ hk
  intro x hx
  apply Classical.byContradiction
  intro hne
  apply hn
  refine ⟨x, ?_, hne⟩
  rcases hx with rfl | hx
  · simp
  · exact List.mem_cons_of_mem _ ((C72_byte _ hs limit src files hf x).2 hx)

/-- **C149**, native code: the same, and the compiler may open the compiled forms of interfaces and of implementations. -/
theorem C149_native_partial {C V : Type} (k : Compiler C V) (w : World) (text text' : Text → Option C)
    (includes : List Text) (buildroot : Text) (limit : Nat) (src : Text) (files : List Text)
    (hml : ¬ ".mli".toList <:+ src)
    (hk : ∀ f c, text f = some c → ∀ b ∈ k.reads f c, Refers (sourceDeps (withTexts k w text) includes buildroot) f b)
    (hf : nativeCompileSrcs (withTexts k w text) includes buildroot limit src = some files)
    (n : Nat) (hd : compiled k text' n src ≠ compiled k text n src) : ∃ x ∈ src :: files, text' x ≠ text x := by
  have he : endsWith src mli = false := by
    cases h : endsWith src mli with
    | false => rfl
    | true => exact absurd (List.isSuffixOf_iff_suffix.1 h) hml
  simp only [nativeCompileSrcs, he, Bool.false_eq_true, ↓reduceIte] at hf
  apply Classical.byContradiction
  intro hn
  apply hd
  apply compiled_congr k text text' _ hk
  intro x hx
  apply Classical.byContradiction
  intro hne
  apply hn
  refine ⟨x, ?_, hne⟩
  rcases hx with rfl | hx
  · simp
  · exact List.mem_cons_of_mem _ ((C72_native hf x).2 hx)

/-- The other files that `ocamlc -c` and `ocamlopt -c` write besides `stem.cmo` or `stem.cmx`: the interface, if no
`.mli` file is beside the file that is compiled, and for native code the object. -/
def Written (native : Option Text) (interface : Bool) (stem x : Text) : Prop :=
  (interface = false ∧ x = stem ++ ".cmi".toList) ∨ ∃ o, native = some o ∧ x = stem ++ o

theorem ends_ml {src stem : Text} (h : splitext src = (stem, ".ml".toList)) : endsWith src ml = true := by
  have := Verif.Path.splitext_append src
  rw [h] at this
  simp only [endsWith, List.isSuffixOf_iff_suffix]
  exact ⟨stem, this⟩

/-- **C149**: what is reported as written is what is written, if the copy of the implementation has an interface beside
it exactly if the original has. -/
theorem C149_written_partial (exist : Text → Bool) (buildroot objSuffix src dst stem dstem ext : Text)
    (hs : splitext src = (stem, ".ml".toList)) (hd : splitext dst = (dstem, ext))
    (hc : exist (replaceext (addroot src buildroot) ".mli".toList) = exist (stem ++ ".mli".toList)) (x : Text) :
    (x ∈ compileDsts exist dst src ↔
      Written none (exist (replaceext (addroot src buildroot) ".mli".toList)) dstem x) ∧
    (x ∈ nativeCompileDsts exist objSuffix dst src ↔
      Written (some objSuffix) (exist (replaceext (addroot src buildroot) ".mli".toList)) dstem x) := by
  have he := ends_ml hs
  have h1 : replaceext src mli = stem ++ ".mli".toList := by simp only [replaceext, hs, mli]
  have h2 : ∀ e, replaceext dst e = dstem ++ e := by intro e; simp only [replaceext, hd]
  rw [hc]
  simp only [nativeCompileDsts, compileDsts, he, h1, h2, Written, cmi]
  generalize exist (stem ++ ".mli".toList) = b
  cases b <;> simp

/-- **C149**, partial: the same for an interface that is compiled for native code, of which only the interfaces that it uses matter: these
and no others are reported, as for bytecode. -/
theorem C149_native_interface_partial {C V : Type} (k : Compiler C V) (w : World) (text text' : Text → Option C)
    (includes : List Text) (buildroot : Text) (limit : Nat) (src : Text) (files : List Text) (hml : ".mli".toList <:+ src)
    (hk : ∀ f c, text f = some c → ∀ b ∈ k.reads f c, Uses (sourceDeps (withTexts k w text) includes buildroot) f b)
    (hs : ∀ f ds, sourceDeps (withTexts k w text) includes buildroot f = some ds → ∀ d ∈ ds, Suffix (splitext d).2)
    (hf : nativeCompileSrcs (withTexts k w text) includes buildroot limit src = some files) :
    compileSrcs (withTexts k w text) includes buildroot limit src = some files ∧
    ∀ n, compiled k text' n src ≠ compiled k text n src → ∃ x ∈ src :: files, text' x ≠ text x := by
  have he : endsWith src mli = true := List.isSuffixOf_iff_suffix.2 hml
  have e : compileSrcs (withTexts k w text) includes buildroot limit src = some files := by
    rw [← hf, nativeCompileSrcs, he, if_pos rfl]
  exact ⟨e, fun n hd => C149_byte_partial k w text text' includes buildroot limit src files hk hs e n hd⟩

/-- **C149**: an interface of which the compiler writes nothing else than its compiled form: nothing is reported. -/
theorem C149_interface (exist : Text → Bool) (src dst : Text) (h : ¬ ".ml".toList <:+ src) :
    compileDsts exist dst src = [] := by
  have he : endsWith src ml = false := by
    cases h' : endsWith src ml with
    | false => rfl
    | true => exact absurd (List.isSuffixOf_iff_suffix.1 h') h
  simp [compileDsts, he]

/-- **C149**: linking native code depends on the object beside each `.cmx` file and on the archive beside each library. -/
theorem C149_link (objSuffix libSuffix : Text) (srcs libs : List Text) (x : Text) :
    x ∈ linkSrcs objSuffix libSuffix srcs libs ↔
      (∃ s ∈ srcs, ".cmx".toList <:+ s ∧ x = (splitext s).1 ++ objSuffix) ∨
      (∃ l ∈ libs, x = (splitext l).1 ++ libSuffix) := by
  simp only [linkSrcs, List.mem_append, List.mem_map, List.mem_filter, replaceext, endsWith,
    List.isSuffixOf_iff_suffix, cmx]
  constructor
  · rintro (⟨s, ⟨h1, h2⟩, rfl⟩ | ⟨l, h1, rfl⟩)
    · exact Or.inl ⟨s, h1, h2, rfl⟩
    · exact Or.inr ⟨l, h1, rfl⟩
  · rintro (⟨s, h1, h2, rfl⟩ | ⟨l, h1, rfl⟩)
    · exact Or.inl ⟨s, ⟨h1, h2⟩, rfl⟩
    · exact Or.inr ⟨l, h1, rfl⟩

/-- **C149**: linking a library of native code is also done again when the archive beside it is gone; linking an
executable has no second result. -/
theorem C149_library (libSuffix dst : Text) (x : Text) :
    x ∈ linkDsts libSuffix dst ↔ ".cmxa".toList <:+ dst ∧ x = (splitext dst).1 ++ libSuffix := by
  simp only [linkDsts, replaceext]
  by_cases h : endsWith dst cmxa = true
  · rw [if_pos h]
    have h' : ".cmxa".toList <:+ dst := List.isSuffixOf_iff_suffix.1 h
    simp only [List.mem_singleton, h', true_and]
  · rw [if_neg h]
    simp only [List.not_mem_nil, false_iff, not_and]
    intro h'
    exact absurd (List.isSuffixOf_iff_suffix.2 h') h

/-! ## Examples -/

/-- a text is the modules that it refers to and a number; `reads` opens what is in `names` -/
def exCompiler (names : List Text) : Compiler (List Text × Nat) Nat where
  refers c := some c.1
  reads _ c := c.1.flatMap (fun m =>
    if m = ['B'] then (if "b.mli".toList ∈ names then ["b.mli".toList] else ["b.ml".toList]) else [])
  make _ c vs := c.2 + 10 * vs.sum

/-- the directory with these files -/
def exDir (names : List Text) : World where
  cwd := names
  dirs _ := none
  exist p := p ∈ names
  modules _ := none
  lower := Char.toLower
  upper := Char.toUpper

/-- `a.ml` refers to `B` -/
def exText (b : Nat) (f : Text) : Option (List Text × Nat) :=
  if f = "a.ml".toList then some ([['B']], 1) else if f = "b.ml".toList then some ([], b)
  else if f = "b.mli".toList then some ([], 7) else none

def exNames : List Text := ["a.ml".toList, "b.ml".toList]

theorem exText_reads {f : Text} {c : List Text × Nat} (h : exText 2 f = some c) {b : Text}
    (hb : b ∈ (exCompiler exNames).reads f c) : f = "a.ml".toList ∧ b = "b.ml".toList := by
  simp only [exText] at h
  split at h
  · cases h
    refine ⟨by assumption, ?_⟩
    simpa [exCompiler, exNames] using hb
  · split at h
    · cases h; simp [exCompiler] at hb
    · split at h
      · cases h; simp [exCompiler] at hb
      · cases h

set_option maxRecDepth 20000 in
theorem exUses : Uses (sourceDeps (withTexts (exCompiler exNames) (exDir exNames) (exText 2)) [] "build".toList)
    "a.ml".toList "b.ml".toList := ⟨["b.ml".toList], by decide +kernel, by decide +kernel, by decide +kernel⟩

set_option maxRecDepth 20000 in
/-- the hypotheses of `C149_byte_partial` and of `C149_native_partial`: `b.ml` changes -/
example : (∀ f c, exText 2 f = some c → ∀ b ∈ (exCompiler exNames).reads f c,
      Uses (sourceDeps (withTexts (exCompiler exNames) (exDir exNames) (exText 2)) [] "build".toList) f b) ∧
    compileSrcs (withTexts (exCompiler exNames) (exDir exNames) (exText 2)) [] "build".toList 5 "a.ml".toList =
      some ["b.ml".toList] ∧
    nativeCompileSrcs (withTexts (exCompiler exNames) (exDir exNames) (exText 2)) [] "build".toList 5 "a.ml".toList =
      some ["b.ml".toList] ∧
    compiled (exCompiler exNames) (exText 3) 5 "a.ml".toList ≠ compiled (exCompiler exNames) (exText 2) 5 "a.ml".toList := by
  refine ⟨?_, by decide +kernel, by decide +kernel, by decide +kernel⟩
  intro f c hc b hb
  obtain ⟨rfl, rfl⟩ := exText_reads hc hb
  exact exUses

set_option maxRecDepth 20000 in
example : ∀ f ds, sourceDeps (withTexts (exCompiler exNames) (exDir exNames) (exText 2)) [] "build".toList f = some ds →
    ∀ d ∈ ds, Suffix (splitext d).2 := by
  intro f ds h d hd
  simp only [sourceDeps, withTexts, Option.map_eq_some_iff] at h
  obtain ⟨ms, hm, rfl⟩ := h
  simp only [exText] at hm
  split at hm
  · rename_i hf
    subst hf
    simp only [exCompiler, Option.bind_some, Option.some.injEq] at hm
    subst hm
    have : d ∈ ["b.ml".toList] := by
      have e : List.flatMap (moduleDeps (withTexts (exCompiler exNames) (exDir exNames) (exText 2)) []) [['B']] ++
        interface (withTexts (exCompiler exNames) (exDir exNames) (exText 2)) [] "build".toList "a.ml".toList =
          ["b.ml".toList] := by decide +kernel
      rw [← e]; exact hd
    simp only [List.mem_singleton] at this
    subst this
    exact Or.inr (by decide)
  · split at hm
    · rename_i hf
      subst hf
      simp only [exCompiler, Option.bind_some, Option.some.injEq] at hm
      subst hm
      have e : List.flatMap (moduleDeps (withTexts (exCompiler exNames) (exDir exNames) (exText 2)) []) [] ++
        interface (withTexts (exCompiler exNames) (exDir exNames) (exText 2)) [] "build".toList "b.ml".toList =
          [] := by decide +kernel
      have : d ∈ ([] : List Text) := by rw [← e]; exact hd
      cases this
    · split at hm
      · rename_i hf
        subst hf
        simp only [exCompiler, Option.bind_some, Option.some.injEq] at hm
        subst hm
        have e : List.flatMap (moduleDeps (withTexts (exCompiler exNames) (exDir exNames) (exText 2)) []) [] ++
          interface (withTexts (exCompiler exNames) (exDir exNames) (exText 2)) [] "build".toList "b.mli".toList =
            [] := by decide +kernel
        have : d ∈ ([] : List Text) := by rw [← e]; exact hd
        cases this
      · cases hm

set_option maxRecDepth 20000 in
/-- **C149** is false when files appear: `b.mli` is written beside `b.ml`.  No file that was reported has changed, the object
would be another one, and the file that makes the difference would be reported now. -/
theorem C149_added_violated :
    compileSrcs (withTexts (exCompiler exNames) (exDir exNames) (exText 2)) [] "build".toList 5 "a.ml".toList =
      some ["b.ml".toList] ∧
    compiled (exCompiler ("b.mli".toList :: exNames)) (exText 2) 5 "a.ml".toList ≠
      compiled (exCompiler exNames) (exText 2) 5 "a.ml".toList ∧
    compileSrcs (withTexts (exCompiler ("b.mli".toList :: exNames)) (exDir ("b.mli".toList :: exNames)) (exText 2)) []
      "build".toList 5 "a.ml".toList = some ["b.mli".toList] := by
  refine ⟨by decide +kernel, by decide +kernel, by decide +kernel⟩

set_option maxRecDepth 20000 in
/-- **C149** is false for written files if only the original has an interface beside it, because that was not among the
files to compile: the compiler writes `build/x.cmi`, and nothing is reported. -/
theorem C149_written_violated :
    let exist : Text → Bool := fun p => p ∈ ["x.ml".toList, "x.mli".toList, "build/x.ml".toList]
    compileDsts exist "build/x.cmo".toList "x.ml".toList = [] ∧
    Written none (exist (replaceext (addroot "x.ml".toList "build".toList) ".mli".toList)) "build/x".toList
      "build/x.cmi".toList := by
  refine ⟨by decide +kernel, Or.inl ⟨by decide +kernel, by decide +kernel⟩⟩

set_option maxRecDepth 20000 in
example : let exist : Text → Bool := fun p => p ∈ ["x.ml".toList, "build/x.ml".toList]
    splitext "x.ml".toList = ("x".toList, ".ml".toList) ∧ splitext "build/x.cmx".toList = ("build/x".toList, ".cmx".toList) ∧
    exist (replaceext (addroot "x.ml".toList "build".toList) ".mli".toList) = exist ("x".toList ++ ".mli".toList) ∧
    nativeCompileDsts exist ".o".toList "build/x.cmx".toList "x.ml".toList =
      ["build/x.cmi".toList, "build/x.o".toList] := by decide +kernel

set_option maxRecDepth 20000 in
example : nativeCompileSrcs (withTexts (exCompiler exNames) (exDir exNames) (exText 2)) [] "build".toList 5 "b.mli".toList = some [] ∧
    ".mli".toList <:+ "b.mli".toList := by decide +kernel

set_option maxRecDepth 20000 in
example : linkSrcs ".o".toList ".a".toList ["build/x.cmi".toList, "build/x.cmx".toList] ["build/y.cmxa".toList] =
    ["build/x.o".toList, "build/y.a".toList] ∧ linkDsts ".a".toList "build/z.cmxa".toList = ["build/z.a".toList] ∧
    ¬ ".ml".toList <:+ "x.mli".toList := by decide +kernel

end Verif.Ocaml.Rebuild
