import Verif.Ocaml.Both
import Verif.Props.Path
/-!
# What OCaml libraries and programs are made of (C145)
-/
namespace Verif.Ocaml.Both
open Verif.Path (addroot)

/-! ## What the compilers do -/

/-- interfaces are the sources that end with `.mli` -/
def Interface (s : Text) : Prop := ∃ stem, s = stem ++ ['.', 'm', 'l', 'i']

/-- the sources in objects of kind `k`; `none` if one of them is something else -/
def inObjects (k : Kind) : List File → Option (List Text)
  | [] => some []
  | .obj k' s :: fs => if k' = k then (inObjects k fs).map (s ++ ·) else none
  | _ :: _ => none

/-- the same for libraries -/
def inLibs (k : Kind) : List File → Option (List Text)
  | [] => some []
  | .linked k' .lib s :: fs => if k' = k then (inLibs k fs).map (s ++ ·) else none
  | _ :: _ => none

/-- What OCaml's compilers do: an interface becomes a `.cmi` and another source an object.  Objects of the kind of the compiler, and no
other files, can be packed and linked, with libraries of this kind. -/
structure Right (t : Tools) : Prop where
  mli : ∀ k s f, t.compile k s = some f → Interface s → f = .cmi s
  ml : ∀ k s f, t.compile k s = some f → ¬ Interface s → f = .obj k [s]
  pack : ∀ k os, t.pack k os = (inObjects k os).map (.obj k)
  link : ∀ k m os ls, t.link k m os ls = match inLibs k ls, inObjects k os with
    | some a, some b => some (.linked k m (a ++ b))
    | _, _ => none

/-- every source can be compiled -/
def Compiles (t : Tools) (srcs : List Text) : Prop := ∀ s ∈ srcs, ∀ k, (t.compile k s).isSome

/-- the sources that are not interfaces, in order -/
inductive Impls : List Text → List Text → Prop
  | nil : Impls [] []
  | skip {s : Text} {l r : List Text} : Interface s → Impls l r → Impls (s :: l) r
  | keep {s : Text} {l r : List Text} : ¬ Interface s → Impls l r → Impls (s :: l) (s :: r)

theorem isMli_iff (s : Text) : isMli s = true ↔ Interface s := by
  unfold isMli Interface
  rw [List.isSuffixOf_iff_suffix]
  constructor
  · rintro ⟨a, h⟩
    exact ⟨a, h.symm⟩
  · rintro ⟨a, h⟩
    exact ⟨a, h.symm⟩

theorem inObjects_append (k : Kind) (a b : List File) :
    inObjects k (a ++ b) = match inObjects k a, inObjects k b with
      | some x, some y => some (x ++ y)
      | _, _ => none := by
  induction a with
  | nil => cases h : inObjects k b <;> simp [inObjects, h]
  | cons f a ih =>
    cases f with
    | cmi s => simp [inObjects]
    | linked k' m s => simp [inObjects]
    | obj k' s =>
      simp only [List.cons_append, inObjects]
      split
      · rw [ih]
        cases inObjects k a <;> cases inObjects k b <;> simp
      · rfl

theorem objects_made {t : Tools} (ht : Right t) (k : Kind) {srcs : List Text} (hc : Compiles t srcs) :
    ∃ os ms, every (compile t k) srcs = some os ∧ Impls srcs ms ∧ inObjects k (os.filter fun o => !isCmi o) = some ms := by
  induction srcs with
  | nil => exact ⟨[], [], rfl, .nil, rfl⟩
  | cons s srcs ih =>
    obtain ⟨os, ms, h1, h2, h3⟩ := ih (fun x hx => hc x (.tail _ hx))
    by_cases hi : Interface s
    · have hf : compile t k s = some (.cmi s) := by
        unfold compile
        have key : ∀ k, t.compile k s = some (.cmi s) := by
          intro k
          obtain ⟨f, hf⟩ := Option.isSome_iff_exists.1 (hc s (.head _) k)
          rw [hf, ht.mli k s f hf hi]
        split <;> exact key _
      refine ⟨.cmi s :: os, ms, ?_, .skip hi h2, ?_⟩
      · rw [every, hf]
        simp only [h1, Option.map_some]
      · simpa [isCmi] using h3
    · have hm : isMli s = false := by
        rw [← Bool.not_eq_true]
        exact fun h => hi ((isMli_iff s).1 h)
      have hf : compile t k s = some (.obj k [s]) := by
        unfold compile
        rw [hm, if_neg (by simp)]
        obtain ⟨f, hf⟩ := Option.isSome_iff_exists.1 (hc s (.head _) k)
        rw [hf, ht.ml k s f hf hi]
      refine ⟨.obj k [s] :: os, s :: ms, ?_, .keep hi h2, ?_⟩
      · rw [every, hf]
        simp only [h1, Option.map_some]
      · have : ((File.obj k [s] :: os).filter fun o => !isCmi o) = .obj k [s] :: os.filter fun o => !isCmi o := rfl
        rw [this, inObjects, if_pos rfl, h3]
        rfl

theorem no_cmi {k : Kind} {os : List File} {ms : List Text} (h : inObjects k os = some ms) : (os.filter fun o => !isCmi o) = os := by
  rw [List.filter_eq_self]
  induction os generalizing ms with
  | nil => simp
  | cons o os ih =>
    cases o with
    | cmi s => cases h
    | linked k' m s => cases h
    | obj k' s =>
      rw [inObjects] at h
      split at h
      · cases hr : inObjects k os with
        | none => rw [hr] at h; cases h
        | some r =>
          intro x hx
          rcases List.mem_cons.1 hx with rfl | hx
          · rfl
          · exact ih hr x hx
      · cases h

/-- the sources in a program or a library: in a program those of the libraries come first; a library does not contain others -/
def whole (m : Mode) (libs own : List Text) : List Text :=
  match m with
  | .lib => own
  | .exe => libs ++ own

/-- **C145**, one kind of code: a library or program consists of the objects given and of the sources, each once and in the order in which
they depend on each other; a program also of the libraries.  Partial: without `pack`. -/
theorem C145_one_partial (t : Tools) (ht : Right t) (order : List Text → List Text) (k : Kind) (m : Mode) (objs : List File)
    (srcs : List Text) (libs : List File) (given inlibs : List Text) (hperm : (order srcs).Perm srcs) (hc : Compiles t srcs)
    (ho : inObjects k objs = some given) (hl : inLibs k libs = some inlibs) :
    ∃ ms, Impls (order srcs) ms ∧ buildLink t order k m false objs srcs libs = some (.linked k m (whole m inlibs (given ++ ms))) := by
  have hc' : Compiles t (order srcs) := fun s hs => hc s (hperm.mem_iff.1 hs)
  obtain ⟨os, ms, h1, h2, h3⟩ := objects_made ht k hc'
  refine ⟨ms, h2, ?_⟩
  have h1' : buildObjects t order k srcs = some os := h1
  simp only [buildLink, Bool.false_eq_true, if_false, h1', link, if_true, ht.link, List.filter_append, no_cmi ho,
    inObjects_append, ho, h3]
  cases m with
  | lib => simp [inLibs, whole]
  | exe => simp [hl, whole]

/-- **C145**, packed: the sources are in one object and that is in the library or program.  Partial: no objects are given. -/
theorem C145_pack_partial (t : Tools) (ht : Right t) (order : List Text → List Text) (k : Kind) (m : Mode)
    (srcs : List Text) (libs : List File) (inlibs : List Text) (hperm : (order srcs).Perm srcs) (hc : Compiles t srcs)
    (hl : inLibs k libs = some inlibs) :
    ∃ ms, Impls (order srcs) ms ∧ buildPack t order k [] srcs = some (.obj k ms) ∧
      buildLink t order k m true [] srcs libs = some (.linked k m (whole m inlibs ms)) := by
  have hc' : Compiles t (order srcs) := fun s hs => hc s (hperm.mem_iff.1 hs)
  obtain ⟨os, ms, h1, h2, h3⟩ := objects_made ht k hc'
  have h1' : buildObjects t order k srcs = some os := h1
  have hp : buildPack t order k [] srcs = some (.obj k ms) := by
    simp only [buildPack, h1', ht.pack, h3, Option.map_some]
  refine ⟨ms, h2, hp, ?_⟩
  simp only [buildLink, if_true, hp, link, ht.link]
  cases m with
  | lib => simp [inLibs, whole, isCmi, inObjects]
  | exe => simp [hl, whole, isCmi, inObjects]

theorem Impls.mem {l r : List Text} (h : Impls l r) {x : Text} (hx : x ∈ r) : x ∈ l := by
  induction h with
  | nil => exact hx
  | skip _ _ ih => exact .tail _ (ih hx)
  | keep _ _ ih =>
    rcases List.mem_cons.1 hx with rfl | hx
    · exact .head _
    · exact .tail _ (ih hx)

/-- **C145** is false with `pack` and objects: the library or program is made, but what is in the objects given is not in it. -/
theorem C145_pack_violated (t : Tools) (ht : Right t) (order : List Text → List Text) (k : Kind) (m : Mode) (objs : List File)
    (srcs : List Text) (libs : List File) (given inlibs : List Text) (hperm : (order srcs).Perm srcs) (hc : Compiles t srcs)
    (_ho : inObjects k objs = some given) (hl : inLibs k libs = some inlibs) (x : Text) (_hx : x ∈ given) (hs : x ∉ srcs) (hi : x ∉ inlibs) :
    ∃ all, buildLink t order k m true objs srcs libs = some (.linked k m all) ∧ x ∉ all := by
  obtain ⟨ms, h1, _, h3⟩ := C145_pack_partial t ht order k m srcs libs inlibs hperm hc hl
  refine ⟨_, h3, fun h => ?_⟩
  have hm : x ∉ ms := fun h => hs (hperm.mem_iff.1 (h1.mem h))
  cases m with
  | lib => exact hm h
  | exe => exact (List.mem_append.1 h).elim hi hm

/-- pairs of files with the same sources in them, of both kinds -/
def Pairs (inside : Kind → List File → Option (List Text)) (l : List (Arg File)) (srcs : List Text) : Prop :=
  inside .byte (l.map Arg.byte) = some srcs ∧ inside .native (l.map Arg.native) = some srcs

/-- **C145**, both kinds of code: a pair is returned whose first part is bytecode and whose second part is native code, of the same
sources.  Partial: without `pack` and `objs`. -/
theorem C145_both_partial (t : Tools) (ht : Right t) (order : List Text → List Text) (m : Mode) (srcs : List Text)
    (libs : List (Arg File)) (inlibs : List Text) (hperm : (order srcs).Perm srcs) (hc : Compiles t srcs) (hl : Pairs inLibs libs inlibs) :
    ∃ ms, Impls (order srcs) ms ∧ bothBuild t order m false [] (srcs.map .one) libs =
      some (.linked .byte m (whole m inlibs ms), .linked .native m (whole m inlibs ms)) := by
  have hs : ∀ f : Arg Text → Text, (∀ x, f (.one x) = x) → (srcs.map Arg.one).map f = srcs := by
    intro f hf
    rw [List.map_map]
    exact (List.map_congr_left fun x _ => hf x).trans (List.map_id _)
  obtain ⟨ms, h1, h2⟩ := C145_one_partial t ht order .byte m [] srcs _ [] inlibs hperm hc rfl hl.1
  obtain ⟨ms', h1', h2'⟩ := C145_one_partial t ht order .native m [] srcs _ [] inlibs hperm hc rfl hl.2
  have hu : ∀ {l a b : List Text}, Impls l a → Impls l b → a = b := by
    intro l a b ha
    induction ha generalizing b with
    | nil => intro hb; cases hb; rfl
    | skip hi _ ih => intro hb; cases hb with
      | skip _ hb => exact ih hb
      | keep hn _ => exact absurd hi hn
    | keep hn _ ih => intro hb; cases hb with
      | skip hi _ => exact absurd hi hn
      | keep _ hb => rw [ih hb]
  obtain rfl := hu h1 h1'
  refine ⟨ms, h1, ?_⟩
  rw [List.nil_append] at h2 h2'
  simp only [bothBuild, both]
  rw [hs _ (fun _ => rfl), hs _ (fun _ => rfl), h2, h2']
  rfl

/-- **C145**, linking pairs: each linker gets the files of its kind.  Partial: `includes` is given. -/
theorem C145_link_partial (t : Tools) (ht : Right t) (m : Mode) (objs libs : List (Arg File)) (own inlibs : List Text)
    (ho : Pairs inObjects objs own) (hl : Pairs inLibs libs inlibs) :
    bothLink t m true objs libs = some (.linked .byte m (whole m inlibs own), .linked .native m (whole m inlibs own)) := by
  simp only [bothLink, both, link, if_true, ht.link, no_cmi ho.1, no_cmi ho.2, ho.1, ho.2]
  cases m with
  | lib => simp [inLibs, whole]
  | exe => simp [hl.1, hl.2, whole]

/-- **C145** is false for linking without `includes`: there is a `TypeError` whatever the files. -/
theorem C145_includes_violated (t : Tools) (m : Mode) (objs libs : List (Arg File)) : bothLink t m false objs libs = none := rfl

/-- **C145**: if one of the sources cannot be compiled, by the compilers of both kinds, then nothing is made of the others. -/
theorem C145_fails (t : Tools) (order : List Text → List Text) (k : Kind) (m : Mode) (pack : Bool) (objs : List File)
    (srcs : List Text) (libs : List File) (hperm : (order srcs).Perm srcs) (s : Text) (hs : s ∈ srcs) (hf : ∀ k, t.compile k s = none) :
    buildObjects t order k srcs = none ∧ buildPack t order k objs srcs = none ∧ buildLink t order k m pack objs srcs libs = none := by
  have he : ∀ l : List Text, s ∈ l → every (compile t k) l = none := by
    intro l
    induction l with
    | nil => simp
    | cons x l ih =>
      intro h
      rw [every]
      rcases List.mem_cons.1 h with rfl | h
      · have : compile t k s = none := by unfold compile; split <;> exact hf _
        rw [this]
      · rw [ih h]
        cases compile t k x <;> rfl
  have h1 : buildObjects t order k srcs = none := he _ (hperm.mem_iff.2 hs)
  have h2 : buildPack t order k objs srcs = none := by simp only [buildPack, h1]
  refine ⟨h1, h2, ?_⟩
  cases pack <;> simp [buildLink, h1, h2]

/-- **C145** is false for `Ocaml.compile`: it never returns anything. -/
theorem C145_compile_violated (t : Tools) (src : Text) : ∀ b n, bothCompile t src ≠ .pair b n := by
  intro b n
  unfold bothCompile
  split <;> simp

/-- **C145** is false for the objects of `Ocaml.build_objects`: if there is a source that is not an interface they cannot be linked. -/
theorem C145_objects_violated (t : Tools) (ht : Right t) (order : List Text → List Text) (m : Mode) (srcs : List Text) (libs : List (Arg File))
    (hperm : (order srcs).Perm srcs) (hc : Compiles t srcs) (s : Text) (hs : s ∈ srcs) (hn : ¬ Interface s) :
    ∃ os, bothObjects t order srcs = some os ∧ bothLink t m true (os.map .one) libs = none := by
  have hc' : Compiles t (order srcs) := fun s hs => hc s (hperm.mem_iff.1 hs)
  obtain ⟨os1, ms, h1, h2, h3⟩ := objects_made ht .byte hc'
  obtain ⟨os2, ms', h1', h2', h3'⟩ := objects_made ht .native hc'
  refine ⟨os1 ++ os2, ?_, ?_⟩
  · have e1 : buildObjects t order .byte srcs = some os1 := h1
    have e2 : buildObjects t order .native srcs = some os2 := h1'
    simp only [bothObjects, e1, e2, Option.map_some]
  · have hne : ms' ≠ [] := by
      have : ∀ {l a : List Text}, Impls l a → s ∈ l → a ≠ [] := by
        intro l a ha
        induction ha with
        | nil => intro h; cases h
        | skip hi _ ih =>
          intro h
          rcases List.mem_cons.1 h with rfl | h
          · exact absurd hi hn
          · exact ih h
        | keep _ _ _ => intro _; simp
      exact this h2' (hperm.mem_iff.2 hs)
    have hno : inObjects .byte (os2.filter fun o => !isCmi o) = none := by
      generalize os2.filter (fun o => !isCmi o) = l at h3'
      cases l with
      | nil => cases h3'; exact absurd rfl hne
      | cons f l =>
        cases f with
        | cmi _ => rfl
        | linked _ _ _ => rfl
        | obj k s =>
          rw [inObjects] at h3' ⊢
          split at h3'
          · subst k
            rfl
          · cases h3'
    have hmap : ((os1 ++ os2).map Arg.one).map Arg.byte = os1 ++ os2 := by
      rw [List.map_map]
      exact List.map_id _
    have hlast : inObjects .byte ((os1 ++ os2).filter fun o => !isCmi o) = none := by
      rw [List.filter_append, inObjects_append, hno]
      cases inObjects .byte (os1.filter fun o => !isCmi o) <;> rfl
    have hb : ∀ ls, link t .byte m true (os1 ++ os2) ls = none := by
      intro ls
      rw [link, if_pos rfl, ht.link, hlast]
      split <;> first | rfl | (rename_i h; cases h)
    simp only [bothLink, both, hmap, hb]

/-- **C145** is false for a packed object with a buildroot in the call: it is below that of the context (if none of the two is the beginning
of the other). -/
theorem C145_root_violated (root b dst suffix : Text) (h1 : ¬ root <+: b) (h2 : ¬ b <+: root) :
    root <+: packDst root (some b) dst suffix ∧ ¬ b <+: packDst root (some b) dst suffix := by
  have hr : ∀ x, root <+: addroot x root := by
    intro x
    unfold addroot
    split
    · exact List.isPrefixOf_iff_prefix.1 ‹_›
    · exact List.isPrefixOf_iff_prefix.1 (Path.prefix_join root _ (Path.inner_rel x))
  unfold packDst
  exact ⟨hr _, fun hb => (List.prefix_or_prefix_of_prefix (hr _) hb).elim h1 h2⟩

/-! ### Compilers for the examples -/

def someTools : Tools where
  compile k s := some (if isMli s then .cmi s else .obj k [s])
  pack k os := (inObjects k os).map (.obj k)
  link k m os ls := match inLibs k ls, inObjects k os with
    | some a, some b => some (.linked k m (a ++ b))
    | _, _ => none

theorem someTools_right : Right someTools where
  mli k s f h hi := by
    cases h
    rw [if_pos ((isMli_iff s).2 hi)]
  ml k s f h hi := by
    cases h
    rw [if_neg (fun x => hi ((isMli_iff s).1 x))]
  pack _ _ := rfl
  link _ _ _ _ := rfl

def exSrcs : List Text := ["b.ml".toList, "a.mli".toList, "a.ml".toList]
def exLibs : List (Arg File) := [.both (.linked .byte .lib ["l.ml".toList]) (.linked .native .lib ["l.ml".toList])]

/-- `C145_both_partial`: a program of two modules and a library -/
example : Compiles someTools exSrcs ∧ Pairs inLibs exLibs ["l.ml".toList] ∧
    bothBuild someTools List.reverse .exe false [] (exSrcs.map .one) exLibs =
      some (.linked .byte .exe ["l.ml".toList, "a.ml".toList, "b.ml".toList], .linked .native .exe ["l.ml".toList, "a.ml".toList, "b.ml".toList]) :=
  ⟨fun _ _ _ => rfl, ⟨by decide, by decide⟩, by decide +kernel⟩

/-- `C145_one_partial` and `C145_pack_violated`: with an object that is given -/
example : buildLink someTools List.reverse .native .lib false [.obj .native ["o.ml".toList]] exSrcs [] =
      some (.linked .native .lib ["o.ml".toList, "a.ml".toList, "b.ml".toList]) ∧
    buildLink someTools List.reverse .native .lib true [.obj .native ["o.ml".toList]] exSrcs [] =
      some (.linked .native .lib ["a.ml".toList, "b.ml".toList]) := by decide +kernel

/-- `C145_fails`: `a.ml` cannot be compiled -/
example : let t := { someTools with compile := fun k s => if s = "a.ml".toList then none else someTools.compile k s }
    (∀ k, t.compile k "a.ml".toList = none) ∧ (t.compile .byte "b.ml".toList).isSome ∧
    buildLink t List.reverse .byte .exe false [] exSrcs [] = none :=
  ⟨fun k => by cases k <;> decide +kernel, by decide +kernel, by decide +kernel⟩

/-- `C145_link_partial` -/
example : Pairs inObjects [.both (.obj .byte ["a.ml".toList]) (.obj .native ["a.ml".toList])] ["a.ml".toList] := ⟨by decide, by decide⟩

/-- `C145_objects_violated` -/
example : ("a.ml".toList ∈ exSrcs ∧ ¬ Interface "a.ml".toList) ∧
    bothObjects someTools List.reverse ["a.ml".toList] = some [.obj .byte ["a.ml".toList], .obj .native ["a.ml".toList]] := by
  refine ⟨⟨by decide, fun h => ?_⟩, by decide +kernel⟩
  exact absurd ((isMli_iff _).2 h) (by decide +kernel)

/-- `C145_root_violated`: the packed object is in `build/other` -/
example : packDst "build".toList (some "other".toList) "p".toList ".cmo".toList = "build/other/p.cmo".toList := by decide +kernel

end Verif.Ocaml.Both
