import Verif.Ocaml.Core
import Verif.Props.Gcc
import Verif.Props.Path
/-!
# OCaml and nm: properties

C71 (source dependencies), C72 (their closure), C74 (order of object files).  C73 and what the cache does to `scan` are in
`OcamlBuild.lean`.
-/
namespace Verif.Ocaml
open Verif.Posix Verif.Path

/-! ## C71 -/

/-- `n` is the file of module `m` with this suffix: the first letter may have either case -/
def ModuleFile (w : World) (m suffix n : Text) : Prop :=
  ∃ c rest, m = c :: rest ∧ (n = w.lower c :: rest ++ suffix ∨ n = w.upper c :: rest ++ suffix)

/-- an interface or an implementation -/
def Suffix (s : Text) : Prop := s = ".mli".toList ∨ s = ".ml".toList

theorem mem_suffix {s : Text} : s ∈ [mli, ml] ↔ Suffix s := by
  simp [Suffix, mli, ml]

theorem moduleFile_some {w : World} {names : List Text} {m s n : Text} (hm : m ≠ [])
    (h : moduleFile w names m s = some n) : n ∈ names ∧ ModuleFile w m s n := by
  obtain ⟨c, rest, rfl⟩ := List.exists_cons_of_ne_nil hm
  unfold moduleFile at h
  split at h
  · rename_i h1
    simp only [Option.some.injEq] at h
    subst h
    exact ⟨h1, c, rest, rfl, Or.inl rfl⟩
  · split at h
    · rename_i h1
      simp only [Option.some.injEq] at h
      subst h
      exact ⟨h1, c, rest, rfl, Or.inr rfl⟩
    · simp at h

theorem moduleFile_find {w : World} {names : List Text} {m s n : Text} (hn : n ∈ names)
    (hf : ModuleFile w m s n) : ∃ n', moduleFile w names m s = some n' := by
  obtain ⟨c, rest, rfl, h⟩ := hf
  unfold moduleFile
  split
  · exact ⟨_, rfl⟩
  · rename_i h1
    split
    · exact ⟨_, rfl⟩
    · rename_i h2
      rcases h with rfl | rfl
      · exact absurd hn h1
      · exact absurd hn h2

theorem mem_inNames {w : World} {names : List Text} {m n : Text} (hm : m ≠ []) (h : n ∈ inNames w names m) :
    ∃ s, Suffix s ∧ n ∈ names ∧ ModuleFile w m s n := by
  simp only [inNames, List.mem_filterMap] at h
  obtain ⟨s, hs, h⟩ := h
  exact ⟨s, mem_suffix.1 hs, moduleFile_some hm h⟩

theorem inNames_find {w : World} {names : List Text} {m s n : Text} (hs : Suffix s) (hn : n ∈ names)
    (hf : ModuleFile w m s n) : ∃ n', n' ∈ inNames w names m ∧ n' ∈ names ∧ ModuleFile w m s n' := by
  obtain ⟨n', h⟩ := moduleFile_find hn hf
  have hm : m ≠ [] := by obtain ⟨c, rest, rfl, _⟩ := hf; simp
  exact ⟨n', List.mem_filterMap.2 ⟨s, mem_suffix.2 hs, h⟩, moduleFile_some hm h⟩

/-- The files in which a module named by the file `src` may be found: `d` is a file of the module in the current directory,
or, if there is none, in one of the include directories. -/
def OfModule (w : World) (includes : List Text) (m s d : Text) : Prop :=
  (d ∈ w.cwd ∧ ModuleFile w m s d) ∨
  ((∀ s' n, Suffix s' → n ∈ w.cwd → ¬ ModuleFile w m s' n) ∧
    ∃ inc ∈ includes, ∃ names n, w.dirs inc = some names ∧ n ∈ names ∧ ModuleFile w m s n ∧ d = join inc n)

/-- **C71**: the files found are files of the modules that `src` refers to, or the interface of `src`. -/
theorem C71_sound {w : World} {includes : List Text} {root src : Text} {deps ms : List Text}
    (hms : w.modules src = some ms) (hne : ∀ m ∈ ms, m ≠ []) (h : sourceDeps w includes root src = some deps) :
    ∀ d ∈ deps, (∃ m ∈ ms, ∃ s, Suffix s ∧ OfModule w includes m s d) ∨
      (".ml".toList <:+ src ∧ w.exist d = true ∧
        (d = replaceext src ".mli".toList ∨ d = removeroot (replaceext src ".mli".toList) (root ++ ['/']) ∨
          ∃ inc ∈ includes, d = join inc (split (removeroot (replaceext src ".mli".toList) (root ++ ['/']))).2)) := by
  intro d hd
  simp only [sourceDeps, hms, Option.map_some, Option.some.injEq] at h
  subst h
  rcases List.mem_append.1 hd with hd | hd
  · left
    obtain ⟨m, hm, hd⟩ := List.mem_flatMap.1 hd
    refine ⟨m, hm, ?_⟩
    unfold moduleDeps at hd
    split at hd
    · obtain ⟨s, hs, h1, h2⟩ := mem_inNames (hne m hm) hd
      exact ⟨s, hs, Or.inl ⟨h1, h2⟩⟩
    · rename_i hnil
      simp only [ne_eq, Decidable.not_not] at hnil
      obtain ⟨inc, hi, hd⟩ := List.mem_flatMap.1 hd
      unfold inInclude at hd
      split at hd
      · simp at hd
      · rename_i names hdir
        obtain ⟨n, hn, rfl⟩ := List.mem_map.1 hd
        obtain ⟨s, hs, h1, h2⟩ := mem_inNames (hne m hm) hn
        refine ⟨s, hs, Or.inr ⟨?_, inc, hi, names, n, hdir, h1, h2, rfl⟩⟩
        intro s' n' hs' hn' hf
        obtain ⟨n2, h3, _⟩ := inNames_find hs' hn' hf
        rw [hnil] at h3
        cases h3
  · right
    unfold interface at hd
    by_cases he : endsWith src ml = true
    · rw [if_pos he] at hd
      have hsuf : ".ml".toList <:+ src := List.isSuffixOf_iff_suffix.1 he
      refine ⟨hsuf, ?_⟩
      simp only at hd
      by_cases h1 : w.exist (replaceext src mli) = true
      · rw [if_pos h1, List.mem_singleton] at hd
        subst hd
        exact ⟨h1, Or.inl rfl⟩
      · rw [if_neg h1] at hd
        by_cases h2 : w.exist (removeroot (replaceext src mli) (root ++ ['/'])) = true
        · rw [if_pos h2, List.mem_singleton] at hd
          subst hd
          exact ⟨h2, Or.inr (Or.inl rfl)⟩
        · rw [if_neg h2] at hd
          cases includes with
          | nil => cases hd
          | cons inc rest =>
            simp only at hd
            by_cases h3 : w.exist (join inc (split (removeroot (replaceext src mli) (root ++ ['/']))).2) = true
            · rw [if_pos h3, List.mem_singleton] at hd
              subst hd
              exact ⟨h3, Or.inr (Or.inr ⟨inc, List.mem_cons_self .., rfl⟩)⟩
            · rw [if_neg h3] at hd
              cases hd
    · rw [if_neg he] at hd
      cases hd

/-- **C71**: for each module that `src` refers to, its interface and its implementation are found in the current
directory, or, if neither is there, in every include directory that has them. -/
theorem C71_complete {w : World} {includes : List Text} {root src : Text} {deps ms : List Text}
    (hms : w.modules src = some ms) (h : sourceDeps w includes root src = some deps) :
    ∀ m ∈ ms, ∀ s, Suffix s →
      (∀ n ∈ w.cwd, ModuleFile w m s n → ∃ n' ∈ w.cwd, ModuleFile w m s n' ∧ n' ∈ deps) ∧
      ((∀ s' n, Suffix s' → n ∈ w.cwd → ¬ ModuleFile w m s' n) →
        ∀ inc ∈ includes, ∀ names n, w.dirs inc = some names → n ∈ names → ModuleFile w m s n →
          ∃ n' ∈ names, ModuleFile w m s n' ∧ join inc n' ∈ deps) := by
  simp only [sourceDeps, hms, Option.map_some, Option.some.injEq] at h
  subst h
  intro m hm s hs
  constructor
  · intro n hn hf
    obtain ⟨n', h1, h2, h3⟩ := inNames_find hs hn hf
    refine ⟨n', h2, h3, List.mem_append_left _ (List.mem_flatMap.2 ⟨m, hm, ?_⟩)⟩
    unfold moduleDeps
    rw [if_pos (fun hnil => by rw [hnil] at h1; cases h1)]
    exact h1
  · intro hno inc hi names n hdir hn hf
    obtain ⟨n', h1, h2, h3⟩ := inNames_find hs hn hf
    refine ⟨n', h2, h3, List.mem_append_left _ (List.mem_flatMap.2 ⟨m, hm, ?_⟩)⟩
    have hmne : m ≠ [] := by obtain ⟨c, rest, rfl, _⟩ := hf; simp
    unfold moduleDeps
    rw [if_neg]
    · refine List.mem_flatMap.2 ⟨inc, hi, ?_⟩
      unfold inInclude
      rw [hdir]
      exact List.mem_map.2 ⟨n', h1, rfl⟩
    · intro hne
      obtain ⟨x, hx⟩ := List.exists_mem_of_ne_nil _ hne
      obtain ⟨s', hs', h4, h5⟩ := mem_inNames hmne hx
      exact hno s' x hs' h4 h5

/-- **C71** (partial): the interface of an implementation is found if it is in the same directory, or in the place of
the file without the build directory.  Missing (and false): in the include directories. -/
theorem C71_interface_partial {w : World} {includes : List Text} {root stem : Text} {deps : List Text}
    (hs : splitext (stem ++ ".ml".toList) = (stem, ".ml".toList))
    (h : sourceDeps w includes root (stem ++ ".ml".toList) = some deps) :
    (w.exist (stem ++ ".mli".toList) = true → stem ++ ".mli".toList ∈ deps) ∧
    (∀ rel, stem = root ++ '/' :: rel → w.exist (stem ++ ".mli".toList) = false →
      w.exist (rel ++ ".mli".toList) = true → rel ++ ".mli".toList ∈ deps) := by
  simp only [sourceDeps, Option.map_eq_some_iff] at h
  obtain ⟨ms, _, rfl⟩ := h
  have hr : replaceext (stem ++ ml) mli = stem ++ mli := by
    have hs : splitext (stem ++ ml) = (stem, ml) := hs
    simp only [replaceext, hs]
  have he : endsWith (stem ++ ml) ml = true := by
    simp [endsWith]
  constructor
  · intro hx
    apply List.mem_append_right
    show stem ++ mli ∈ interface w includes root (stem ++ ml)
    have hx : w.exist (stem ++ mli) = true := hx
    simp only [interface]
    rw [if_pos he, hr, if_pos hx]
    simp
  · rintro rel rfl hx hy
    apply List.mem_append_right
    show rel ++ mli ∈ interface w includes root (root ++ '/' :: rel ++ ml)
    have hx : w.exist (root ++ '/' :: rel ++ mli) = false := hx
    have hy : w.exist (rel ++ mli) = true := hy
    have h2 : removeroot (root ++ '/' :: rel ++ mli) (root ++ ['/']) = rel ++ mli := by
      unfold removeroot
      have e : root ++ '/' :: rel ++ mli = (root ++ ['/']) ++ (rel ++ mli) := by simp
      rw [e, if_pos (by simp), List.drop_left]
    simp only [interface]
    rw [if_pos he, hr, h2, if_neg (by rw [hx]; simp), if_pos hy]
    simp

/-- `a.ml` refers to `B` and to `C`; `b.ml` and `B.mli` are in the current directory, `c.ml` in `lib` -/
def exWorld : World where
  cwd := ["a.ml".toList, "a.mli".toList, "b.ml".toList, "B.mli".toList]
  dirs := fun d => if d = "lib".toList then some ["c.ml".toList, "b.ml".toList] else none
  exist := fun p => p ∈ ["a.ml".toList, "a.mli".toList, "b.ml".toList, "B.mli".toList, "lib/c.ml".toList, "lib/b.ml".toList]
  modules := fun p => if p = "a.ml".toList then some ["B".toList, "C".toList, "List".toList] else some []
  lower := Char.toLower
  upper := Char.toUpper

example : sourceDeps exWorld ["none".toList, "lib".toList] "build".toList "a.ml".toList =
    some ["B.mli".toList, "b.ml".toList, "lib/c.ml".toList, "a.mli".toList] := by decide

/-- `x.ml` is in `src`, its interface in the second of two include directories -/
def exInterface : World where
  cwd := []
  dirs := fun d => if d = "inc1".toList then some [] else if d = "inc2".toList then some ["x.mli".toList] else none
  exist := fun p => p ∈ ["src/x.ml".toList, "inc2/x.mli".toList]
  modules := fun _ => some []
  lower := Char.toLower
  upper := Char.toUpper

/-- **C71** is false for interfaces in include directories: only the first directory is searched. -/
theorem C71_interface_violated : exInterface.exist "inc2/x.mli".toList = true ∧
    sourceDeps exInterface ["inc1".toList, "inc2".toList] "build".toList "src/x.ml".toList = some [] ∧
    sourceDeps exInterface ["inc2".toList, "inc1".toList] "build".toList "src/x.ml".toList =
      some ["inc2/x.mli".toList] := by decide

/-- **C71**: what `ocamldep -modules` prints for a file is read back: the name, a colon, the modules. -/
theorem C71_modules (file : Text) (ms : List Text) (hf : file ≠ []) (hb : ∀ c ∈ file, Gcc.isBlank c = false)
    (hm : ∀ m ∈ ms, m ≠ [] ∧ ∀ c ∈ m, Gcc.isSpace c = false) :
    parseModules (file ++ ':' :: (ms.flatMap (fun m => ' ' :: m)) ++ ['\n']) = some ms := by
  have hsp : ∀ m ∈ ms, ∀ c ∈ m, Gcc.isBlank c = false := by
    intro m h c hc
    have := (hm m h).2 c hc
    cases hx : Gcc.isBlank c with
    | false => rfl
    | true => simp [Gcc.isSpace, hx] at this
  generalize hF : ms.flatMap (fun m => ' ' :: m) = F
  have hword : (file ++ ':' :: F).takeWhile (fun c => !Gcc.isBlank c) = file ++ [':'] ∧
      (file ++ ':' :: F).dropWhile (fun c => !Gcc.isBlank c) = F := by
    have h1 : ∀ c ∈ file ++ [':'], (!Gcc.isBlank c) = true := by
      intro c hc
      rcases List.mem_append.1 hc with hc | hc
      · simp [hb c hc]
      · simp only [List.mem_singleton] at hc; subst hc; decide
    have e : file ++ ':' :: F = (file ++ [':']) ++ F := by simp
    rw [e, List.takeWhile_append_of_pos h1, List.dropWhile_append_of_pos h1]
    cases ms with
    | nil => simp at hF; subst hF; simp
    | cons m ms =>
      simp only [List.flatMap_cons, List.cons_append] at hF
      subst hF
      have : (!Gcc.isBlank ' ') = false := by decide
      simp [this]
  have hstrip : strip (file ++ ':' :: F ++ ['\n']) = file ++ ':' :: F := by
    unfold strip
    have h1 : (file ++ ':' :: F ++ ['\n']).dropWhile Gcc.isBlank = file ++ ':' :: F ++ ['\n'] := by
      obtain ⟨c, rest, rfl⟩ := List.exists_cons_of_ne_nil hf
      have := hb c (List.mem_cons_self ..)
      simp [this]
    rw [h1, List.reverse_append]
    have h2 : (file ++ ':' :: F).reverse.dropWhile Gcc.isBlank = (file ++ ':' :: F).reverse := by
      have hlast : ∃ pre c, file ++ ':' :: F = pre ++ [c] ∧ Gcc.isBlank c = false := by
        rcases List.eq_nil_or_concat ms with rfl | ⟨ms', m, rfl⟩
        · simp at hF; subst hF; exact ⟨file, ':', rfl, by decide⟩
        · obtain ⟨hne, _⟩ := hm m (by simp)
          rcases List.eq_nil_or_concat m with rfl | ⟨m', c, rfl⟩
          · exact absurd rfl hne
          · refine ⟨file ++ ':' :: (ms'.flatMap (fun m => ' ' :: m) ++ ' ' :: m'), c, ?_, hsp (m'.concat c) (by simp) c (by simp)⟩
            rw [← hF]; simp
      obtain ⟨pre, c, e, hc⟩ := hlast
      rw [e]
      simp [hc]
    have hn : Gcc.isBlank '\n' = true := by decide
    simp only [List.reverse_singleton, List.cons_append, List.nil_append, List.dropWhile_cons, hn, if_true]
    rw [h2, List.reverse_reverse]
  unfold parseModules
  simp only [hstrip, hword.1, hword.2]
  rw [if_pos]
  · have hsplit : ∀ (ms : List Text) (cur : Text), (∀ m ∈ ms, m ≠ [] ∧ ∀ c ∈ m, Gcc.isSpace c = false) →
        Gcc.splitBlank cur (ms.flatMap (fun m => ' ' :: m)) = (if cur = [] then [] else [cur]) ++ ms := by
      intro ms
      induction ms with
      | nil => intro cur _; simp [Gcc.splitBlank]
      | cons m ms ih =>
        intro cur h
        obtain ⟨h1, h2⟩ := h m (List.mem_cons_self ..)
        have ih' := ih m (fun x hx => h x (List.mem_cons_of_mem _ hx))
        simp only [List.flatMap_cons, List.cons_append]
        by_cases hc : cur = []
        · subst hc
          rw [Gcc.split_blank, Gcc.split_word _ _ _ h2, List.nil_append, ih']
          simp [h1]
        · rw [Gcc.split_after _ hc, Gcc.split_word _ _ _ h2, List.nil_append, ih']
          simp [h1, hc]
    cases ms with
    | nil => simp at hF; subst hF; rfl
    | cons m ms =>
      have hs := hsplit (m :: ms) [] hm
      rw [hF] at hs
      simp only [List.flatMap_cons, List.cons_append] at hF
      subst hF
      rw [Gcc.split_blank] at hs
      simp only
      rw [if_neg, hs]
      · simp
      · intro hn
        rcases List.mem_append.1 hn with hn | hn
        · have := hsp m (List.mem_cons_self ..) _ hn
          exact absurd this (by decide)
        · obtain ⟨m', h1, h2⟩ := List.mem_flatMap.1 hn
          rcases List.mem_cons.1 h2 with h2 | h2
          · exact absurd h2 (by decide)
          · have := hsp m' (List.mem_cons_of_mem _ h1) _ h2
            exact absurd this (by decide)
  · refine ⟨by simp, ?_⟩
    have : 1 ≤ file.length := by
      cases file with
      | nil => exact absurd rfl hf
      | cons => simp
    simp only [List.length_append, List.length_singleton]
    omega

example : parseModules "src/a.ml: B C List\n".toList = some ["B".toList, "C".toList, "List".toList] := by decide

/-! ## C72 -/

/-- `a` depends on `b`, in one or more steps -/
inductive Reaches (R : Text → Text → Prop) : Text → Text → Prop
  | one {a b : Text} : R a b → Reaches R a b
  | more {a b c : Text} : R a b → Reaches R b c → Reaches R a c

theorem Reaches.snoc {R : Text → Text → Prop} {a b c : Text} (h : Reaches R a b) (hr : R b c) : Reaches R a c := by
  induction h with
  | one h => exact .more h (.one hr)
  | more h _ ih => exact .more h (ih hr)

/-- `b` is among the source dependencies of `a` -/
def Refers (D : Text → Option (List Text)) (a b : Text) : Prop := ∃ ds, D a = some ds ∧ b ∈ ds

structure Visited (D : Text → Option (List Text)) (from' : Text → Prop) (old new : List Text) : Prop where
  grows : ∀ x ∈ old, x ∈ new
  closed : ∀ x ∈ new, x ∉ old → ∃ ds, D x = some ds ∧ ∀ d ∈ ds, d ∈ new
  sound : ∀ x ∈ new, x ∉ old → from' x

theorem visit_spec {D : Text → Option (List Text)} (n : Nat) : ∀ src old new, visit D n src old = some new →
    (∃ ds, D src = some ds ∧ ∀ d ∈ ds, d ∈ new) ∧ Visited D (Reaches (Refers D) src) old new := by
  induction n with
  | zero => intro src old new h; simp [visit] at h
  | succ n ih =>
    intro src old new h
    simp only [visit] at h
    cases hd : D src with
    | none => rw [hd] at h; simp at h
    | some all =>
      rw [hd] at h
      simp only at h
      have key : ∀ ds old new, (∀ d ∈ ds, d ∈ all) → eachNew (visit D n) ds old = some new →
          (∀ d ∈ ds, d ∈ new) ∧ Visited D (Reaches (Refers D) src) old new := by
        intro ds
        induction ds with
        | nil =>
          intro old new _ h
          simp only [eachNew, Option.some.injEq] at h
          subst h
          exact ⟨by simp, ⟨fun _ h => h, fun x h h' => absurd h h', fun x h h' => absurd h h'⟩⟩
        | cons d ds ihd =>
          intro old new hsub h
          simp only [eachNew] at h
          have hsub' : ∀ d ∈ ds, d ∈ all := fun x hx => hsub x (List.mem_cons_of_mem _ hx)
          split at h
          · rename_i hin
            obtain ⟨h1, h2⟩ := ihd old new hsub' h
            refine ⟨?_, h2⟩
            intro x hx
            rcases List.mem_cons.1 hx with rfl | hx
            · exact h2.grows _ hin
            · exact h1 x hx
          · cases hv : visit D n d (old ++ [d]) with
            | none => rw [hv] at h; simp at h
            | some mid =>
              rw [hv] at h
              simp only at h
              obtain ⟨⟨ds', e1, e2⟩, g⟩ := ih d (old ++ [d]) mid hv
              obtain ⟨h1, h2⟩ := ihd mid new hsub' h
              have hdm : d ∈ mid := g.grows d (by simp)
              have hone : Reaches (Refers D) src d := .one ⟨all, hd, hsub d (List.mem_cons_self ..)⟩
              refine ⟨?_, ?_, ?_, ?_⟩
              · intro x hx
                rcases List.mem_cons.1 hx with rfl | hx
                · exact h2.grows _ hdm
                · exact h1 x hx
              · exact fun x hx => h2.grows _ (g.grows _ (by simp [hx]))
              · intro x hx ho
                by_cases hxm : x ∈ mid
                · by_cases hxd : x = d
                  · subst hxd
                    exact ⟨ds', e1, fun y hy => h2.grows _ (e2 y hy)⟩
                  · obtain ⟨ds2, f1, f2⟩ := g.closed x hxm (by simp [ho, hxd])
                    exact ⟨ds2, f1, fun y hy => h2.grows _ (f2 y hy)⟩
                · exact h2.closed x hx hxm
              · intro x hx ho
                by_cases hxm : x ∈ mid
                · by_cases hxd : x = d
                  · subst hxd; exact hone
                  · exact .more ⟨all, hd, hsub d (List.mem_cons_self ..)⟩ (g.sound x hxm (by simp [ho, hxd]))
                · exact h2.sound x hx hxm
      obtain ⟨h1, h2⟩ := key all old new (fun _ h => h) h
      exact ⟨⟨all, rfl, h1⟩, h2⟩

/-- **C72**: `Ocamlopt.scan` gives exactly the files on which `src` depends, directly or through other files. -/
theorem C72_native {D : Text → Option (List Text)} {limit : Nat} {src : Text} {files : List Text}
    (h : scanNative D limit src = some files) : ∀ x, x ∈ files ↔ Reaches (Refers D) src x := by
  obtain ⟨⟨ds, h1, h2⟩, g⟩ := visit_spec limit src [] files h
  intro x
  constructor
  · exact fun hx => g.sound x hx (by simp)
  · intro hr
    have key : ∀ a, Reaches (Refers D) a x → (∃ ds, D a = some ds ∧ ∀ d ∈ ds, d ∈ files) → x ∈ files := by
      clear hr h1 h2 ds
      intro a hr
      induction hr with
      | one hr =>
        rintro ⟨ds, e1, e2⟩
        obtain ⟨ds', e3, e4⟩ := hr
        rw [e1] at e3; cases e3
        exact e2 _ e4
      | more hr _ ih =>
        rintro ⟨ds, e1, e2⟩
        obtain ⟨ds', e3, e4⟩ := hr
        rw [e1] at e3; cases e3
        exact ih (g.closed _ (e2 _ e4) (by simp))
    exact key src hr ⟨ds, h1, h2⟩

/-- **C72**: `Ocamlopt.scan` ends, also if files refer to each other, if the number of files is below the recursion limit
and the source dependencies of each can be found. -/
theorem C72_native_total {D : Text → Option (List Text)} {limit : Nat} {src : Text} (all : List Text)
    (hall : ∀ x, Reaches (Refers D) src x → x ∈ all) (hD : ∀ x, x = src ∨ Reaches (Refers D) src x → (D x).isSome)
    (hlim : all.length < limit) : ∃ files, scanNative D limit src = some files := by
  have hlt : ∀ (old : List Text) d, d ∈ all → d ∉ old →
      (all.filter (fun x => decide (x ∉ old ++ [d]))).length < (all.filter (fun x => decide (x ∉ old))).length := by
    intro old d hd ho
    have e : (fun x => decide (x ∉ old ++ [d])) = fun x => decide (x ∉ old) && !decide (x = d) := by
      funext x; by_cases h1 : x ∈ old <;> by_cases h2 : x = d <;> simp [h1, h2]
    rw [e]
    have e2 : all.filter (fun x => decide (x ∉ old) && !decide (x = d)) =
        (all.filter (fun x => decide (x ∉ old))).filter (fun x => !decide (x = d)) := by
      rw [List.filter_filter]; congr 1; funext x; exact Bool.and_comm ..
    rw [e2]
    exact List.length_filter_lt_length_iff_exists.2 ⟨d, by simp [hd, ho], by simp⟩
  have hmono : ∀ (old new : List Text), (∀ x ∈ old, x ∈ new) →
      (all.filter (fun x => decide (x ∉ new))).length ≤ (all.filter (fun x => decide (x ∉ old))).length := by
    intro old new h
    have e : all.filter (fun x => decide (x ∉ new)) =
        (all.filter (fun x => decide (x ∉ old))).filter (fun x => decide (x ∉ new)) := by
      rw [List.filter_filter]
      congr 1
      funext x
      by_cases h1 : x ∈ old
      · simp [h1, h x h1]
      · simp [h1]
    rw [e]
    exact List.length_filter_le ..
  have key : ∀ n x old, (x = src ∨ Reaches (Refers D) src x) →
      (all.filter (fun x => decide (x ∉ old))).length < n → ∃ new, visit D n x old = some new := by
    intro n
    induction n with
    | zero => intro x old _ h; omega
    | succ n ih =>
      intro x old hx h
      obtain ⟨xs, hxs⟩ := Option.isSome_iff_exists.1 (hD x hx)
      simp only [visit, hxs]
      have hreach : ∀ d ∈ xs, Reaches (Refers D) src d := by
        intro d hd
        rcases hx with rfl | hx
        · exact .one ⟨xs, hxs, hd⟩
        · exact hx.snoc ⟨xs, hxs, hd⟩
      have hn : (all.filter (fun x => decide (x ∉ old))).length ≤ n := by omega
      clear h hxs
      induction xs generalizing old with
      | nil => exact ⟨old, rfl⟩
      | cons d xs ihx =>
        have hr' : ∀ d ∈ xs, Reaches (Refers D) src d := fun y hy => hreach y (List.mem_cons_of_mem _ hy)
        simp only [eachNew]
        split
        · exact ihx old hr' hn
        · rename_i hdo
          have hd := hreach d (List.mem_cons_self ..)
          obtain ⟨mid, hm⟩ := ih d (old ++ [d]) (Or.inr hd) (by have := hlt old d (hall d hd) hdo; omega)
          rw [hm]
          refine ihx mid hr' ?_
          have hg := (visit_spec n d (old ++ [d]) mid hm).2.grows
          have := hmono old mid (fun y hy => hg y (by simp [hy]))
          omega
  refine key limit src [] (Or.inl rfl) ?_
  have := List.length_filter_le (fun x => decide (x ∉ ([] : List Text))) all
  omega

/-- `b` is among the source dependencies of `a`, and is an interface or has no interface among them -/
def Uses (D : Text → Option (List Text)) (a b : Text) : Prop :=
  ∃ ds, D a = some ds ∧ b ∈ ds ∧ ((splitext b).2 = ".mli".toList ∨ (splitext b).1 ++ ".mli".toList ∉ ds)

theorem get?_of_mem {t : Dict Text Text} (hn : (Dict.keys t).Nodup) {k v : Text} (h : (k, v) ∈ t) :
    t.get? k = some v := by
  induction t with
  | nil => cases h
  | cons p t ih =>
    obtain ⟨k', v'⟩ := p
    simp only [Dict.keys, List.map_cons, List.nodup_cons] at hn
    simp only [Dict.get?]
    rcases List.mem_cons.1 h with h | h
    · cases h; simp
    · split
      · rename_i hk
        subst hk
        exact absurd (List.mem_map.2 ⟨_, h, rfl⟩) hn.1
      · exact ih hn.2 h

/-- the table `lookup` after some of the dependencies -/
structure Looked (ds : List Text) (t : Dict Text Text) : Prop where
  nodup : (Dict.keys t).Nodup
  sound : ∀ k v, t.get? k = some v → v ∈ ds ∧ (splitext v).1 = k ∧ ((splitext v).2 = mli ∨ k ++ mli ∉ ds)
  complete : ∀ d ∈ ds, ((splitext d).2 = mli ∨ (splitext d).1 ++ mli ∉ ds) → t.get? (splitext d).1 = some d
  some : ∀ d ∈ ds, (t.get? (splitext d).1).isSome

theorem lookup_spec (ds : List Text) (hs : ∀ d ∈ ds, Suffix (splitext d).2) : Looked ds (lookup ds) := by
  have key : ∀ l2 l1 t, (∀ d ∈ l1 ++ l2, Suffix (splitext d).2) → Looked l1 t →
      Looked (l1 ++ l2) (l2.foldl (fun t dep =>
        if (splitext dep).2 = mli ∨ (t.get? (splitext dep).1).isNone then t.set (splitext dep).1 dep else t) t) := by
    intro l2
    induction l2 with
    | nil => intro l1 t _ h; simpa using h
    | cons d l2 ih =>
      intro l1 t hs h
      have e : l1 ++ d :: l2 = (l1 ++ [d]) ++ l2 := by simp
      rw [e] at hs ⊢
      simp only [List.foldl_cons]
      refine ih (l1 ++ [d]) _ hs ?_
      have hd := splitext_append d
      -- a file is given by its stem and its suffix
      have hsame : ∀ x : Text, (splitext x).1 = (splitext d).1 → (splitext x).2 = (splitext d).2 → x = d := by
        intro x h1 h2
        rw [← splitext_append x, ← splitext_append d, h1, h2]
      by_cases hm : (splitext d).2 = mli
      · rw [if_pos (Or.inl hm)]
        rw [hm] at hd
        refine ⟨Dict.nodup_set _ _ h.nodup, ?_, ?_, ?_⟩
        · intro k v hv
          rw [Dict.get?_set] at hv
          split at hv
          · rename_i hk
            cases hv
            exact ⟨by simp, hk, Or.inl hm⟩
          · rename_i hk
            obtain ⟨h1, h2, h3⟩ := h.sound k v hv
            refine ⟨by simp [h1], h2, h3.imp id ?_⟩
            intro h4 h5
            rcases List.mem_append.1 h5 with h5 | h5
            · exact h4 h5
            · simp only [List.mem_singleton] at h5
              rw [← hd] at h5
              exact hk (List.append_cancel_right h5).symm
        · intro x hx hc
          rw [Dict.get?_set]
          split
          · rename_i hk
            rcases hc with hc | hc
            · rw [hsame x hk.symm (hc.trans hm.symm)]
            · rw [← hk, hd] at hc
              exact absurd (by simp) hc
          · rename_i hk
            rcases List.mem_append.1 hx with hx | hx
            · exact h.complete x hx (hc.imp id (fun h4 h5 => h4 (by simp [h5])))
            · simp only [List.mem_singleton] at hx
              subst hx; exact absurd rfl hk
        · intro x hx
          rw [Dict.get?_set]
          split
          · rfl
          · rename_i hk
            rcases List.mem_append.1 hx with hx | hx
            · exact h.some x hx
            · simp only [List.mem_singleton] at hx
              subst hx; exact absurd rfl hk
      · have hml : (splitext d).2 = ml := by
          rcases hs d (by simp) with h1 | h1
          · exact absurd h1 hm
          · exact h1
        -- the file is an implementation: whether some interface is known does not change
        have hmem : ∀ k, k ++ mli ∈ l1 ++ [d] ↔ k ++ mli ∈ l1 := by
          intro k
          simp only [List.mem_append, List.mem_singleton]
          constructor
          · rintro (h1 | h1)
            · exact h1
            · exfalso
              have h2 := congrArg List.reverse (h1.trans hd.symm)
              rw [hml] at h2
              simp [mli, ml] at h2
          · exact Or.inl
        by_cases hn : (t.get? (splitext d).1).isNone = true
        · rw [if_pos (Or.inr hn)]
          have hfresh : ∀ x ∈ l1, (splitext x).1 ≠ (splitext d).1 := by
            intro x hx he
            have := h.some x hx
            rw [he] at this
            simp [Option.isNone_iff_eq_none.1 hn] at this
          refine ⟨Dict.nodup_set _ _ h.nodup, ?_, ?_, ?_⟩
          · intro k v hv
            rw [Dict.get?_set] at hv
            split at hv
            · rename_i hk
              cases hv
              refine ⟨by simp, hk, Or.inr ?_⟩
              rw [hmem]
              intro h5
              -- an interface of the same stem would be in the table
              have h6 := splitext_append (k ++ mli)
              rcases hs (k ++ mli) (by simp [h5]) with h7 | h7
              · rw [h7] at h6
                exact hfresh _ h5 ((List.append_cancel_right h6).trans hk.symm)
              · have h8 := congrArg List.reverse h6
                rw [h7] at h8
                simp [mli] at h8
            · obtain ⟨h1, h2, h3⟩ := h.sound k v hv
              exact ⟨by simp [h1], h2, h3.imp id (fun h4 => by rw [hmem]; exact h4)⟩
          · intro x hx hc
            rw [Dict.get?_set]
            rcases List.mem_append.1 hx with hx | hx
            · rw [if_neg (fun hk => hfresh x hx hk.symm)]
              exact h.complete x hx (hc.imp id (fun h4 => by rw [hmem] at h4; exact h4))
            · simp only [List.mem_singleton] at hx
              subst hx; simp
          · intro x hx
            rw [Dict.get?_set]
            split
            · rfl
            · rename_i hk
              rcases List.mem_append.1 hx with hx | hx
              · exact h.some x hx
              · simp only [List.mem_singleton] at hx
                subst hx; exact absurd rfl hk
        · rw [if_neg (by simp [hm, hn])]
          have hsome : (t.get? (splitext d).1).isSome := by
            simpa [Option.isSome_iff_ne_none, Option.isNone_iff_eq_none] using hn
          refine ⟨h.nodup, ?_, ?_, ?_⟩
          · intro k v hv
            obtain ⟨h1, h2, h3⟩ := h.sound k v hv
            exact ⟨by simp [h1], h2, h3.imp id (fun h4 => by rw [hmem]; exact h4)⟩
          · intro x hx hc
            have hc : (splitext x).2 = mli ∨ (splitext x).1 ++ mli ∉ l1 := hc.imp id (fun h4 => by rw [hmem] at h4; exact h4)
            rcases List.mem_append.1 hx with hx | hx
            · exact h.complete x hx hc
            · simp only [List.mem_singleton] at hx
              subst hx
              obtain ⟨v, hv⟩ := Option.isSome_iff_exists.1 hsome
              obtain ⟨h1, h2, h3⟩ := h.sound _ v hv
              rw [hv]
              rcases hs v (by simp [h1]) with h4 | h4
              · -- then its interface is known
                rcases hc with hc | hc
                · exact absurd hc hm
                · have : (splitext x).1 ++ mli = v := by
                    rw [← splitext_append v, h2, h4]; rfl
                  rw [this] at hc; exact absurd (by simp [h1]) hc
              · rw [hsame v h2 (h4.trans hml.symm)]
          · intro x hx
            rcases List.mem_append.1 hx with hx | hx
            · exact h.some x hx
            · simp only [List.mem_singleton] at hx
              subst hx; exact hsome
  have := key ds [] [] (by simpa using hs) ⟨by simp [Dict.keys], by simp, by simp, by simp⟩
  simpa [lookup] using this

/-- the files that the loop of `scan` goes through are the ones of `Uses` -/
theorem mem_lookup (ds : List Text) (hs : ∀ d ∈ ds, Suffix (splitext d).2) (x : Text) :
    x ∈ (lookup ds).map Prod.snd ↔ x ∈ ds ∧ ((splitext x).2 = mli ∨ (splitext x).1 ++ mli ∉ ds) := by
  have h := lookup_spec ds hs
  constructor
  · intro hx
    obtain ⟨⟨k, v⟩, h1, rfl⟩ := List.mem_map.1 hx
    obtain ⟨h2, h3, h4⟩ := h.sound k v (get?_of_mem h.nodup h1)
    subst h3
    exact ⟨h2, h4⟩
  · rintro ⟨h1, h2⟩
    exact List.mem_map.2 ⟨_, Dict.mem_of_get? (h.complete x h1 h2), rfl⟩

theorem mem_eachDep (f : Text → Option (List Text)) (ds deps out : List Text) (h : eachDep f ds deps = some out) (x : Text) :
    x ∈ out ↔ x ∈ deps ∨ x ∈ ds ∨ ∃ d ∈ ds, ∃ s, f d = some s ∧ x ∈ s := by
  induction ds generalizing deps with
  | nil => simp only [eachDep, Option.some.injEq] at h; subst h; simp
  | cons d ds ih =>
    simp only [eachDep] at h
    split at h
    · cases h
    · rename_i s hs
      rw [ih _ h]
      simp only [List.mem_append, List.mem_cons]
      constructor
      · rintro ((h | h | h) | h | ⟨d', h1, h2⟩)
        · exact Or.inl h
        · exact Or.inr (Or.inl (Or.inl h))
        · exact Or.inr (Or.inr ⟨d, Or.inl rfl, s, hs, h⟩)
        · exact Or.inr (Or.inl (Or.inr h))
        · exact Or.inr (Or.inr ⟨d', Or.inr h1, h2⟩)
      · rintro (h | (h | h) | ⟨d', rfl | h1, s', h2, h3⟩)
        · exact Or.inl (Or.inl h)
        · exact Or.inl (Or.inr (Or.inl h))
        · exact Or.inr (Or.inl h)
        · rw [hs] at h2; cases h2
          exact Or.inl (Or.inr (Or.inr h3))
        · exact Or.inr (Or.inr ⟨d', h1, s', h2, h3⟩)

theorem eachDep_all (f : Text → Option (List Text)) (ds deps out : List Text) (h : eachDep f ds deps = some out) :
    ∀ d ∈ ds, (f d).isSome := by
  induction ds generalizing deps with
  | nil => simp
  | cons d ds ih =>
    simp only [eachDep] at h
    split at h
    · cases h
    · rename_i s hs
      intro x hx
      rcases List.mem_cons.1 hx with rfl | hx
      · simp [hs]
      · exact ih _ h x hx

/-- **C72**, bytecode: what `scan` returns is every file reached through dependencies, where an implementation that has
its interface beside it in the list does not count. -/
theorem C72_byte (D : Text → Option (List Text)) (hs : ∀ a ds, D a = some ds → ∀ d ∈ ds, Suffix (splitext d).2)
    (limit : Nat) (src : Text) (files : List Text) (h : scanByte D limit src = some files) (x : Text) :
    x ∈ files ↔ Reaches (Uses D) src x := by
  have hu : ∀ a ds, D a = some ds → ∀ x, x ∈ (lookup ds).map Prod.snd ↔ Uses D a x := by
    intro a ds ha x
    rw [mem_lookup ds (hs a ds ha)]
    constructor
    · rintro ⟨h1, h2⟩; exact ⟨ds, ha, h1, h2⟩
    · rintro ⟨ds', ha', h1, h2⟩
      rw [ha] at ha'; cases ha'
      exact ⟨h1, h2⟩
  induction limit generalizing src files with
  | zero => cases h
  | succ n ih =>
    simp only [scanByte] at h
    split at h
    · cases h
    · rename_i ds hds
      rw [mem_eachDep _ _ _ _ h]
      have hall := eachDep_all _ _ _ _ h
      constructor
      · rintro (h1 | h1 | ⟨d, h1, s, h2, h3⟩)
        · cases h1
        · exact .one ((hu _ _ hds _).1 h1)
        · exact .more ((hu _ _ hds _).1 h1) ((ih d s h2).1 h3)
      · intro hr
        right
        cases hr with
        | one h1 => exact Or.inl ((hu _ _ hds _).2 h1)
        | more h1 h2 =>
          rename_i b
          have hb := (hu _ _ hds _).2 h1
          obtain ⟨s, hsm⟩ := Option.isSome_iff_exists.1 (hall b hb)
          exact Or.inr ⟨b, hb, s, hsm, (ih b s hsm).2 h2⟩

/-- **C72**, bytecode: when the files do not refer to each other in a circle, `scan` returns. -/
theorem C72_byte_total_partial (D : Text → Option (List Text)) (hs : ∀ a ds, D a = some ds → ∀ d ∈ ds, Suffix (splitext d).2)
    (src : Text) (hD : ∀ x, x = src ∨ Reaches (Uses D) src x → (D x).isSome)
    (rank : Text → Nat) (hrank : ∀ a b, Uses D a b → rank b < rank a) (limit : Nat) (hlim : rank src < limit) :
    ∃ files, scanByte D limit src = some files := by
  induction limit generalizing src with
  | zero => omega
  | succ n ih =>
    obtain ⟨ds, hds⟩ := Option.isSome_iff_exists.1 (hD src (Or.inl rfl))
    simp only [scanByte, hds]
    have hall : ∀ d ∈ (lookup ds).map Prod.snd, ∃ files, scanByte D n d = some files := by
      intro d hd
      have hu : Uses D src d := by
        obtain ⟨h1, h2⟩ := (mem_lookup ds (hs src ds hds) d).1 hd
        exact ⟨ds, hds, h1, h2⟩
      refine ih d ?_ (by have := hrank _ _ hu; omega)
      rintro x (rfl | hx)
      · exact hD _ (Or.inr (.one hu))
      · exact hD _ (Or.inr (.more hu hx))
    generalize (lookup ds).map Prod.snd = l at hall
    have key : ∀ deps, ∃ files, eachDep (scanByte D n) l deps = some files := by
      induction l with
      | nil => intro deps; exact ⟨deps, rfl⟩
      | cons d l ihl =>
        intro deps
        obtain ⟨f, hf⟩ := hall d (List.mem_cons_self ..)
        simp only [eachDep, hf]
        exact ihl (fun x hx => hall x (List.mem_cons_of_mem _ hx)) _
    exact key []

/-- `a.ml` refers to `b.ml` and `b.mli`, `b.mli` to `c.ml` -/
def exDeps (s : Text) : Option (List Text) :=
  if s = "a.ml".toList then some ["b.mli".toList, "b.ml".toList]
  else if s = "b.mli".toList then some ["c.ml".toList]
  else if s = "b.ml".toList then some ["c.ml".toList, "b.mli".toList]
  else some []

set_option maxRecDepth 20000 in
example : scanNative exDeps 5 "a.ml".toList = some ["b.mli".toList, "c.ml".toList, "b.ml".toList] := by decide +kernel
set_option maxRecDepth 20000 in
example : scanByte exDeps 5 "a.ml".toList = some ["b.mli".toList, "c.ml".toList] := by decide +kernel
example : ∀ a ds, exDeps a = some ds → ∀ d ∈ ds, Suffix (splitext d).2 := by
  intro a ds h
  simp only [exDeps] at h
  split at h
  · cases h; intro d hd; simp only [List.mem_cons, List.not_mem_nil, or_false] at hd
    rcases hd with rfl | rfl
    · exact Or.inl (by decide)
    · exact Or.inr (by decide)
  · split at h
    · cases h; intro d hd; simp only [List.mem_cons, List.not_mem_nil, or_false] at hd
      subst hd; exact Or.inr (by decide)
    · split at h
      · cases h; intro d hd; simp only [List.mem_cons, List.not_mem_nil, or_false] at hd
        rcases hd with rfl | rfl
        · exact Or.inr (by decide)
        · exact Or.inl (by decide)
      · cases h; intro d hd; cases hd

/-- Two implementations without interfaces that refer to each other. -/
def exCircle (s : Text) : Option (List Text) :=
  if s = "a.ml".toList then some ["b.ml".toList] else some ["a.ml".toList]

set_option maxRecDepth 20000 in
/-- **C72**, bytecode: on files that refer to each other the scan recurses without end, whatever the limit; the scan for
native code ends and names both. -/
theorem C72_cycle_violated : (∀ limit, scanByte exCircle limit "a.ml".toList = none) ∧
    scanNative exCircle 4 "a.ml".toList = some ["b.ml".toList, "a.ml".toList] := by
  refine ⟨?_, by decide +kernel⟩
  have key : ∀ limit, scanByte exCircle limit "a.ml".toList = none ∧ scanByte exCircle limit "b.ml".toList = none := by
    intro limit
    induction limit with
    | zero => exact ⟨rfl, rfl⟩
    | succ n ih =>
      have ha : exCircle "a.ml".toList = some ["b.ml".toList] := by decide
      have hb : exCircle "b.ml".toList = some ["a.ml".toList] := by decide
      have la : (lookup ["b.ml".toList]).map Prod.snd = ["b.ml".toList] := by decide
      have lb : (lookup ["a.ml".toList]).map Prod.snd = ["a.ml".toList] := by decide
      constructor
      · simp only [scanByte, ha, la, eachDep, ih.2]
      · simp only [scanByte, hb, lb, eachDep, ih.1]
  exact fun limit => (key limit).1

/-! ## C74 -/

/-- **C74**, what `nm -P` says about an object: each line gives a symbol and a letter. -/
theorem C74_symbols (lines : List (Text × Char × Text))
    (h : ∀ l ∈ lines, l.1 ≠ [] ∧ ∀ c ∈ l.1, Gcc.isBlank c = false) :
    nmSymbols (lines.map (fun l => l.1 ++ ' ' :: l.2.1 :: l.2.2)) =
      (lines.filterMap (fun l => if l.2.1 ∈ "ABCDGRST".toList then some l.1 else none),
       lines.filterMap (fun l => if l.2.1 = 'U' then some l.1 else none)) := by
  have hl : ∀ l ∈ lines, nmLine (l.1 ++ ' ' :: l.2.1 :: l.2.2) =
      if l.2.1 ∈ "ABCDGRSTU".toList then some (l.1, decide (l.2.1 = 'U')) else none := by
    intro l hl
    obtain ⟨h1, h2⟩ := h l hl
    have h3 : ∀ c ∈ l.1, (!Gcc.isBlank c) = true := fun c hc => by simp [h2 c hc]
    have hb : (!Gcc.isBlank ' ') = false := by decide
    unfold nmLine
    rw [List.takeWhile_append_of_pos h3, List.dropWhile_append_of_pos h3]
    generalize "ABCDGRSTU".toList = S
    simp [hb, h1]
  have hmem : ∀ c : Char, c ∈ "ABCDGRSTU".toList ↔ c ∈ "ABCDGRST".toList ∨ c = 'U' := by
    intro c
    have : "ABCDGRSTU".toList = "ABCDGRST".toList ++ ['U'] := by decide
    rw [this, List.mem_append, List.mem_singleton]
  have hU : 'U' ∉ "ABCDGRST".toList := by decide
  generalize "ABCDGRSTU".toList = S at hl hmem
  generalize "ABCDGRST".toList = T at hmem hU ⊢
  unfold nmSymbols
  induction lines with
  | nil => rfl
  | cons l lines ih =>
    have ih := ih (fun x hx => h x (List.mem_cons_of_mem _ hx)) (fun x hx => hl x (List.mem_cons_of_mem _ hx))
    simp only [Prod.mk.injEq] at ih ⊢
    simp only [List.map_cons, List.filterMap_cons, ih.1, ih.2, hl l (List.mem_cons_self ..), hmem]
    by_cases hu : l.2.1 = 'U'
    · rw [hu]; simp [hU]
    · by_cases hm : l.2.1 ∈ T
      · rw [if_pos (Or.inl hm), if_pos hm]; simp [hu]
      · rw [if_neg (by simp [hm, hu]), if_neg hm]; simp [hu]

set_option maxRecDepth 20000 in
example : nmSymbols ["main T 0000000000000000 0000000000000010".toList, "puts U         ".toList, "w W".toList] =
    (["main".toList], ["puts".toList]) := by decide +kernel

/-- `a` needs a symbol that `b` defines -/
def NeedsOf (defined undefined : Text → List Text) (a b : Text) : Prop :=
  a ≠ b ∧ ∃ s ∈ undefined a, s ∈ defined b

/-- `b` is the last of the objects that define the symbol -/
def LastDef (defined : Text → List Text) (objs : List Text) (s b : Text) : Prop :=
  ∃ l r, objs = l ++ b :: r ∧ s ∈ defined b ∧ ∀ x ∈ r, s ∉ defined x

/-- `a` needs a symbol, and of the other objects `b` is the last that defines it -/
def UsesOf (defined undefined : Text → List Text) (objs : List Text) (a b : Text) : Prop :=
  a ≠ b ∧ ∃ s ∈ undefined a, LastDef defined objs s b

theorem definedBy_iff {defined : Text → List Text} {objs : List Text} {s o : Text} :
    definedBy defined objs s = some o ↔ LastDef defined objs s o := by
  simp only [definedBy, List.find?_eq_some_iff_append, LastDef]
  constructor
  · rintro ⟨h, as, bs, e, hn⟩
    refine ⟨bs.reverse, as.reverse, ?_, by simpa using h, ?_⟩
    · have := congrArg List.reverse e
      simpa using this
    · intro x hx
      have := hn x (by simpa using hx)
      simpa using this
  · rintro ⟨l, r, e, h, hn⟩
    refine ⟨by simpa using h, r.reverse, l.reverse, by simp [e], ?_⟩
    intro x hx
    have := hn x (by simpa using hx)
    simpa using this

theorem LastDef.mem {defined : Text → List Text} {objs : List Text} {s o : Text} (h : LastDef defined objs s o) :
    o ∈ objs ∧ s ∈ defined o := by
  obtain ⟨l, r, e, hs, _⟩ := h
  exact ⟨by rw [e]; simp, hs⟩

/-- when no symbol is defined by two objects, the last that defines a symbol is the one that defines it -/
theorem usesOf_iff {defined undefined : Text → List Text} {objs : List Text}
    (huniq : ∀ a ∈ objs, ∀ b ∈ objs, ∀ s, s ∈ defined a → s ∈ defined b → a = b) {a b : Text} (hb : b ∈ objs) :
    UsesOf defined undefined objs a b ↔ NeedsOf defined undefined a b := by
  constructor
  · rintro ⟨hne, s, hs, hl⟩
    exact ⟨hne, s, hs, hl.mem.2⟩
  · rintro ⟨hne, s, hs, hd⟩
    refine ⟨hne, s, hs, ?_⟩
    cases h : definedBy defined objs s with
    | none =>
      have := List.find?_eq_none.1 h b (by simpa using hb)
      simp [hd] at this
    | some o' =>
      have hl := definedBy_iff.1 h
      rw [huniq b hb o' hl.mem.1 s hd hl.mem.2]
      exact hl

/-- the list built so far: no object twice, and before each the objects that it needs -/
structure Placed (needs : Text → Text → Prop) (objs l : List Text) : Prop where
  nodup : l.Nodup
  sub : ∀ x ∈ l, x ∈ objs
  before : ∀ pre x post, l = pre ++ x :: post → ∀ y, y ∈ objs → needs x y → y ∈ pre

theorem place_spec {defined undefined : Text → List Text} {objs : List Text}
    (rank : Text → Nat) (hrank : ∀ a ∈ objs, ∀ b ∈ objs, UsesOf defined undefined objs a b → rank b < rank a) :
    ∀ n obj new, obj ∈ objs → rank obj < n → Placed (UsesOf defined undefined objs) objs new →
      ∃ more, place undefined (definedBy defined objs) n obj new = some (new ++ more) ∧
        Placed (UsesOf defined undefined objs) objs (new ++ more) ∧ obj ∈ new ++ more ∧
        ∀ x ∈ more, rank x ≤ rank obj := by
  intro n
  induction n with
  | zero => intro obj new _ h; omega
  | succ n ih =>
    intro obj new ho hn hp
    simp only [place]
    split
    · rename_i hin
      exact ⟨[], by simp, by simpa using hp, by simpa using hin, by simp⟩
    · rename_i hin
      -- the loop over the symbols
      have loop : ∀ ss new, (∀ s ∈ ss, s ∈ undefined obj) → Placed (UsesOf defined undefined objs) objs new →
          ∃ more, eachSymbol (place undefined (definedBy defined objs) n) (definedBy defined objs) obj ss new
              = some (new ++ more) ∧
            Placed (UsesOf defined undefined objs) objs (new ++ more) ∧ (∀ x ∈ more, rank x < rank obj) ∧
            ∀ s ∈ ss, ∀ y, y ≠ obj → LastDef defined objs s y → y ∈ new ++ more := by
        intro ss
        induction ss with
        | nil => intro new _ hp; exact ⟨[], by simp [eachSymbol], by simpa using hp, by simp, by simp⟩
        | cons s ss ihs =>
          intro new hss hp
          have hss' : ∀ s ∈ ss, s ∈ undefined obj := fun x hx => hss x (List.mem_cons_of_mem _ hx)
          simp only [eachSymbol]
          cases hf : definedBy defined objs s with
          | none =>
            obtain ⟨more, h1, h2, h3, h4⟩ := ihs new hss' hp
            refine ⟨more, h1, h2, h3, ?_⟩
            intro s' hs' y hne hd
            rcases List.mem_cons.1 hs' with rfl | hs'
            · rw [definedBy_iff.2 hd] at hf; cases hf
            · exact h4 s' hs' y hne hd
          | some o =>
            have hod := definedBy_iff.1 hf
            have hoo := hod.mem.1
            simp only
            split
            · rename_i he
              obtain ⟨more, h1, h2, h3, h4⟩ := ihs new hss' hp
              refine ⟨more, h1, h2, h3, ?_⟩
              intro s' hs' y hne hd
              rcases List.mem_cons.1 hs' with rfl | hs'
              · rw [definedBy_iff.2 hd, Option.some.injEq] at hf
                exact absurd (hf.trans he.symm) hne
              · exact h4 s' hs' y hne hd
            · rename_i he
              have hr : rank o < rank obj := hrank obj ho o hoo ⟨he, s, hss s (List.mem_cons_self ..), hod⟩
              obtain ⟨m1, h1, h2, h3, h4⟩ := ih o new hoo (by omega) hp
              rw [h1]
              obtain ⟨m2, g1, g2, g3, g4⟩ := ihs (new ++ m1) hss' h2
              refine ⟨m1 ++ m2, by simpa using g1, by simpa using g2, ?_, ?_⟩
              · intro x hx
                rcases List.mem_append.1 hx with hx | hx
                · have := h4 x hx; omega
                · exact g3 x hx
              · intro s' hs' y hne hd
                rcases List.mem_cons.1 hs' with rfl | hs'
                · rw [definedBy_iff.2 hd, Option.some.injEq] at hf
                  rw [hf, ← List.append_assoc]
                  exact List.mem_append_left _ h3
                · rw [← List.append_assoc]; exact g4 s' hs' y hne hd
      obtain ⟨more, h1, h2, h3, h4⟩ := loop (undefined obj) new (fun _ h => h) hp
      rw [h1]
      have hnot : obj ∉ new ++ more := by
        intro h
        rcases List.mem_append.1 h with h | h
        · exact hin h
        · have := h3 obj h; omega
      refine ⟨more ++ [obj], by simp, ?_, by simp, ?_⟩
      · rw [← List.append_assoc]
        refine ⟨?_, ?_, ?_⟩
        · rw [List.nodup_append]
          refine ⟨h2.nodup, by simp, ?_⟩
          intro a ha b hb
          simp only [List.mem_singleton] at hb
          subst hb
          intro hab; subst hab; exact hnot ha
        · intro x hx
          rcases List.mem_append.1 hx with hx | hx
          · exact h2.sub x hx
          · simp only [List.mem_singleton] at hx; subst hx; exact ho
        · intro pre x post e y hy hxy
          rcases List.eq_nil_or_concat post with rfl | ⟨post', z, rfl⟩
          · obtain ⟨e1, e2⟩ := List.append_inj' e rfl
            simp only [List.cons.injEq, and_true] at e2
            subst e1; subst e2
            obtain ⟨hne, s, hs, hd⟩ := hxy
            exact h4 s hs y (fun h => hne h.symm) hd
          · have e' : new ++ more ++ [obj] = (pre ++ x :: post') ++ [z] := by simpa using e
            obtain ⟨e1, _⟩ := List.append_inj' e' rfl
            exact h2.before pre x post' e1 y hy hxy
      · intro x hx
        rcases List.mem_append.1 hx with hx | hx
        · have := h3 x hx; omega
        · simp only [List.mem_singleton] at hx; subst hx; exact Nat.le_refl _

/-- **C74**: an object that needs a symbol stands before the last of the objects that define it, whether or not others
define it too; needs among the objects must not go in a circle. -/
theorem C74_last_partial (defined undefined : Text → List Text) (objs : List Text)
    (rank : Text → Nat) (hrank : ∀ a ∈ objs, ∀ b ∈ objs, UsesOf defined undefined objs a b → rank b < rank a)
    (limit : Nat) (hlim : ∀ a ∈ objs, rank a < limit) :
    ∃ out, objectDependencies defined undefined limit objs = some out ∧ out.Nodup ∧ (∀ x, x ∈ out ↔ x ∈ objs) ∧
      ∀ a ∈ objs, ∀ b ∈ objs, UsesOf defined undefined objs a b → ∃ l m r, out = l ++ a :: m ++ b :: r := by
  have key : ∀ os new, (∀ o ∈ os, o ∈ objs) → Placed (UsesOf defined undefined objs) objs new →
      ∃ out, placeAll (place undefined (definedBy defined objs) limit) os new = some out ∧
        Placed (UsesOf defined undefined objs) objs out ∧ (∀ x ∈ new, x ∈ out) ∧ ∀ x ∈ os, x ∈ out := by
    intro os
    induction os with
    | nil => intro new _ hp; exact ⟨new, rfl, hp, fun _ h => h, by simp⟩
    | cons o os ih =>
      intro new hos hp
      have ho := hos o (List.mem_cons_self ..)
      obtain ⟨more, h1, h2, h3, _⟩ := place_spec rank hrank limit o new ho (hlim o ho) hp
      obtain ⟨out, g1, g2, g3, g4⟩ := ih (new ++ more) (fun x hx => hos x (List.mem_cons_of_mem _ hx)) h2
      refine ⟨out, by simp only [placeAll, h1, g1], g2, fun x hx => g3 x (by simp [hx]), ?_⟩
      intro x hx
      rcases List.mem_cons.1 hx with rfl | hx
      · exact g3 x h3
      · exact g4 x hx
  obtain ⟨out, h1, h2, _, h4⟩ := key objs [] (fun _ h => h) ⟨by simp, by simp, by simp⟩
  refine ⟨out.reverse, by simp [objectDependencies, h1], (List.reverse_perm out).nodup_iff.2 h2.nodup, ?_, ?_⟩
  · intro x
    rw [List.mem_reverse]
    exact ⟨h2.sub x, h4 x⟩
  · intro a ha b hb hab
    obtain ⟨pre, post, e⟩ := List.append_of_mem (h4 a ha)
    obtain ⟨p1, p2, e2⟩ := List.append_of_mem (h2.before pre a post e b hb hab)
    refine ⟨post.reverse, p2.reverse, p1.reverse, ?_⟩
    rw [e, e2]
    simp

/-- **C74**: when the objects do not need each other in a circle and no symbol is defined twice, `object_dependencies`
returns each object once, before the objects that define what it needs. -/
theorem C74_order_partial (defined undefined : Text → List Text) (objs : List Text)
    (huniq : ∀ a ∈ objs, ∀ b ∈ objs, ∀ s, s ∈ defined a → s ∈ defined b → a = b)
    (rank : Text → Nat) (hrank : ∀ a ∈ objs, ∀ b ∈ objs, NeedsOf defined undefined a b → rank b < rank a)
    (limit : Nat) (hlim : ∀ a ∈ objs, rank a < limit) :
    ∃ out, objectDependencies defined undefined limit objs = some out ∧ out.Nodup ∧ (∀ x, x ∈ out ↔ x ∈ objs) ∧
      ∀ a ∈ objs, ∀ b ∈ objs, NeedsOf defined undefined a b → ∃ l m r, out = l ++ a :: m ++ b :: r := by
  obtain ⟨out, h1, h2, h3, h4⟩ := C74_last_partial defined undefined objs rank
    (fun a ha b hb h => hrank a ha b hb ((usesOf_iff huniq hb).1 h)) limit hlim
  exact ⟨out, h1, h2, h3, fun a ha b hb h => h4 a ha b hb ((usesOf_iff huniq hb).2 h)⟩

/-- `main.o` uses `f` of `f.o`, which uses `g` of `g.o` -/
def exDefined (o : Text) : List Text :=
  if o = "main.o".toList then ["main".toList] else if o = "f.o".toList then ["f".toList]
  else if o = "g.o".toList then ["g".toList] else []
@[inherit_doc exDefined]
def exUndefined (o : Text) : List Text :=
  if o = "main.o".toList then ["f".toList, "puts".toList] else if o = "f.o".toList then ["g".toList] else []

set_option maxRecDepth 20000 in
example : objectDependencies exDefined exUndefined 5 ["g.o".toList, "main.o".toList, "f.o".toList] =
    some ["main.o".toList, "f.o".toList, "g.o".toList] := by decide +kernel

/-- `f` is defined by `f.o` and again by `g.o`; `main.o` is put before `g.o`, the last of them -/
example : objectDependencies (fun o => if o = "main.o".toList then [] else ["f".toList])
    (fun o => if o = "main.o".toList then ["f".toList] else []) 5 ["f.o".toList, "main.o".toList, "g.o".toList] =
    some ["main.o".toList, "g.o".toList, "f.o".toList] := by decide +kernel

/-- **C74**: when two objects define a symbol, the first of them may stand before the object that needs it. -/
theorem C74_definers_violated :
    objectDependencies (fun o => if o = "main.o".toList then [] else ["f".toList])
      (fun o => if o = "main.o".toList then ["f".toList] else []) 5 ["main.o".toList, "f.o".toList, "g.o".toList] =
    some ["f.o".toList, "main.o".toList, "g.o".toList] := by decide +kernel

set_option maxRecDepth 20000 in
/-- **C74**: the order is lost for two objects that use each other, whatever the limit on recursion. -/
theorem C74_circle_violated (limit : Nat) :
    objectDependencies (fun o => [o]) (fun o => if o = ['f'] then [['g']] else [['f']]) limit [['f'], ['g']] = none := by
  have hf : definedBy (fun o => [o]) [['f'], ['g']] ['f'] = some ['f'] := by decide
  have hg : definedBy (fun o => [o]) [['f'], ['g']] ['g'] = some ['g'] := by decide
  have key : ∀ n, place (fun o => if o = ['f'] then [['g']] else [['f']]) (definedBy (fun o => [o]) [['f'], ['g']]) n ['f'] [] = none ∧
      place (fun o => if o = ['f'] then [['g']] else [['f']]) (definedBy (fun o => [o]) [['f'], ['g']]) n ['g'] [] = none := by
    intro n
    induction n with
    | zero => exact ⟨rfl, rfl⟩
    | succ n ih =>
      constructor
      · simp [place, eachSymbol, hg, ih.2]
      · simp [place, eachSymbol, hf, ih.1]
  simp [objectDependencies, placeAll, (key limit).1]

end Verif.Ocaml
