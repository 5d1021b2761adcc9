import Verif.Props.GccLibs
import Verif.Props.Glob
import Verif.Props.Path
/-!
# gcc: the files that are made

C82 (what is in an archive), C83 (different sources have different object files).
-/
namespace Verif.Gcc

/-! ## C82 -/

/-- a name without special characters of an existing file stands for itself -/
theorem glob_plain (fs : Glob.FS) (r : Bool) (s : Text) (hp : Glob.Plain s) (hn : (Posix.split s).2 ≠ [])
    (hx : fs.lexists s = true) : Glob.glob fs r s = [s] := by
  have hm : Glob.hasMagic s = false := by
    unfold Glob.hasMagic
    rw [List.any_eq_false]
    intro c hc
    simpa using hp c hc
  have hr : Glob.isRecursive s = false := by
    unfold Glob.isRecursive
    rw [beq_eq_false_iff_ne]
    rintro rfl
    exact hp '*' (by simp) (by simp)
  unfold Glob.glob
  simp only [hr, Bool.and_false, Bool.false_eq_true, if_false]
  rw [Glob.iglobFrom]
  simp [hm, hn, hx]

theorem flatMap_self {α : Type} {f : α → List α} {l : List α} (h : ∀ x ∈ l, f x = [x]) : l.flatMap f = l := by
  induction l with
  | nil => rfl
  | cons x l ih =>
    rw [List.flatMap_cons, h x (.head _), ih (fun y hy => h y (.tail _ hy))]
    rfl

/-- `ar` keeps the names unique, and the member of a name is the last file of this name, or the old member -/
theorem arReplace_spec (read : Text → Text) (fs : List Text) (old : Archive) (ho : (old.map (·.1)).Nodup) :
    ((arReplace read fs old).map (·.1)).Nodup ∧
    (∀ n, n ∈ (arReplace read fs old).map (·.1) ↔ n ∈ old.map (·.1) ∨ n ∈ fs.map Posix.tail) ∧
    ((fs.map Posix.tail).Nodup → ∀ m, m ∈ arReplace read fs old ↔
      (∃ f ∈ fs, m = (Posix.tail f, read f)) ∨ (m ∈ old ∧ m.1 ∉ fs.map Posix.tail)) := by
  induction fs generalizing old with
  | nil => simp [arReplace, ho]
  | cons f fs ih =>
    rw [arReplace]
    generalize hnew : (if Posix.tail f ∈ old.map (·.1) then
      old.map (fun m => if m.1 = Posix.tail f then (Posix.tail f, read f) else m) else old ++ [(Posix.tail f, read f)]) = new
    have hkeep : ∀ l : Archive, (l.map (fun m => if m.1 = Posix.tail f then (Posix.tail f, read f) else m)).map (·.1) =
        l.map (·.1) := by
      intro l
      rw [List.map_map]
      refine List.map_congr_left (fun m _ => ?_)
      simp only [Function.comp]
      split
      · rename_i h; exact h.symm
      · rfl
    have h1 : (new.map (·.1)).Nodup := by
      rw [← hnew]
      split
      · rwa [hkeep]
      · rename_i h
        rw [List.map_append, List.nodup_append]
        refine ⟨ho, by simp, ?_⟩
        rintro a ha b hb rfl
        simp only [List.map_cons, List.map_nil, List.mem_singleton] at hb
        exact h (hb ▸ ha)
    have h2 : ∀ n, n ∈ new.map (·.1) ↔ n ∈ old.map (·.1) ∨ n = Posix.tail f := by
      intro n
      rw [← hnew]
      split
      · rename_i h
        rw [hkeep]
        constructor
        · exact .inl
        · rintro (h' | rfl)
          · exact h'
          · exact h
      · rw [List.map_append, List.mem_append]
        simp
    have h3 : ∀ m, m ∈ new ↔ m = (Posix.tail f, read f) ∨ (m ∈ old ∧ m.1 ≠ Posix.tail f) := by
      intro m
      rw [← hnew]
      split
      · rename_i h
        simp only [List.mem_map] at h ⊢
        constructor
        · rintro ⟨x, hx, rfl⟩
          split
          · exact .inl rfl
          · rename_i hne; exact .inr ⟨hx, hne⟩
        · rintro (rfl | ⟨hx, hne⟩)
          · obtain ⟨x, hx, he⟩ := h
            exact ⟨x, hx, by rw [if_pos he]⟩
          · exact ⟨m, hx, by rw [if_neg hne]⟩
      · rename_i h
        rw [List.mem_append, List.mem_singleton]
        constructor
        · rintro (hx | rfl)
          · exact .inr ⟨hx, fun he => h (he ▸ List.mem_map.mpr ⟨m, hx, rfl⟩)⟩
          · exact .inl rfl
        · rintro (rfl | ⟨hx, _⟩)
          · exact .inr rfl
          · exact .inl hx
    obtain ⟨i1, i2, i3⟩ := ih new h1
    refine ⟨i1, fun n => ?_, fun hd m => ?_⟩
    · rw [i2, h2, List.map_cons, List.mem_cons, or_assoc]
    · rw [List.map_cons, List.nodup_cons] at hd
      rw [i3 hd.2, h3, List.map_cons]
      simp only [List.mem_cons, not_or, exists_eq_or_imp]
      constructor
      · rintro (h | ⟨rfl | ⟨h, h'⟩, h''⟩)
        · exact .inl (.inr h)
        · exact .inl (.inl rfl)
        · exact .inr ⟨h, h', h''⟩
      · rintro ((rfl | h) | ⟨h, h', h''⟩)
        · exact .inr ⟨.inl rfl, hd.1⟩
        · exact .inl h
        · exact .inr ⟨.inr ⟨h, h'⟩, h''⟩

/-- **C82**: the members of an archive are the given object files, each once.  Partial: the object files exist, their names have
no special characters and are different without their directories, and an archive that is already there has members of
these names only. -/
theorem C82_members_partial (fs : Glob.FS) (r : Bool) (read : Text → Text) (srcs : List Text) (there : Option Archive)
    (hsrc : ∀ s ∈ srcs, Glob.Plain s ∧ (Posix.split s).2 ≠ [] ∧ fs.lexists s = true)
    (hnames : (srcs.map Posix.tail).Nodup)
    (hold : ∀ old, there = some old → (old.map (·.1)).Nodup ∧ ∀ m ∈ old, m.1 ∈ srcs.map Posix.tail) :
    ((makeArchive (Glob.glob fs r) read srcs there).map (·.1)).Nodup ∧
    ∀ m, m ∈ makeArchive (Glob.glob fs r) read srcs there ↔ ∃ s ∈ srcs, m = (Posix.tail s, read s) := by
  have hg : srcs.flatMap (Glob.glob fs r) = srcs :=
    flatMap_self (fun s hs => glob_plain fs r s (hsrc s hs).1 (hsrc s hs).2.1 (hsrc s hs).2.2)
  have ho : ((there.getD []).map (·.1)).Nodup ∧ ∀ m ∈ there.getD [], m.1 ∈ srcs.map Posix.tail := by
    cases there with
    | none => simp
    | some old => exact hold old rfl
  unfold makeArchive
  rw [hg]
  obtain ⟨h1, _, h3⟩ := arReplace_spec read srcs (there.getD []) ho.1
  refine ⟨h1, fun m => ?_⟩
  rw [h3 hnames]
  constructor
  · rintro (h | ⟨h, h'⟩)
    · exact h
    · exact absurd (ho.2 m h) h'
  · exact .inl

/-- a directory with two objects -/
def exDir : Glob.FS := ⟨.dir [], [.dir [(t "b", .dir [(t "x.o", .file), (t "y.o", .file)])]]⟩

/-- the hypotheses are met, with an archive that has an old version of one of the objects -/
example : (∀ s ∈ [t "b/x.o", t "b/y.o"], Glob.Plain s ∧ (Posix.split s).2 ≠ [] ∧ exDir.lexists s = true) ∧
    ([t "b/x.o", t "b/y.o"].map Posix.tail).Nodup ∧
    (∀ m ∈ ([(t "y.o", t "old")] : Archive), m.1 ∈ [t "b/x.o", t "b/y.o"].map Posix.tail) ∧
    (t "y.o", t "new") ∈ makeArchive (Glob.glob exDir false) (fun _ => t "new") [t "b/x.o", t "b/y.o"]
      (some [(t "y.o", t "old")]) := by
  have h : ∀ s ∈ [t "b/x.o", t "b/y.o"], Glob.Plain s ∧ (Posix.split s).2 ≠ [] ∧ exDir.lexists s = true := by
    have : ∀ s ∈ [t "b/x.o", t "b/y.o"], (Posix.split s).2 ≠ [] ∧ exDir.lexists s = true := by decide +kernel
    intro s hs
    refine ⟨?_, this s hs⟩
    have key : ∀ s ∈ [t "b/x.o", t "b/y.o"], ∀ ch ∈ s, ch ∉ ['*', '?', '[', '{'] := by decide +kernel
    exact key s hs
  have hn : ([t "b/x.o", t "b/y.o"].map Posix.tail).Nodup := by decide +kernel
  have ho : ∀ m ∈ ([(t "y.o", t "old")] : Archive), m.1 ∈ [t "b/x.o", t "b/y.o"].map Posix.tail := by decide +kernel
  refine ⟨h, hn, ho, ?_⟩
  rw [(C82_members_partial exDir false _ _ (some [(t "y.o", t "old")]) h hn (by
    rintro old ⟨⟩; exact ⟨by decide +kernel, ho⟩)).2]
  exact ⟨t "b/y.o", by simp, by decide +kernel⟩

/-- **C82** fails for an object that is taken out of the library: it stays in the archive, as long as the archive is not
removed.  So the library after the edit is not the one that a build from scratch makes. -/
theorem C82_removed_violated (read : Text → Text) :
    makeArchive (fun s => [s]) read [t "x.o"] (some (makeArchive (fun s => [s]) read [t "x.o", t "y.o"] none)) =
      [(t "x.o", read (t "x.o")), (t "y.o", read (t "y.o"))] ∧
    makeArchive (fun s => [s]) read [t "x.o"] none = [(t "x.o", read (t "x.o"))] := ⟨rfl, rfl⟩

/-- **C82** fails for objects of the same name in different directories: only the last of them is in the archive. -/
theorem C82_samename_violated (read : Text → Text) :
    makeArchive (fun s => [s]) read [t "a/x.o", t "b/x.o"] none = [(t "x.o", read (t "b/x.o"))] := rfl

/-- the pattern `x[1].o` -/
theorem bracket_pattern : Fnmatch.pattern (t "x[1].o") = [.lit 'x', .cls false ['1'], .lit '.', .lit 'o'] := by
  simp [t, Fnmatch.pattern, Fnmatch.read, Fnmatch.bracket, Fnmatch.upTo, Fnmatch.readSeq]

theorem bracket_ok : Glob.PatOk [t "x[1].o"] := by
  refine ⟨by simp, fun c hc => ?_, by simp, fun c hc => ?_⟩
  · rw [List.mem_singleton] at hc
    subst hc
    decide
  · rw [List.mem_singleton] at hc
    subst hc
    rw [bracket_pattern]
    simp [Fnmatch.Sound, Fnmatch.RangesOk, Fnmatch.ranges]

theorem bracket_magic : ¬ Glob.Plain (t "x[1].o") := fun h => h '[' (by decide) (by decide)

/-- **C82** fails for an object whose name has brackets: whatever files there are, it is not put into the archive; if there is
an object `x1.o`, that one is. -/
theorem C82_pattern_violated (fs : Glob.FS) (hok : fs.Ok) (r : Bool) :
    t "x[1].o" ∉ Glob.glob fs r (t "x[1].o") ∧
    (fs.lexists (t "x1.o") = true → t "x1.o" ∈ Glob.glob fs r (t "x[1].o")) := by
  constructor
  · intro h
    obtain ⟨qs, hq, he⟩ := Glob.C40_picked fs hok r false [t "x[1].o"] bracket_ok _ h
    cases hq with
    | plain h1 _ => exact bracket_magic h1
    | @magic _ _ x _ _ _ _ hm _ hq =>
      cases hq
      have hx : x = t "x[1].o" := by simpa [Glob.text, Glob.slashed] using he.symm
      subst hx
      rw [bracket_pattern] at hm
      cases hm with
      | lit hm =>
        cases hm with
        | cls _ hm => cases hm
  · intro hx
    refine Glob.C40_complete fs hok r false [t "x[1].o"] bracket_ok [t "x1.o"] ?_ hx
    refine .magic bracket_magic (fun _ => by decide) (by simp [Glob.IsName, t]) ?_ (by decide) .nil
    rw [bracket_pattern]
    exact .lit (.cls (by decide) (.lit (.lit .nil)))

/-! ## C83 -/

/-- a path is a name, or a directory and a name -/
theorem last_slash (q : Text) : '/' ∉ q ∨ ∃ h n, '/' ∉ n ∧ q = h ++ '/' :: n := by
  by_cases hq : '/' ∈ q
  · right
    have h1 := Posix.head_append_tail q
    have h2 := Posix.tail_noSlash q
    rcases List.eq_nil_or_concat (Posix.head q) with h | ⟨d, c, h⟩
    · rw [h, List.nil_append] at h1
      rw [h1] at h2
      exact absurd hq h2
    · have hc : c = '/' := by
        unfold Posix.head at h
        have := List.head?_dropWhile_not (fun c => decide (c ≠ '/')) q.reverse
        rw [← List.reverse_reverse (q.reverse.dropWhile _), h] at this
        simpa using this
      subst hc
      refine ⟨d, Posix.tail q, h2, ?_⟩
      conv => lhs; rw [← h1, h]
      simp
  · exact .inl hq

theorem tail_below (d q : Text) : Posix.tail (d ++ '/' :: q) = Posix.tail q ∧
    Posix.head (d ++ '/' :: q) = d ++ '/' :: Posix.head q := by
  rcases last_slash q with hq | ⟨h, n, hn, rfl⟩
  · rw [Posix.tail_slash _ _ hq, Posix.tail_name hq, Posix.head_slash _ _ hq, Posix.head_name hq]
    exact ⟨rfl, rfl⟩
  · have e : d ++ '/' :: (h ++ '/' :: n) = (d ++ '/' :: h) ++ '/' :: n := by simp
    rw [e, Posix.tail_slash _ _ hn, Posix.tail_slash _ _ hn, Posix.head_slash _ _ hn, Posix.head_slash _ _ hn]
    exact ⟨rfl, by simp⟩

/-- a directory in front of a path does not change its extension -/
theorem splitext_below (d p : Text) :
    Posix.splitext (d ++ '/' :: p) = (d ++ '/' :: (Posix.splitext p).1, (Posix.splitext p).2) := by
  unfold Posix.splitext
  simp only [(tail_below d p).1, (tail_below d p).2]
  split
  · simp
  · rfl

theorem addroot_rel (p root : Text) (ha : Posix.isabs p = false) (hp : root.isPrefixOf p = false) :
    ∃ d, (∀ q, Posix.isabs q = false → root.isPrefixOf q = false → Path.addroot q root = d ++ '/' :: q) ∧
      (root.getLast? ≠ some '/' → d = root) := by
  have hne : root ≠ [] := by rintro rfl; simp at hp
  by_cases hl : root.getLast? = some '/'
  · obtain ⟨d, rfl⟩ := Path.snoc_of_last hl
    refine ⟨d, fun q h1 h2 => ?_, fun h => absurd hl h⟩
    unfold Path.addroot Posix.join
    rw [if_neg (by simp [h2])]
    simp [h1, hl]
  · refine ⟨root, fun q h1 h2 => ?_, fun _ => rfl⟩
    unfold Path.addroot Posix.join
    rw [if_neg (by simp [h2])]
    simp [h1, hl, hne]

/-- **C83**: different sources have different object files.  Partial: the sources have the same extension, their paths are
relative and do not start with the text of the build directory. -/
theorem C83_objects_partial (root suffix p q : Text) (hp : Posix.isabs p = false) (hq : Posix.isabs q = false)
    (hp' : root.isPrefixOf p = false) (hq' : root.isPrefixOf q = false)
    (hext : (Posix.splitext p).2 = (Posix.splitext q).2)
    (h : objectFile root suffix p none = objectFile root suffix q none) : p = q := by
  obtain ⟨d, hd, _⟩ := addroot_rel p root hp hp'
  unfold objectFile Path.replaceext at h
  simp only [hd p hp hp', hd q hq hq', splitext_below] at h
  have h1 := List.append_cancel_right h
  have h2 := List.append_cancel_left h1
  simp only [List.cons.injEq, true_and] at h2
  rw [← Path.splitext_append p, ← Path.splitext_append q, h2, hext]

/-- an object file that is asked for is named like this file, not like the source -/
theorem C83_asked (root suffix p q d : Text) (hd : d ≠ []) :
    objectFile root suffix p (some d) = objectFile root suffix q (some d) ∧
    objectFile root suffix p (some d) = objectFile root suffix d none := by
  simp [objectFile, hd]

example : objectFile (t "build") (t ".o") (t "src/a.b.c") none = t "build/src/a.b.o" ∧
    objectFile (t "build") (t ".o") (t "src/a.c") none = t "build/src/a.o" ∧
    Posix.isabs (t "src/a.c") = false ∧ (t "build").isPrefixOf (t "src/a.c") = false ∧
    (Posix.splitext (t "src/a.b.c")).2 = (Posix.splitext (t "src/a.c")).2 := by decide +kernel

/-- **C83** fails for sources that differ in their extension only, for absolute paths (only the name is kept), and for a source
that was generated in the build directory. -/
theorem C83_objects_violated :
    objectFile (t "build") (t ".o") (t "x.c") none = objectFile (t "build") (t ".o") (t "x.cc") none ∧
    objectFile (t "build") (t ".o") (t "/a/x.c") none = objectFile (t "build") (t ".o") (t "/b/x.c") none ∧
    objectFile (t "build") (t ".o") (t "x.c") none = objectFile (t "build") (t ".o") (t "build/x.c") none := by
  decide +kernel

theorem split_below (d q : Text) (hd : d ≠ []) (hl : d.getLast? ≠ some '/') :
    (Posix.split (d ++ '/' :: q)).1 ≠ [] ∧ (Posix.split (d ++ '/' :: q)).1.getLast? ≠ some '/' := by
  have hall : ((d ++ '/' :: Posix.head q).all (fun c => c = '/')) = false := by
    rw [List.all_eq_false]
    obtain ⟨d', c, rfl⟩ := (List.eq_nil_or_concat d).resolve_left hd
    exact ⟨c, by simp, by simpa using hl⟩
  unfold Posix.split
  rw [(tail_below d q).2, hall]
  simp only [Bool.false_eq_true, if_false]
  obtain ⟨s, h1, h2, h3⟩ := Path.rstrip_append (d ++ '/' :: Posix.head q)
  refine ⟨fun he => ?_, h3⟩
  rw [he, List.nil_append] at h1
  rw [List.all_eq_false] at hall
  obtain ⟨c, hc, hc'⟩ := hall
  rw [h1] at hc
  exact hc' (by simpa using h2 c hc)

/-- **C83** for libraries and executables: two that are linked with the same prefix and suffix have the same file only if they
are asked for in the same directory under the same name.  Partial: relative paths that do not start with the text of the build
directory; prefix without slash. -/
theorem C83_linked_partial (root pre suffix p q : Text) (hr : root.getLast? ≠ some '/') (hpre : '/' ∉ pre)
    (hp : Posix.isabs p = false) (hq : Posix.isabs q = false)
    (hp' : root.isPrefixOf p = false) (hq' : root.isPrefixOf q = false)
    (h : linkedFile root pre suffix p = linkedFile root pre suffix q) :
    Posix.split (root ++ '/' :: p) = Posix.split (root ++ '/' :: q) := by
  have hne : root ≠ [] := by rintro rfl; simp at hp'
  obtain ⟨d, hd, hd'⟩ := addroot_rel p root hp hp'
  obtain rfl := hd' hr
  unfold linkedFile at h
  simp only [hd p hp hp', hd q hq hq'] at h
  have h1 := List.append_cancel_right h
  have hj : ∀ x, Posix.join (Posix.split (d ++ '/' :: x)).1 pre = (Posix.split (d ++ '/' :: x)).1 ++ '/' :: pre := by
    intro x
    obtain ⟨h2, h3⟩ := split_below d x hne hr
    unfold Posix.join
    rw [Path.isabs_false hpre]
    simp [h2, h3]
  rw [hj, hj, List.append_assoc, List.append_assoc, List.cons_append, List.cons_append] at h1
  have hn : ∀ x, '/' ∉ pre ++ (Posix.split (d ++ '/' :: x)).2 := fun x => by
    rw [List.mem_append, not_or]
    exact ⟨hpre, Posix.tail_noSlash _⟩
  have ht := congrArg Posix.tail h1
  have hh := congrArg Posix.head h1
  rw [Posix.tail_slash _ _ (hn p), Posix.tail_slash _ _ (hn q)] at ht
  rw [Posix.head_slash _ _ (hn p), Posix.head_slash _ _ (hn q)] at hh
  exact Prod.ext (List.append_cancel_right hh) (List.append_cancel_left ht)

example : linkedFile (t "build") (t "lib") (t ".a") (t "src/x") = t "build/src/libx.a" ∧
    linkedFile (t "build") [] [] (t "x") = t "build/x" := by decide +kernel

/-- **C83** fails for a library and an executable of the same full name. -/
theorem C83_linked_violated :
    linkedFile (t "build") (t "lib") (t ".a") (t "x") = linkedFile (t "build") [] [] (t "libx.a") := by decide +kernel

end Verif.Gcc
