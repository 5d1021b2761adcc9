import Verif.Temp.Core
/-!
# Temporary files

C104, C105.
-/
namespace Verif.Temp

/-! ## Specification -/

/-- a text of spaces and tabs only -/
def Blank (l : Text) : Prop := ∀ c ∈ l, c = ' ' ∨ c = '\t'

instance (l : Text) : Decidable (Blank l) := by unfold Blank; infer_instance

/-- every line that is not blank begins with this -/
def Common (m : Text) (ls : List Text) : Prop := Blank m ∧ ∀ l ∈ ls, ¬ Blank l → m <+: l

/-- the longest common indentation -/
def Margin (m : Text) (ls : List Text) : Prop := Common m ls ∧ ∀ m', Common m' ls → m'.length ≤ m.length

/-- lines, with newlines between them -/
def text (ls : List Text) : Text := ['\n'].intercalate ls

/-! ## Lines -/

theorem unlines_eq (ls : List Text) : unlines ls = text ls := by
  unfold text
  induction ls with
  | nil => rfl
  | cons l ls ih =>
    cases ls with
    | nil => simp [unlines, List.intercalate, List.intersperse]
    | cons l' ls =>
      rw [unlines, ih]
      simp [List.intercalate, List.intersperse]

theorem lines_ne_nil (s : Text) : lines s ≠ [] := by
  cases s with
  | nil => simp [lines]
  | cons c s =>
    rw [lines]
    split
    · simp
    · split <;> simp

theorem lines_single (l : Text) (h : '\n' ∉ l) : lines l = [l] := by
  induction l with
  | nil => rfl
  | cons c l ih =>
    rw [List.mem_cons, not_or] at h
    rw [lines, if_neg (Ne.symm h.1), ih h.2]

theorem lines_cons (l s : Text) (h : '\n' ∉ l) : lines (l ++ '\n' :: s) = l :: lines s := by
  induction l with
  | nil => simp [lines]
  | cons c l ih =>
    rw [List.mem_cons, not_or] at h
    rw [List.cons_append, lines, if_neg (Ne.symm h.1), ih h.2]

theorem lines_unlines (ls : List Text) (h0 : ls ≠ []) (h : ∀ l ∈ ls, '\n' ∉ l) : lines (unlines ls) = ls := by
  induction ls with
  | nil => exact absurd rfl h0
  | cons l ls ih =>
    cases ls with
    | nil => exact lines_single l (h l (.head _))
    | cons l' ls =>
      rw [unlines, lines_cons _ _ (h l (.head _)), ih (by simp) (fun x hx => h x (.tail _ hx))]

/-! ## The margin -/

theorem all_blank {l : Text} : l.all isBlank = true ↔ Blank l := by
  unfold Blank isBlank
  simp

theorem prefix_total {a b c : Text} (h1 : a <+: c) (h2 : b <+: c) : a <+: b ∨ b <+: a :=
  List.prefix_or_prefix_of_prefix h1 h2

/-- the greatest common prefix -/
def Glb (r a b : Text) : Prop := r <+: a ∧ r <+: b ∧ ∀ m, m <+: a → m <+: b → m <+: r

theorem cut_spec (ys : Text) : ∀ (pre xs : Text), ¬ xs <+: ys → ¬ ys <+: xs →
    ∃ r, cut (pre ++ xs) pre.length xs ys = pre ++ r ∧ Glb r xs ys := by
  induction ys with
  | nil => intro pre xs _ h; exact absurd (List.nil_prefix) h
  | cons y ys ih =>
    intro pre xs h1 h2
    cases xs with
    | nil => exact absurd (List.nil_prefix) h1
    | cons x xs =>
      rw [cut]
      by_cases hxy : x = y
      · subst hxy
        rw [if_neg (by simp)]
        rw [List.cons_prefix_cons] at h1 h2
        obtain ⟨r, hr, g1, g2, g3⟩ := ih (pre ++ [x]) xs (fun h => h1 ⟨rfl, h⟩) (fun h => h2 ⟨rfl, h⟩)
        refine ⟨x :: r, ?_, ?_, ?_, ?_⟩
        · simpa using hr
        · rw [List.cons_prefix_cons]; exact ⟨rfl, g1⟩
        · rw [List.cons_prefix_cons]; exact ⟨rfl, g2⟩
        · intro m ha hb
          cases m with
          | nil => exact List.nil_prefix
          | cons d m =>
            rw [List.cons_prefix_cons] at ha hb ⊢
            exact ⟨ha.1, g3 m ha.2 hb.2⟩
      · rw [if_pos hxy]
        refine ⟨[], by simp, List.nil_prefix, List.nil_prefix, ?_⟩
        intro m ha hb
        cases m with
        | nil => exact List.nil_prefix
        | cons d m =>
          rw [List.cons_prefix_cons] at ha hb
          exact absurd (ha.1.symm.trans hb.1) hxy

theorem step_glb (m i : Text) : ∃ r, step (some m) i = some r ∧ Glb r m i := by
  rw [step]
  simp only [List.isPrefixOf_iff_prefix]
  split
  · exact ⟨m, rfl, List.prefix_rfl, ‹_›, fun _ h _ => h⟩
  · split
    · exact ⟨i, rfl, ‹_›, List.prefix_rfl, fun _ _ h => h⟩
    · obtain ⟨r, h1, h2⟩ := cut_spec i [] m ‹_› ‹_›
      exact ⟨r, by simpa using h1, h2⟩

/-- the longest common prefix of texts -/
def Lcp (r : Text) (is : List Text) : Prop := (∀ i ∈ is, r <+: i) ∧ ∀ m, (∀ i ∈ is, m <+: i) → m <+: r

theorem fold_lcp (is : List Text) : ∀ (m : Text) (done : List Text), Lcp m done →
    ∃ r, is.foldl step (some m) = some r ∧ Lcp r (done ++ is) := by
  induction is with
  | nil => intro m done h; exact ⟨m, rfl, by simpa using h⟩
  | cons i is ih =>
    intro m done h
    obtain ⟨r, hr, g1, g2, g3⟩ := step_glb m i
    obtain ⟨r', hr', h'⟩ := ih r (done ++ [i]) ⟨by
      intro j hj
      rcases List.mem_append.1 hj with hj | hj
      · exact g1.trans (h.1 j hj)
      · rw [List.mem_singleton] at hj; subst hj; exact g2, by
      intro m' hm'
      exact g3 m' (h.2 m' (fun j hj => hm' j (List.mem_append_left _ hj))) (hm' i (by simp))⟩
    refine ⟨r', ?_, by simpa using h'⟩
    rw [List.foldl_cons, hr, hr']

theorem takeWhile_blank (l : Text) : Blank (l.takeWhile isBlank) := by
  rw [← all_blank]
  exact List.all_takeWhile

theorem prefix_takeWhile {m l : Text} (hm : Blank m) (h : m <+: l) : m <+: l.takeWhile isBlank := by
  obtain ⟨s, rfl⟩ := h
  rw [List.takeWhile_append_of_pos]
  · exact List.prefix_append _ _
  · intro c hc
    have := hm c hc
    unfold isBlank
    simpa using this

theorem indentOf_normalize (l : Text) : indentOf (normalize l) = indentOf l := by
  unfold indentOf normalize
  by_cases h : l.all isBlank = true
  · simp [h]
  · simp [h]

theorem mem_indents {ls : List Text} {i : Text} :
    i ∈ ls.filterMap indentOf ↔ ∃ l ∈ ls, ¬ Blank l ∧ i = l.takeWhile isBlank := by
  rw [List.mem_filterMap]
  constructor
  · rintro ⟨l, hl, h⟩
    unfold indentOf at h
    by_cases hb : l.all isBlank = true
    · simp [hb] at h
    · rw [if_neg hb] at h
      exact ⟨l, hl, fun h' => hb (all_blank.2 h'), (Option.some.inj h).symm⟩
  · rintro ⟨l, hl, hb, rfl⟩
    refine ⟨l, hl, ?_⟩
    unfold indentOf
    rw [if_neg (fun h => hb (all_blank.1 h))]

theorem common_iff {ls : List Text} {m : Text} (hm : Blank m) :
    Common m ls ↔ ∀ i ∈ ls.filterMap indentOf, m <+: i := by
  constructor
  · intro h i hi
    obtain ⟨l, hl, hb, rfl⟩ := mem_indents.1 hi
    exact prefix_takeWhile hm (h.2 l hl hb)
  · intro h
    refine ⟨hm, fun l hl hb => ?_⟩
    exact (h _ (mem_indents.2 ⟨l, hl, hb, rfl⟩)).trans (List.takeWhile_prefix _)

theorem blank_of_prefix {m l : Text} (h : m <+: l) (hl : Blank l) : Blank m := fun c hc => hl c (h.subset hc)

theorem fold_margin (ls : List Text) (h : ∃ l ∈ ls, ¬ Blank l) :
    ∃ m, (ls.filterMap indentOf).foldl step none = some m ∧ Margin m ls := by
  obtain ⟨l, hl, hb⟩ := h
  have hne : l.takeWhile isBlank ∈ ls.filterMap indentOf := mem_indents.2 ⟨l, hl, hb, rfl⟩
  cases hi : ls.filterMap indentOf with
  | nil => rw [hi] at hne; exact (nomatch hne)
  | cons i is =>
    obtain ⟨r, hr, hl⟩ := fold_lcp is i [i] ⟨fun j hj => by
      rw [List.mem_singleton] at hj; subst hj; exact List.prefix_rfl, fun m hm => hm i (.head _)⟩
    refine ⟨r, by rw [List.foldl_cons]; exact hr, ?_, ?_⟩
    · have hbr : Blank r := blank_of_prefix (hl.1 i (by simp)) (by
        have : i ∈ ls.filterMap indentOf := by rw [hi]; exact .head _
        obtain ⟨l, _, _, rfl⟩ := mem_indents.1 this
        exact takeWhile_blank l)
      rw [common_iff hbr, hi]
      simpa using hl.1
    · intro m' hm'
      have := (common_iff hm'.1).1 hm'
      rw [hi] at this
      exact (hl.2 m' (by simpa using this)).length_le

theorem fold_none (ls : List Text) (h : ∀ l ∈ ls, Blank l) : (ls.filterMap indentOf).foldl step none = none := by
  have : ls.filterMap indentOf = [] := by
    apply List.filterMap_eq_nil_iff.2
    intro l hl
    unfold indentOf
    rw [if_pos (all_blank.2 (h l hl))]
  rw [this]
  rfl

theorem indents_normalize (ls : List Text) : (ls.map normalize).filterMap indentOf = ls.filterMap indentOf := by
  rw [List.filterMap_map]
  congr 1
  funext l
  exact indentOf_normalize l

theorem margin_unique {m m' : Text} {ls : List Text} (h : ∃ l ∈ ls, ¬ Blank l) (h1 : Margin m ls) (h2 : Margin m' ls) : m = m' := by
  obtain ⟨l, hl, hb⟩ := h
  have hlen : m.length = m'.length := Nat.le_antisymm (h2.2 m h1.1) (h1.2 m' h2.1)
  rcases prefix_total (h1.1.2 l hl hb) (h2.1.2 l hl hb) with hp | hp
  · exact hp.eq_of_length hlen
  · exact (hp.eq_of_length hlen.symm).symm

theorem normalize_eq (l : Text) : normalize l = if Blank l then [] else l := by
  unfold normalize
  by_cases h : Blank l
  · rw [if_pos (all_blank.2 h), if_pos h]
  · rw [if_neg (fun h' => h (all_blank.1 h')), if_neg h]

/-- **C104**: the text that is written: what is common to the indentation of all lines that are not blank is removed from
these, and blank lines are empty. -/
theorem C104_dedent (ls : List Text) (h0 : ls ≠ []) (hn : ∀ l ∈ ls, '\n' ∉ l) (hb : ∃ l ∈ ls, ¬ Blank l) :
    ∃ m, Margin m ls ∧ dedent (text ls) = text (ls.map fun l => if Blank l then [] else l.drop m.length) := by
  obtain ⟨m, hm, hM⟩ := fold_margin ls hb
  refine ⟨m, hM, ?_⟩
  unfold dedent
  simp only [← unlines_eq, lines_unlines ls h0 hn, indents_normalize, hm]
  split
  · subst m
    congr 1
    exact List.map_congr_left fun l _ => by simp [normalize_eq]
  · congr 1
    rw [List.map_map]
    refine List.map_congr_left fun l hl => ?_
    simp only [Function.comp, normalize_eq]
    by_cases h : Blank l
    · rw [if_pos h, if_pos h, removeMargin]
      simp
    · rw [if_neg h, if_neg h, removeMargin, if_pos (List.isPrefixOf_iff_prefix.2 (hM.1.2 l hl h))]

/-- **C104**: a text of blank lines becomes empty lines. -/
theorem C104_blank (ls : List Text) (h0 : ls ≠ []) (hb : ∀ l ∈ ls, Blank l) :
    dedent (text ls) = text (ls.map fun _ => []) := by
  have hn : ∀ l ∈ ls, '\n' ∉ l := by
    intro l hl h
    rcases hb l hl _ h with h | h <;> exact absurd h (by decide)
  unfold dedent
  simp only [← unlines_eq, lines_unlines ls h0 hn, indents_normalize, fold_none ls hb]
  congr 1
  exact List.map_congr_left fun l hl => by simp [normalize_eq, hb l hl]

/-- **C104**: however deep a text is indented in a script, the same is written.  `p` is the indentation, `w` what the blank
lines have. -/
theorem C104_indent (p : Text) (w : Text → Text) (ls : List Text) (h0 : ls ≠ []) (hn : ∀ l ∈ ls, '\n' ∉ l) (hp : Blank p)
    (hw : ∀ l, Blank (w l)) :
    dedent (text (ls.map fun l => if Blank l then w l else p ++ l)) = dedent (text ls) := by
  have blank_app : ∀ l : Text, Blank (p ++ l) ↔ Blank l := by
    intro l
    unfold Blank
    constructor
    · intro h c hc; exact h c (List.mem_append_right _ hc)
    · intro h c hc
      rcases List.mem_append.1 hc with hc | hc
      · exact hp c hc
      · exact h c hc
  have hblank : ∀ l : Text, Blank (if Blank l then w l else p ++ l) ↔ Blank l := by
    intro l
    by_cases h : Blank l
    · rw [if_pos h]; exact ⟨fun _ => h, fun _ => hw l⟩
    · rw [if_neg h]; exact blank_app l
  by_cases hb : ∃ l ∈ ls, ¬ Blank l
  · have hb' : ∃ l ∈ ls.map (fun l => if Blank l then w l else p ++ l), ¬ Blank l := by
      obtain ⟨l, hl, h⟩ := hb
      exact ⟨_, List.mem_map_of_mem hl, fun h' => h ((hblank l).1 h')⟩
    obtain ⟨m, hM, he⟩ := C104_dedent ls h0 hn hb
    have hn' : ∀ l ∈ ls.map (fun l => if Blank l then w l else p ++ l), '\n' ∉ l := by
      intro l' hl'
      obtain ⟨l, hl, rfl⟩ := List.mem_map.1 hl'
      have blank_nl : ∀ x : Text, Blank x → '\n' ∉ x := by
        intro x hx h
        rcases hx _ h with h | h <;> exact absurd h (by decide)
      by_cases h : Blank l
      · rw [if_pos h]; exact blank_nl _ (hw l)
      · rw [if_neg h, List.mem_append, not_or]; exact ⟨blank_nl p hp, hn l hl⟩
    obtain ⟨m', hM', he'⟩ := C104_dedent _ (by simpa using h0) hn' hb'
    have hpm : Margin (p ++ m) (ls.map fun l => if Blank l then w l else p ++ l) := by
      constructor
      · refine ⟨(blank_app m).2 hM.1.1, ?_⟩
        intro l' hl' hnb
        obtain ⟨l, hl, rfl⟩ := List.mem_map.1 hl'
        have hl2 : ¬ Blank l := fun h => hnb ((hblank l).2 h)
        rw [if_neg hl2]
        exact (List.prefix_append_right_inj p).2 (hM.1.2 l hl hl2)
      · intro m2 h2
        obtain ⟨l, hl, hlb⟩ := hb
        have key : ∀ l ∈ ls, ¬ Blank l → m2 <+: p ++ l := by
          intro l hl hlb
          have := h2.2 _ (List.mem_map_of_mem hl) (fun h' => hlb ((hblank l).1 h'))
          rwa [if_neg hlb] at this
        rcases prefix_total (key l hl hlb) (List.prefix_append p l) with h | h
        · have := h.length_le
          simp only [List.length_append]; omega
        · obtain ⟨q, rfl⟩ := h
          have : Common q ls := by
            refine ⟨fun c hc => h2.1 c (List.mem_append_right _ hc), fun x hx hxb => ?_⟩
            exact (List.prefix_append_right_inj p).1 (key x hx hxb)
          have := hM.2 q this
          simp only [List.length_append]; omega
    rw [margin_unique hb' hM' hpm] at he'
    rw [he', he, List.map_map]
    congr 1
    refine List.map_congr_left fun l _ => ?_
    simp only [Function.comp, hblank]
    by_cases h : Blank l
    · rw [if_pos h, if_pos h]
    · simp only [if_neg h, List.length_append]
      rw [List.drop_append]
      simp
  · have hb : ∀ l ∈ ls, Blank l := fun l hl => Decidable.byContradiction fun h => hb ⟨l, hl, h⟩
    rw [C104_blank ls h0 hb, C104_blank _ (by simpa using h0) (by
      intro l' hl'
      obtain ⟨l, hl, rfl⟩ := List.mem_map.1 hl'
      exact (hblank l).2 (hb l hl))]
    simp [List.map_map, Function.comp_def]

/-- a program as it is written in a script -/
def prog : List Text :=
  ["".toList, "        int main() {".toList, "  ".toList, "            return 0;".toList, "        }".toList, "    ".toList]

set_option maxRecDepth 4000 in
/-- `C104_dedent`, `C104_indent`: a program, indented, is written as it would be without the indentation. -/
example : prog ≠ [] ∧ (∀ l ∈ prog, '\n' ∉ l) ∧ (∃ l ∈ prog, ¬ Blank l) ∧
    dedent (text prog) = "\nint main() {\n\n    return 0;\n}\n".toList ∧
    dedent (text (prog.map fun l => if Blank l then [] else '\t' :: l)) = "\nint main() {\n\n    return 0;\n}\n".toList := by
  refine ⟨?_, ?_, ?_, ?_, ?_⟩ <;> decide +kernel

/-! ## The directory -/

/-- a name that `mkdtemp` may give: nothing is there, and it does not end with a slash -/
def New (k : Disk) (d : Text) : Prop := k d = none ∧ d ≠ [] ∧ d.getLast? ≠ some '/'

theorem join_dir {d n : Text} (h0 : d ≠ []) (hl : d.getLast? ≠ some '/') (hn : '/' ∉ n) : Posix.join d n = d ++ '/' :: n := by
  unfold Posix.join Posix.isabs
  have : n.head? ≠ some '/' := by
    cases n with
    | nil => simp
    | cons c n => simp only [List.head?_cons, ne_eq, Option.some.injEq]; rintro rfl; exact hn (.head _)
  simp [this, h0, hl]

theorem split_dir {d n : Text} (h0 : d ≠ []) (hl : d.getLast? ≠ some '/') (hn : '/' ∉ n) :
    Posix.split (d ++ '/' :: n) = (d, n) := by
  unfold Posix.split
  rw [Posix.head_slash _ _ hn, Posix.tail_slash _ _ hn, Posix.rstrip_snoc, Posix.rstrip_id hl]
  rw [if_neg]
  intro h
  rw [List.all_eq_true] at h
  cases hg : d.getLast? with
  | none => exact h0 (List.getLast?_eq_none_iff.1 hg)
  | some c =>
    have := h c (List.mem_append_left _ (List.mem_of_getLast? hg))
    rw [hg] at hl
    simp at this hl
    exact hl this

/-- a path is a directory or below it -/
def Within (d p : Text) : Prop := p = d ∨ ∃ r, p = d ++ '/' :: r

/-- the directory in which temporary directories are made: the one that was given, or the default -/
def Parent (dflt : Text) (dir : Option Text) (x : Text) : Prop :=
  (dir = some x ∧ x ≠ []) ∨ ((dir = none ∨ dir = some []) ∧ x = dflt)

theorem inDir_iff (d p : Text) : inDir d p = true ↔ Within d p := by
  unfold inDir Within
  simp only [Bool.or_eq_true, beq_iff_eq, List.isPrefixOf_iff_prefix]
  constructor
  · rintro (h | ⟨r, h⟩)
    · exact .inl h
    · exact .inr ⟨r, by rw [← h]; simp⟩
  · rintro (h | ⟨r, h⟩)
    · exact .inl h
    · exact .inr ⟨r, by rw [h]; simp⟩

theorem put_self (p : Text) (n : Node) (k : Disk) : put p n k p = some n := by simp [put]

theorem put_other {p q : Text} (n : Node) (k : Disk) (h : q ≠ p) : put p n k q = k q := by simp [put, h]

theorem tempfile_eq {α : Type} (fresh : Disk → Text → Text) (dflt : Text) (dir : Option Text) (delete : Bool)
    (src suffix name : Text) (block : Block α) (k : Disk) (x : Text) (hx : Parent dflt dir x) (hnew : New k (fresh k x))
    (hfile : ∀ p, Within (fresh k x) p → k p = none)
    (hn : '/' ∉ name ++ suffix) (hn0 : name ++ suffix ≠ []) :
    tempfile fresh dflt dir delete src suffix name block k =
      ((block (fresh k x ++ '/' :: (name ++ suffix))
          (put (fresh k x ++ '/' :: (name ++ suffix)) (.file (dedent src ++ ['\n'])) (put (fresh k x) .dir k))).1,
        if delete then rmtree (fresh k x) (block (fresh k x ++ '/' :: (name ++ suffix))
          (put (fresh k x ++ '/' :: (name ++ suffix)) (.file (dedent src ++ ['\n'])) (put (fresh k x) .dir k))).2
        else (block (fresh k x ++ '/' :: (name ++ suffix))
          (put (fresh k x ++ '/' :: (name ++ suffix)) (.file (dedent src ++ ['\n'])) (put (fresh k x) .dir k))).2) := by
  have hpar : orDefault dir dflt = x := by
    rcases hx with ⟨rfl, h⟩ | ⟨rfl | rfl, rfl⟩
    · simp [orDefault, h]
    · rfl
    · rfl
  have hname : Posix.join (fresh k x) name ++ suffix = fresh k x ++ '/' :: (name ++ suffix) := by
    rw [join_dir hnew.2.1 hnew.2.2 (fun h => hn (List.mem_append_left _ h))]
    simp
  have hwrite : write (fresh k x ++ '/' :: (name ++ suffix)) (dedent src ++ ['\n']) (put (fresh k x) .dir k) =
      some (put (fresh k x ++ '/' :: (name ++ suffix)) (.file (dedent src ++ ['\n'])) (put (fresh k x) .dir k)) := by
    unfold write
    rw [split_dir hnew.2.1 hnew.2.2 hn, if_pos]
    refine ⟨put_self _ _ _, ?_, hn0⟩
    rw [put_other _ _ (by simp), hfile _ (.inr ⟨_, rfl⟩)]
    simp
  unfold tempfile tempdir
  simp only [hpar, hname, hwrite]

/-- **C104**: the block of `tempfile` gets a file in a new directory, with the name, the suffix and the text that were asked
for; nothing else is different, and `tempfile` returns or raises what the block does.  (There is no slash in the name.) -/
theorem C104_file {α : Type} (fresh : Disk → Text → Text) (dflt : Text) (dir : Option Text) (delete : Bool)
    (src suffix name : Text) (block : Block α) (k : Disk) (x : Text) (hx : Parent dflt dir x) (hnew : New k (fresh k x))
    (hfile : ∀ p, Within (fresh k x) p → k p = none)
    (hn : '/' ∉ name ++ suffix) (hn0 : name ++ suffix ≠ []) :
    ∃ k1 : Disk, k1 (fresh k x) = some .dir ∧
      k1 (fresh k x ++ '/' :: (name ++ suffix)) = some (.file (dedent src ++ ['\n'])) ∧
      (∀ p, p ≠ fresh k x → p ≠ fresh k x ++ '/' :: (name ++ suffix) → k1 p = k p) ∧
      (tempfile fresh dflt dir delete src suffix name block k).1 = (block (fresh k x ++ '/' :: (name ++ suffix)) k1).1 ∧
      ∀ p, ¬ Within (fresh k x) p → (tempfile fresh dflt dir delete src suffix name block k).2 p =
        (block (fresh k x ++ '/' :: (name ++ suffix)) k1).2 p := by
  rw [tempfile_eq fresh dflt dir delete src suffix name block k x hx hnew hfile hn hn0]
  refine ⟨_, ?_, put_self _ _ _, ?_, rfl, ?_⟩
  · rw [put_other _ _ (by simp), put_self]
  · intro p h1 h2
    rw [put_other _ _ h2, put_other _ _ h1]
  · intro p hp
    cases delete with
    | false => rfl
    | true =>
      simp only [if_true, rmtree]
      rw [if_neg (fun h => hp ((inDir_iff _ _).1 h))]

/-- **C105**: nothing is left of the directory after the block, whether it returned or raised.
Partial: only if `delete=True` is given, which no caller in fbuild does (`C105_violated`). -/
theorem C105_partial {α : Type} (fresh : Disk → Text → Text) (dflt : Text) (dir : Option Text)
    (src suffix name : Text) (block : Block α) (k : Disk) (x : Text) (hx : Parent dflt dir x) (hnew : New k (fresh k x))
    (hfile : ∀ p, Within (fresh k x) p → k p = none)
    (hn : '/' ∉ name ++ suffix) (hn0 : name ++ suffix ≠ []) (p : Text) (hp : Within (fresh k x) p) :
    (tempfile fresh dflt dir true src suffix name block k).2 p = none := by
  rw [tempfile_eq fresh dflt dir true src suffix name block k x hx hnew hfile hn hn0]
  simp only [if_true, rmtree]
  rw [if_pos ((inDir_iff _ _).2 hp)]

/-- **C105**, violated: "When we regain context, remove the directory."  Unless `delete=True` is given, `tempfile` leaves the
directory with everything that the block has not removed itself; here the block does nothing. -/
theorem C105_violated {α : Type} (fresh : Disk → Text → Text) (dflt : Text) (dir : Option Text)
    (src suffix name : Text) (r : Option α) (k : Disk) (x : Text) (hx : Parent dflt dir x) (hnew : New k (fresh k x))
    (hfile : ∀ p, Within (fresh k x) p → k p = none)
    (hn : '/' ∉ name ++ suffix) (hn0 : name ++ suffix ≠ []) :
    (tempfile fresh dflt dir false src suffix name (fun _ k => (r, k)) k).2 (fresh k x ++ '/' :: (name ++ suffix)) =
      some (.file (dedent src ++ ['\n'])) := by
  rw [tempfile_eq fresh dflt dir false src suffix name _ k x hx hnew hfile hn hn0]
  exact put_self _ _ _

/-- a disk with one directory, and a `mkdtemp` -/
def exDisk : Disk := fun p => if p = "/b".toList then some .dir else none
def exFresh : Disk → Text → Text := fun _ d => d ++ "/tmpa".toList

/-- `C104_file`, `C105_partial`, `C105_violated` -/
example : Parent "/b".toList none "/b".toList ∧ New exDisk (exFresh exDisk "/b".toList) ∧
    (∀ p, Within (exFresh exDisk "/b".toList) p → exDisk p = none) ∧ '/' ∉ "temp".toList ++ ".c".toList ∧
    exDisk "/b".toList = some .dir := by
  refine ⟨.inr ⟨.inl rfl, rfl⟩, ⟨by decide, by decide, by decide⟩, ?_, by decide, by decide⟩
  intro p hp
  unfold exDisk
  rw [if_neg]
  rintro rfl
  rcases hp with h | ⟨r, h⟩
  · exact absurd h (by decide)
  · have := congrArg List.length h
    simp [exFresh] at this

end Verif.Temp
