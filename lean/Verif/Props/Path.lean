import Verif.Path.Core
/-!
# Paths: properties

C41 (`addroot`), C42 (extensions), C43 (`splitall`).
-/
namespace Verif.Path
open Verif.Posix

/-! ## Where a path leads, without links -/

/-- the parts of a path between slashes -/
def parts : Text → List Text
  | [] => [[]]
  | c :: s =>
    if c = '/' then [] :: parts s
    else match parts s with
      | [] => [[c]]
      | p :: ps => (c :: p) :: ps

/-- one more component; `stack` has the innermost directory first -/
def enter (stack : List Text) (c : Text) : List Text :=
  if c = [] ∨ c = ['.'] then stack
  else if c = ['.', '.'] then
    match stack with
    | [] => [['.', '.']]
    | d :: up => if d = ['.', '.'] then ['.', '.'] :: d :: up else up
  else c :: stack

/-- the directories a path leads through, innermost first -/
def place (p : Text) : List Text := (parts p).foldl enter []

/-- `q` is `r` or lies below it -/
def Below (r q : Text) : Prop := isabs q = isabs r ∧ ∃ inner, place q = inner ++ place r

theorem parts_ne (s : Text) : parts s ≠ [] := by
  cases s with
  | nil => simp [parts]
  | cons c s =>
    simp only [parts]
    split
    · simp
    · split <;> simp

theorem parts_slash (a b : Text) : parts (a ++ '/' :: b) = parts a ++ parts b := by
  induction a with
  | nil => simp [parts]
  | cons c a ih =>
    simp only [List.cons_append, parts]
    split
    · rw [ih]; rfl
    · rw [ih]
      cases hp : parts a with
      | nil => exact absurd hp (parts_ne a)
      | cons p ps => rfl

theorem parts_name {x : Text} (h : '/' ∉ x) : parts x = [x] := by
  induction x with
  | nil => rfl
  | cons c x ih =>
    simp only [List.mem_cons, not_or] at h
    simp only [parts, ih h.2]
    rw [if_neg (fun he => h.1 he.symm)]

theorem foldl_enter (cs : List Text) (h : ['.', '.'] ∉ cs) (s : List Text) :
    ∃ inner, cs.foldl enter s = inner ++ s := by
  induction cs generalizing s with
  | nil => exact ⟨[], rfl⟩
  | cons c cs ih =>
    simp only [List.mem_cons, not_or] at h
    obtain ⟨i, hi⟩ := ih h.2 (enter s c)
    rw [List.foldl_cons, hi]
    unfold enter
    split
    · exact ⟨i, rfl⟩
    · rw [if_neg (fun he => h.1 he.symm)]
      exact ⟨i ++ [c], by simp⟩

theorem snoc_of_last {a : Text} {c : Char} (h : a.getLast? = some c) : ∃ d, a = d ++ [c] := by
  rwa [List.getLast?_eq_some_iff] at h

/-- below a directory that is written `r` -/
theorem below_slash (r s : Text) (hr : r ≠ []) (h : ['.', '.'] ∉ parts s) : Below r (r ++ '/' :: s) := by
  refine ⟨?_, ?_⟩
  · cases r with
    | nil => exact absurd rfl hr
    | cons c r => rfl
  · unfold place
    rw [parts_slash, List.foldl_append]
    exact foldl_enter _ h _

theorem below_join (r s : Text) (hr : r ≠ []) (h : ['.', '.'] ∉ parts s) (ha : isabs s = false) :
    Below r (join r s) := by
  unfold join
  simp only [ha, Bool.false_eq_true, if_false, hr, false_or]
  split
  · rename_i hl
    obtain ⟨d, rfl⟩ := snoc_of_last hl
    refine ⟨?_, ?_⟩
    · cases d <;> rfl
    · unfold place
      have h1 : parts (d ++ ['/'] ++ s) = parts d ++ parts s := by
        rw [List.append_assoc, List.singleton_append, parts_slash]
      have h2 : parts (d ++ ['/']) = parts d ++ [[]] := parts_slash d []
      rw [h1, h2, List.foldl_append, List.foldl_append]
      simp only [List.foldl_cons, List.foldl_nil]
      have : enter ((parts d).foldl enter []) [] = (parts d).foldl enter [] := by simp [enter]
      rw [this]
      exact foldl_enter _ h _
  · exact below_slash r s hr h

/-! ## C41 -/

theorem isabs_false {x : Text} (h : '/' ∉ x) : isabs x = false := by
  cases x with
  | nil => rfl
  | cons c x =>
    simp only [List.mem_cons, not_or] at h
    have : c ≠ '/' := fun he => h.1 he.symm
    simp [isabs, this]

/-- what `addroot` puts behind the root -/
theorem inner_rel (p : Text) : isabs (if isabs p then (split p).2 else p) = false := by
  split
  · exact isabs_false (tail_noSlash p)
  · rename_i h
    simpa using h

theorem inner_parts (p : Text) (h : ['.', '.'] ∉ parts p) :
    ['.', '.'] ∉ parts (if isabs p then (split p).2 else p) := by
  split
  · show ['.', '.'] ∉ parts (tail p)
    have ht := tail_noSlash p
    rw [parts_name ht]
    intro hm
    simp only [List.mem_singleton] at hm
    apply h
    have := head_append_tail p
    rw [← this]
    cases hl : (head p).getLast? with
    | none =>
      rw [List.getLast?_eq_none_iff] at hl
      rw [hl, List.nil_append, parts_name ht]
      simpa using hm
    | some c =>
      have hc : c = '/' := by
        unfold head at hl
        rw [List.getLast?_reverse] at hl
        have := List.head?_dropWhile_not (fun c => decide (c ≠ '/')) p.reverse
        rw [hl] at this
        simpa using this
      subst hc
      obtain ⟨d, hd⟩ := snoc_of_last hl
      rw [hd, List.append_assoc, List.singleton_append, parts_slash, parts_name ht, ← hm]
      simp
  · exact h

/-- **C41**, below the root: for paths without `..` that do not start with the characters of the root, or
that start with the root as a directory.  Missing for the full claim: paths with `..`, and paths like
`foobar/x` for the root `foo`. -/
theorem C41_below_partial (p r : Text) (hr : r ≠ []) (hdd : ['.', '.'] ∉ parts p)
    (h : r.isPrefixOf p = false ∨ ∃ s, p = r ++ '/' :: s) : Below r (addroot p r) := by
  unfold addroot
  by_cases hp : r.isPrefixOf p = true
  · rw [if_pos hp]
    obtain ⟨s, rfl⟩ := h.resolve_left (by simp [hp])
    refine below_slash r s hr ?_
    rw [parts_slash] at hdd
    exact fun hm => hdd (List.mem_append_right _ hm)
  · rw [if_neg hp]
    exact below_join r _ hr (inner_parts p hdd) (inner_rel p)

/-- `foobar/x` is not moved below `foo`, and `../x` leaves the root. -/
theorem C41_below_violated :
    ¬ Below "foo".toList (addroot "foobar/x".toList "foo".toList) ∧
    ¬ Below "foo".toList (addroot "../x".toList "foo".toList) := by
  constructor
  · rintro ⟨_, inner, h⟩
    have h1 : place (addroot "foobar/x".toList "foo".toList) = ["x".toList, "foobar".toList] := by decide
    have h2 : place "foo".toList = ["foo".toList] := by decide
    rw [h1, h2] at h
    have := congrArg List.getLast? h
    simp at this
  · rintro ⟨_, inner, h⟩
    have h1 : place (addroot "../x".toList "foo".toList) = ["x".toList] := by decide
    have h2 : place "foo".toList = ["foo".toList] := by decide
    rw [h1, h2] at h
    have := congrArg List.getLast? h
    simp at this

theorem prefix_join (r s : Text) (hs : isabs s = false) : r.isPrefixOf (join r s) = true := by
  unfold join
  simp only [hs, Bool.false_eq_true, if_false]
  split <;> simp [List.isPrefixOf_iff_prefix]

/-- **C41**, twice is once: for every path and root. -/
theorem C41_idempotent (p r : Text) : addroot (addroot p r) r = addroot p r := by
  have : r.isPrefixOf (addroot p r) = true := by
    unfold addroot
    split
    · assumption
    · exact prefix_join r _ (inner_rel p)
  generalize addroot p r = q at this ⊢
  unfold addroot
  rw [if_pos this]

/-- **C41**, removing the root (with a slash at the end) gives the path back: for relative paths that do not
start with the root. -/
theorem C41_removeroot_partial (p r : Text) (hrel : isabs p = false) (hp : r.isPrefixOf p = false)
    (hr : r.getLast? ≠ some '/') : removeroot (addroot p r) (r ++ ['/']) = p := by
  have hne : r ≠ [] := by rintro rfl; simp at hp
  unfold addroot
  rw [if_neg (by simp [hp]), hrel]
  simp only [Bool.false_eq_true, if_false]
  unfold join
  rw [hrel]
  simp only [Bool.false_eq_true, if_false, hne, hr, or_self]
  unfold removeroot
  rw [if_pos]
  · have : r ++ '/' :: p = (r ++ ['/']) ++ p := by simp
    rw [this, List.drop_left]
  · rw [List.isPrefixOf_iff_prefix]
    exact ⟨p, by simp⟩

/-- With the root as it was given, a slash is left in front. -/
theorem C41_removeroot_violated :
    removeroot (addroot "x".toList "foo".toList) "foo".toList = "/x".toList := by decide

/-- **C41**, different relative paths stay different, as long as neither starts with the root. -/
theorem C41_distinct_partial (p q r : Text) (hp : isabs p = false) (hq : isabs q = false)
    (hp' : r.isPrefixOf p = false) (hq' : r.isPrefixOf q = false) (h : addroot p r = addroot q r) : p = q := by
  unfold addroot at h
  simp only [hp, hq, hp', hq', Bool.false_eq_true, if_false] at h
  unfold join at h
  rw [hp, hq] at h
  simp only [Bool.false_eq_true, if_false] at h
  split at h
  · exact List.append_cancel_left h
  · have := List.append_cancel_left h
    simpa using this

/-- `x` and `build/x` become the same file, so do `/a/x` and `/b/x`. -/
theorem C41_distinct_violated :
    addroot "x".toList "build".toList = addroot "build/x".toList "build".toList ∧
    addroot "/a/x".toList "build".toList = addroot "/b/x".toList "build".toList := by decide

example : addroot "src/a.c".toList "build".toList = "build/src/a.c".toList ∧
    Below "build".toList (addroot "src/a.c".toList "build".toList) ∧
    removeroot (addroot "src/a.c".toList "build".toList) "build/".toList = "src/a.c".toList :=
  ⟨by decide, C41_below_partial _ _ (by decide) (by decide) (.inl (by decide)),
    C41_removeroot_partial "src/a.c".toList "build".toList (by decide) (by decide) (by decide)⟩

/-! ## C42 -/

/-- an extension: a dot, and no further dot or slash -/
def IsExt (e : Text) : Prop := ∃ s, e = '.' :: s ∧ '.' ∉ s ∧ '/' ∉ s

/-- the file name has something but dots in front of the extension -/
def Named (p : Text) : Prop := ∃ c ∈ tail (splitext p).1, c ≠ '.'

theorem splitext_append (p : Text) : (splitext p).1 ++ (splitext p).2 = p := by
  unfold splitext
  simp only
  split
  · rename_i h
    have hst : ((tail p).reverse.dropWhile (fun c => c ≠ '.')) ≠ [] := by
      intro he
      rw [he] at h
      simp at h
    have hdot : ∃ l, (tail p).reverse.dropWhile (fun c => c ≠ '.') = '.' :: l := by
      cases hd : (tail p).reverse.dropWhile (fun c => c ≠ '.') with
      | nil => exact absurd hd hst
      | cons c l =>
        have := List.head?_dropWhile_not (fun c => decide (c ≠ '.')) (tail p).reverse
        rw [hd] at this
        simp at this
        subst this
        exact ⟨l, rfl⟩
    obtain ⟨l, hl⟩ := hdot
    have h3 : (tail p).reverse.takeWhile (fun c => c ≠ '.') ++ '.' :: l = (tail p).reverse := by
      rw [← hl]; exact List.takeWhile_append_dropWhile
    have h4 : tail p = l.reverse ++ '.' :: ((tail p).reverse.takeWhile (fun c => c ≠ '.')).reverse := by
      have := congrArg List.reverse h3
      simpa using this.symm
    simp only [hl, List.drop_succ_cons, List.drop_zero]
    rw [List.append_assoc, ← h4, head_append_tail]
  · simp

/-- the pieces of a path whose name is `stem ++ '.' :: e` -/
theorem splitext_dot (d stem e : Text) (hd : d = [] ∨ d.getLast? = some '/') (hs : '/' ∉ stem) (he : '/' ∉ e)
    (hde : '.' ∉ e) (hn : ∃ c ∈ stem, c ≠ '.') :
    splitext (d ++ (stem ++ '.' :: e)) = (d ++ stem, '.' :: e) := by
  have hname : '/' ∉ stem ++ '.' :: e := by simp [hs, he]
  have ht : tail (d ++ (stem ++ '.' :: e)) = stem ++ '.' :: e := by
    rcases hd with rfl | hd
    · exact tail_name hname
    · obtain ⟨d', rfl⟩ := snoc_of_last hd
      rw [List.append_assoc, List.singleton_append]
      exact tail_slash _ _ hname
  have hh : head (d ++ (stem ++ '.' :: e)) = d := by
    rcases hd with rfl | hd
    · exact head_name hname
    · obtain ⟨d', rfl⟩ := snoc_of_last hd
      rw [List.append_assoc, List.singleton_append]
      exact head_slash _ _ hname
  have hrev : (stem ++ '.' :: e).reverse = e.reverse ++ '.' :: stem.reverse := by simp
  have hall : ∀ c ∈ e.reverse, decide (c ≠ '.') = true := by
    intro c hc
    simp only [ne_eq, decide_not, Bool.not_eq_eq_eq_not, Bool.not_true, decide_eq_false_iff_not]
    rintro rfl
    exact hde (List.mem_reverse.mp hc)
  have hdrop : (e.reverse ++ '.' :: stem.reverse).dropWhile (fun c => decide (c ≠ '.')) = '.' :: stem.reverse := by
    rw [dropWhile_all _ _ hall]; simp
  have htake : (e.reverse ++ '.' :: stem.reverse).takeWhile (fun c => decide (c ≠ '.')) = e.reverse := by
    rw [takeWhile_all _ _ hall]; simp
  unfold splitext
  simp only [ht, hh, hrev, hdrop, htake, List.drop_succ_cons, List.drop_zero, List.reverse_reverse]
  rw [if_pos]
  obtain ⟨c, hc, hne⟩ := hn
  rw [List.any_eq_true]
  exact ⟨c, List.mem_reverse.mpr hc, by simpa using hne⟩

/-- the part in front of the extension keeps the directory -/
theorem splitext_head (p : Text) : head (splitext p).1 = head p := by
  have hlast : head p = [] ∨ (head p).getLast? = some '/' := by
    cases hl : (head p).getLast? with
    | none => left; rwa [List.getLast?_eq_none_iff] at hl
    | some c =>
      right
      unfold head at hl
      rw [List.getLast?_reverse] at hl
      have := List.head?_dropWhile_not (fun c => decide (c ≠ '/')) p.reverse
      rw [hl] at this
      have : c = '/' := by simpa using this
      rw [this]
  unfold splitext
  simp only
  split
  · have hns : '/' ∉ (((tail p).reverse.dropWhile (fun c => c ≠ '.')).drop 1).reverse := by
      intro hm
      have h1 := List.mem_of_mem_drop (List.mem_reverse.mp hm)
      have h2 := (List.dropWhile_sublist _).subset h1
      exact tail_noSlash p (List.mem_reverse.mp h2)
    rcases hlast with h | h
    · rw [h, List.nil_append, head_name hns]
    · obtain ⟨d, hd⟩ := snoc_of_last h
      rw [hd, List.append_assoc, List.singleton_append, head_slash _ _ hns]
  · rfl

/-- **C42**: for an extension with one dot and a file name that is not only dots, the directory and the part
in front of the extension stay, and the new extension is read back.  Missing for the full claim: other
extensions and names. -/
theorem C42_replaceext_partial (p e : Text) (he : IsExt e) (hn : Named p) :
    splitext (replaceext p e) = ((splitext p).1, e) ∧ head (replaceext p e) = head p := by
  obtain ⟨s, rfl, hs1, hs2⟩ := he
  obtain ⟨c, hc, hne⟩ := hn
  have hlast : head (splitext p).1 = [] ∨ (head (splitext p).1).getLast? = some '/' := by
    cases hl : (head (splitext p).1).getLast? with
    | none => left; rwa [List.getLast?_eq_none_iff] at hl
    | some c =>
      right
      unfold head at hl
      rw [List.getLast?_reverse] at hl
      have := List.head?_dropWhile_not (fun c => decide (c ≠ '/')) (splitext p).1.reverse
      rw [hl] at this
      have : c = '/' := by simpa using this
      rw [this]
  have hrep : replaceext p ('.' :: s) =
      head (splitext p).1 ++ (tail (splitext p).1 ++ '.' :: s) := by
    unfold replaceext
    rw [← List.append_assoc, head_append_tail]
  have h1 : splitext (replaceext p ('.' :: s)) = ((splitext p).1, '.' :: s) := by
    rw [hrep, splitext_dot _ _ _ hlast (tail_noSlash _) hs2 hs1 ⟨c, hc, hne⟩, head_append_tail]
  refine ⟨h1, ?_⟩
  have h2 := splitext_head (replaceext p ('.' :: s))
  rw [h1] at h2
  rw [← h2, splitext_head]

/-- **C42**: the last replacement counts. -/
theorem C42_override_partial (p e e' : Text) (he : IsExt e) (hn : Named p) :
    replaceext (replaceext p e) e' = replaceext p e' := by
  unfold replaceext
  have := (C42_replaceext_partial p e he hn).1
  unfold replaceext at this
  rw [this]

/-- **C42**: `replaceexts` replaces exactly the extensions of the dictionary. -/
theorem C42_replaceexts (p : Text) (exts : List (Text × Text)) :
    (∀ e', exts.lookup (splitext p).2 = some e' → replaceexts p exts = replaceext p e') ∧
    ((∀ e', ((splitext p).2, e') ∉ exts) → replaceexts p exts = p) := by
  constructor
  · intro e' h
    simp [replaceexts, h, replaceext]
  · intro h
    have : exts.lookup (splitext p).2 = none := by
      rw [List.lookup_eq_none_iff]
      rintro ⟨a, b⟩ hm
      simp only [bne_iff_ne, ne_eq]
      intro he
      exact h b (he ▸ hm)
    simp [replaceexts, this]

/-- `a.x` with the extension `.tar.gz` and then `.o` is `a.tar.o`; the extension of `dir/` replaced by `.c`
is not `.c`. -/
theorem C42_violated :
    replaceext (replaceext "a.x".toList ".tar.gz".toList) ".o".toList = "a.tar.o".toList ∧
    replaceext "a.x".toList ".o".toList = "a.o".toList ∧
    splitext (replaceext "dir/".toList ".c".toList) = ("dir/.c".toList, []) := by decide

example : replaceext "src/a.b.c".toList ".o".toList = "src/a.b.o".toList ∧
    splitext (replaceext "src/a.b.c".toList ".o".toList) = ("src/a.b".toList, ".o".toList) :=
  ⟨by decide, (C42_replaceext_partial "src/a.b.c".toList ".o".toList ⟨['o'], by decide⟩
    ⟨'a', by decide⟩).1.trans (by decide)⟩

/-! ## C43 -/

/-- `os.path.join(*ps)` -/
def joinAll (ps : List Text) : Text := ps.foldl join []

/-- runs of slashes become one slash -/
def squeeze : Text → Text
  | [] => []
  | [c] => [c]
  | c :: d :: s => if c = '/' ∧ d = '/' then squeeze (d :: s) else c :: squeeze (d :: s)

theorem squeeze_last (s : Text) : (squeeze s).getLast? = s.getLast? := by
  induction s using squeeze.induct with
  | case1 => rfl
  | case2 c => rfl
  | case3 c d s h ih =>
    simp only [squeeze, h, and_self, if_true] at ih ⊢
    rw [ih]
    simp
  | case4 c d s h ih =>
    simp only [squeeze, h, if_false]
    rw [List.getLast?_cons_cons, ← ih]
    cases hq : squeeze (d :: s) with
    | nil =>
      rw [hq] at ih
      have := List.getLast?_eq_none_iff.mp ih.symm
      simp at this
    | cons x l => rw [List.getLast?_cons_cons]

theorem squeeze_append (a b : Text) (h : a.getLast? ≠ some '/') : squeeze (a ++ b) = squeeze a ++ squeeze b := by
  induction a using squeeze.induct with
  | case1 => rfl
  | case2 c =>
    simp only [List.getLast?_singleton, ne_eq, Option.some.injEq] at h
    cases b with
    | nil => rfl
    | cons d b => simp [squeeze, h]
  | case3 c d s hc ih =>
    rw [List.getLast?_cons_cons] at h
    have := ih h
    simp only [List.cons_append, squeeze, hc, and_self, if_true] at this ⊢
    exact this
  | case4 c d s hc ih =>
    rw [List.getLast?_cons_cons] at h
    have := ih h
    simp only [List.cons_append, squeeze, hc, if_false] at this ⊢
    rw [this]

theorem squeeze_slashes (s t : Text) (hs : ∀ c ∈ s, c = '/') : squeeze ('/' :: (s ++ t)) = squeeze ('/' :: t) := by
  induction s with
  | nil => rfl
  | cons c s ih =>
    have hc := hs c (.head _)
    subst hc
    rw [List.cons_append]
    conv => lhs; rw [squeeze]
    rw [if_pos ⟨rfl, rfl⟩]
    exact ih (fun c hc => hs c (.tail _ hc))

/-- a text is the text without slashes at the end, and these slashes -/
theorem rstrip_append (h : Text) : ∃ s, h = rstrip h ++ s ∧ (∀ c ∈ s, c = '/') ∧ (rstrip h).getLast? ≠ some '/' := by
  refine ⟨(h.reverse.takeWhile (fun c => c = '/')).reverse, ?_, ?_, ?_⟩
  · unfold rstrip
    rw [← List.reverse_append, List.takeWhile_append_dropWhile, List.reverse_reverse]
  · intro c hc
    rw [List.mem_reverse] at hc
    have := List.all_takeWhile (p := fun c => decide (c = '/')) (l := h.reverse)
    simpa using List.all_eq_true.mp this c hc
  · unfold rstrip
    rw [List.getLast?_reverse]
    intro hh
    have := List.head?_dropWhile_not (fun c => decide (c = '/')) h.reverse
    rw [hh] at this
    simp at this

theorem head_last (p : Text) : head p = [] ∨ (head p).getLast? = some '/' := by
  cases hl : (head p).getLast? with
  | none => left; rwa [List.getLast?_eq_none_iff] at hl
  | some c =>
    right
    unfold head at hl
    rw [List.getLast?_reverse] at hl
    have := List.head?_dropWhile_not (fun c => decide (c ≠ '/')) p.reverse
    rw [hl] at this
    have : c = '/' := by simpa using this
    rw [this]

/-- only slashes -/
theorem split_slashes {h : Text} (hs : ∀ c ∈ h, c = '/') : split h = (h, []) := by
  have ht : tail h = [] := by
    unfold tail
    cases hr : h.reverse with
    | nil => rfl
    | cons c l =>
      have : c = '/' := hs c (by rw [← List.mem_reverse, hr]; exact .head _)
      subst this
      simp
  have hh : head h = h := by
    have := head_append_tail h
    rwa [ht, List.append_nil] at this
  unfold split
  rw [hh, ht, if_pos]
  rw [List.all_eq_true]
  intro c hc
  simpa using hs c hc

/-- the first part may be the root directory, all other parts are names without a slash -/
def Components (ps : List Text) : Prop :=
  ∃ root names, ps = root ++ names ∧ (∀ x ∈ names, '/' ∉ x) ∧
    (root = [] ∨ ∃ r, root = [r] ∧ ∀ c ∈ r, c = '/')

theorem Components.snoc {ps : List Text} {x : Text} (h : Components ps) (hx : '/' ∉ x) : Components (ps ++ [x]) := by
  obtain ⟨root, names, rfl, hn, hr⟩ := h
  refine ⟨root, names ++ [x], by simp, ?_, hr⟩
  intro y hy
  rcases List.mem_append.mp hy with h | h
  · exact hn y h
  · simp only [List.mem_singleton] at h; exact h ▸ hx

/-- The directory of a path is the path only for the root directory and the empty path. -/
theorem split_self {p : Text} (h : (split p).1 = p) : ∀ c ∈ p, c = '/' := by
  rcases head_last p with hh | hh
  · have : (split p).1 = [] := by unfold split; rw [hh]; rfl
    rw [← h, this]
    simp
  · by_cases hall : (head p).all (fun c => c = '/') = true
    · have he : (split p).1 = head p := by
        unfold split; simp only; rw [if_pos hall]
      rw [he] at h
      rw [h] at hall
      intro c hc
      simpa using List.all_eq_true.mp hall c hc
    · exfalso
      have he : (split p).1 = rstrip (head p) := by
        unfold split; simp only; rw [if_neg hall]
      rw [he] at h
      obtain ⟨s, hs, _, hns⟩ := rstrip_append (head p)
      have h1 := congrArg List.length hs
      have h2 := congrArg List.length (head_append_tail p)
      have h3 := congrArg List.length h
      rw [List.length_append] at h1 h2
      have hs0 : s = [] := List.eq_nil_of_length_eq_zero (by omega)
      rw [hs0, List.append_nil] at hs
      rw [hs] at hh
      exact hns hh

/-- The loop ends, and what it collects is the path. -/
theorem splitall_loop (m : Nat) : ∀ (p : Text), p.length ≤ m → ∃ ps,
    (∀ acc, splitallFrom (m + 1) p p acc = some (ps ++ acc.reverse)) ∧ Components ps ∧
      squeeze (joinAll ps) = squeeze p := by
  induction m with
  | zero =>
    intro p hp
    have : p = [] := List.eq_nil_of_length_eq_zero (by omega)
    subst this
    refine ⟨[], ?_, ⟨[], [], rfl, by simp, .inl rfl⟩, rfl⟩
    intro acc
    have : split [] = ([], []) := by decide
    simp [splitallFrom, this]
  | succ m ih =>
    intro p hp
    by_cases hself : (split p).1 = p
    · -- empty or only slashes
      by_cases hne : p = []
      · refine ⟨[], ?_, ⟨[], [], rfl, by simp, .inl rfl⟩, by rw [hne]; rfl⟩
        intro acc
        simp only [splitallFrom, hself, if_true]
        rw [if_neg (by simp [hne])]
        simp
      · refine ⟨[p], ?_, ⟨[p], [], rfl, by simp, .inr ⟨p, rfl, split_self hself⟩⟩, ?_⟩
        · intro acc
          simp only [splitallFrom, hself, if_true]
          rw [if_pos hne]
          simp
        · have : joinAll [p] = p := by
            simp only [joinAll, List.foldl_cons, List.foldl_nil, join]
            split <;> simp
          rw [this]
    · have hlen : (split p).1.length < p.length := by
        have h1 := head_append_tail p
        have h2 : (split p).1.length ≤ (head p).length := by
          unfold split
          simp only
          split
          · exact Nat.le_refl _
          · obtain ⟨s, hs, _⟩ := rstrip_append (head p)
            have := congrArg List.length hs
            rw [List.length_append] at this
            omega
        have h3 : (head p).length + (tail p).length = p.length := by
          rw [← List.length_append, h1]
        rcases Nat.lt_or_ge (split p).1.length p.length with h | h
        · exact h
        · exfalso
          have ht : tail p = [] := List.eq_nil_of_length_eq_zero (by omega)
          rw [ht, List.append_nil] at h1
          apply hself
          unfold split
          simp only
          split
          · exact h1
          · obtain ⟨s, hs, _⟩ := rstrip_append (head p)
            have hl : (split p).1 = rstrip (head p) := by
              unfold split
              simp only
              rw [if_neg ‹_›]
            rw [hl] at h
            have := congrArg List.length hs
            rw [List.length_append] at this
            have hse : s = [] := List.eq_nil_of_length_eq_zero (by omega)
            rw [hse, List.append_nil] at hs
            rw [← hs, h1]
      obtain ⟨ps, h1, hcomp, h2⟩ := ih (split p).1 (by omega)
      refine ⟨ps ++ [tail p], ?_, hcomp.snoc (tail_noSlash p), ?_⟩
      · intro acc
        rw [splitallFrom]
        simp only [hself, if_false]
        rw [h1]
        simp [split]
      · have hj : joinAll (ps ++ [tail p]) = join (joinAll ps) (tail p) := by
          simp [joinAll, List.foldl_append]
        rw [hj]
        have hnt := tail_noSlash p
        unfold join
        simp only [isabs_false hnt, Bool.false_eq_true, if_false]
        have hp := head_append_tail p
        -- the last characters agree
        have hlast : (joinAll ps).getLast? = (split p).1.getLast? := by
          rw [← squeeze_last, h2, squeeze_last]
        rcases head_last p with hh | hh
        · have he : (split p).1 = [] := by
            unfold split; rw [hh]; rfl
          rw [he] at hlast
          simp only [List.getLast?_nil, List.getLast?_eq_none_iff] at hlast
          rw [hlast, if_pos (.inl rfl)]
          rw [hh] at hp
          simp only [List.nil_append] at hp ⊢
          rw [hp]
        · by_cases hall : (head p).all (fun c => c = '/') = true
          · have he : (split p).1 = head p := by
              unfold split; simp only; rw [if_pos hall]
            have hsl : ∀ c ∈ head p, c = '/' := by
              intro c hc
              simpa using List.all_eq_true.mp hall c hc
            -- the loop ends in the next round
            have hps : ps = [head p] := by
              have hq := h1 []
              rw [he] at hq
              have hne : head p ≠ [] := by intro h; rw [h] at hh; simp at hh
              simp only [splitallFrom, split_slashes hsl, if_true] at hq
              rw [if_pos hne] at hq
              simpa using hq.symm
            have hjp : joinAll ps = head p := by
              rw [hps]
              simp only [joinAll, List.foldl_cons, List.foldl_nil, join]
              split <;> simp
            rw [hjp, if_pos (.inr hh), hp]
          · have he : (split p).1 = rstrip (head p) := by
              unfold split; simp only; rw [if_neg hall]
            obtain ⟨s, hs, hsl, hns⟩ := rstrip_append (head p)
            rw [he] at hlast h2
            have hne : joinAll ps ≠ [] := by
              intro hje
              rw [hje] at hlast
              simp only [List.getLast?_nil] at hlast
              have hre : rstrip (head p) = [] := by
                rw [← List.getLast?_eq_none_iff]; exact hlast.symm
              apply hall
              rw [List.all_eq_true]
              intro c hc
              rw [hs, hre, List.nil_append] at hc
              simpa using hsl c hc
            rw [if_neg (by
              rintro (h | h)
              · exact hne h
              · rw [hlast] at h; exact hns h)]
            rw [squeeze_append _ _ (by rw [hlast]; exact hns), h2]
            cases s with
            | nil =>
              rw [List.append_nil] at hs
              rw [hs] at hh
              exact absurd hh hns
            | cons c s =>
              have hc := hsl c (.head _)
              subst hc
              have hpp : p = rstrip (head p) ++ '/' :: (s ++ tail p) := by
                conv => lhs; rw [← hp, hs]
                simp
              conv => rhs; rw [hpp]
              rw [squeeze_append _ _ hns, squeeze_slashes s _ (fun c hc => hsl c (.tail _ hc))]

/-- **C43**: `splitall` returns; its parts are components, and joined they give the path up to runs of
slashes. -/
theorem C43_splitall (p : Text) :
    (∃ ps, Splitall p ps) ∧ ∀ ps, Splitall p ps → Components ps ∧ squeeze (joinAll ps) = squeeze p := by
  obtain ⟨ps, h1, hcomp, h2⟩ := splitall_loop p.length p (Nat.le_refl _)
  refine ⟨⟨ps, p.length + 1, by simpa using h1 []⟩, ?_⟩
  rintro qs ⟨n, hn⟩
  -- more rounds do not change the result
  have mono : ∀ n old path acc r, splitallFrom n old path acc = some r →
      splitallFrom (n + 1) old path acc = some r := by
    intro n
    induction n with
    | zero => intro old path acc r h; simp [splitallFrom] at h
    | succ n ih =>
      intro old path acc r h
      simp only [splitallFrom] at h
      rw [splitallFrom]
      split
      · rename_i hc; rw [if_pos hc] at h; exact h
      · rename_i hc; rw [if_neg hc] at h; exact ih _ _ _ _ h
  have mono' : ∀ k n old path acc r, splitallFrom n old path acc = some r →
      splitallFrom (n + k) old path acc = some r := by
    intro k
    induction k with
    | zero => intro n old path acc r h; exact h
    | succ k ih => intro n old path acc r h; exact mono _ _ _ _ _ (ih _ _ _ _ _ h)
  have e1 := mono' (p.length + 1) n _ _ _ _ hn
  have e2 := mono' n (p.length + 1) _ _ _ _ (by simpa using h1 [])
  rw [Nat.add_comm] at e1
  rw [e1] at e2
  simp only [Option.some.injEq] at e2
  rw [e2]
  exact ⟨hcomp, h2⟩

example : Splitall "/foo//bar/baz.ext".toList ["/".toList, "foo".toList, "bar".toList, "baz.ext".toList] :=
  ⟨10, by decide⟩

example : squeeze (joinAll ["/".toList, "foo".toList, "bar".toList, "baz.ext".toList]) = "/foo/bar/baz.ext".toList := by
  decide

/-- the directory and the name of a path put together again -/
theorem split_join_name (p n : Text) (hn : '/' ∉ n) : split (join (split p).1 n) = ((split p).1, n) := by
  have habs : isabs n = false := by
    unfold isabs
    cases n with
    | nil => rfl
    | cons c n => simp at hn ⊢; exact fun h => hn.1 h.symm
  have key : ∀ d : Text, d = [] ∨ d.getLast? = some '/' → head (d ++ n) = d ∧ tail (d ++ n) = n := by
    intro d hd
    rcases hd with rfl | hd
    · rw [List.nil_append]
      have h1 := head_name hn
      have h2 := head_append_tail n
      rw [h1, List.nil_append] at h2
      exact ⟨h1, h2⟩
    · obtain ⟨d', rfl⟩ := snoc_of_last hd
      have h1 : head (d' ++ ['/'] ++ n) = d' ++ ['/'] := by
        rw [List.append_assoc, List.singleton_append, head_slash _ _ hn]
      have h2 := head_append_tail (d' ++ ['/'] ++ n)
      rw [h1] at h2
      exact ⟨h1, List.append_cancel_left h2⟩
  have hd : (split p).1 = if (head p).all (fun c => c = '/') then head p else rstrip (head p) := rfl
  by_cases hall : (head p).all (fun c => c = '/') = true
  · rw [if_pos hall] at hd
    rw [hd]
    have hj : join (head p) n = head p ++ n := by
      unfold join; rw [habs, if_pos (head_last p)]; rfl
    obtain ⟨h1, h2⟩ := key (head p) (head_last p)
    rw [hj]
    unfold split
    rw [h1, h2, if_pos hall]
  · rw [if_neg hall] at hd
    rw [hd]
    obtain ⟨s, hs, hsl, hns⟩ := rstrip_append (head p)
    have hne : rstrip (head p) ≠ [] := by
      intro h0
      apply hall
      rw [List.all_eq_true]
      intro c hc
      rw [hs, h0, List.nil_append] at hc
      simpa using hsl c hc
    have hj : join (rstrip (head p)) n = rstrip (head p) ++ ['/'] ++ n := by
      unfold join
      rw [habs, if_neg (by simp only [Bool.false_eq_true, not_false_eq_true]), if_neg (not_or.2 ⟨hne, hns⟩)]
      simp
    obtain ⟨h1, h2⟩ := key (rstrip (head p) ++ ['/']) (.inr (by simp))
    rw [hj]
    unfold split
    rw [h1, h2, if_neg, rstrip_snoc, rstrip_id hns]
    intro h0
    rw [List.all_eq_true] at h0
    cases hl : (rstrip (head p)).getLast? with
    | none => exact hne (List.getLast?_eq_none_iff.1 hl)
    | some c =>
      have := h0 c (List.mem_append_left _ (List.mem_of_getLast? hl))
      simp only [decide_eq_true_eq] at this
      rw [this] at hl
      exact hns hl

/-- **C65**: `addprefix` puts the prefix in front of the file name and keeps the directory.  (The statement is about prefixes without a
slash.) -/
theorem C65_addprefix (p pre : Text) (hp : '/' ∉ pre) :
    split (addprefix p pre) = ((split p).1, pre ++ (split p).2) := by
  refine split_join_name p _ ?_
  simp only [List.mem_append, not_or]
  exact ⟨hp, tail_noSlash p⟩

example : addprefix "src//a.c".toList "lib".toList = "src/liba.c".toList ∧ '/' ∉ "lib".toList ∧
    split "src//a.c".toList = ("src".toList, "a.c".toList) := by decide

end Verif.Path
