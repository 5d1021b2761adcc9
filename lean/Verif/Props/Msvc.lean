import Verif.Msvc.Core
import Verif.Props.Library
/-!
# Properties of the builder for Visual C

C90 and C91.
-/
namespace Verif.Msvc

open Library (Obj Same Sames)

/-! ## C90: specification -/

/-- A line that `cl /showIncludes` prints: a note about a header, indented according to how deep it is included, or something
else. -/
inductive Msg where
  | note (depth : Nat) (path : Text)
  | other (line : Text)

/-- how a note begins -/
def noteStart : Text := "Note: including file:".toList

/-- as it is printed -/
def Msg.text : Msg → Text
  | .note depth path => noteStart ++ List.replicate (depth + 1) ' ' ++ path ++ "\r\n".toList
  | .other line => line ++ "\n".toList

/-- paths and lines contain no line end; a path does not start with a blank, and another line not with `Note:` -/
def Msg.Plain : Msg → Prop
  | .note _ path => '\n' ∉ path ∧ path.head? ≠ some ' '
  | .other line => '\n' ∉ line ∧ ¬ "Note:".toList <+: line

/-- the header of a note -/
def Msg.header : Msg → Option Text
  | .note _ path => some path
  | .other _ => none

/-- what the user should see of it: not the notes, and not the name of the source -/
def Msg.shown (srcName : Text) : Msg → Text
  | .note _ _ => []
  | .other line => if line = srcName ++ ['\r'] then [] else line ++ ['\n']

/-! ## C90: proofs -/

theorem nl : "\n".toList = ['\n'] := by decide
theorem rn : "\r\n".toList = ['\r', '\n'] := by decide
theorem noteWords : noteStart = "Note:".toList ++ ' ' :: "including file:".toList := by decide

theorem go_line (cur l rest : Text) (h : '\n' ∉ l) :
    lines.go cur (l ++ '\n' :: rest) = (cur ++ l ++ ['\n']) :: lines.go [] rest := by
  induction l generalizing cur with
  | nil => simp [lines.go]
  | cons c l ih =>
    simp only [List.mem_cons, not_or] at h
    have hc : ¬ c = '\n' := Ne.symm h.1
    simp only [List.cons_append, lines.go, if_neg hc]
    rw [ih _ h.2]
    simp

theorem lines_line (l rest : Text) (h : '\n' ∉ l) : lines (l ++ '\n' :: rest) = (l ++ ['\n']) :: lines rest := by
  simp only [lines, go_line [] l rest h, List.nil_append]

theorem text_line {m : Msg} (h : m.Plain) : ∃ l, '\n' ∉ l ∧ m.text = l ++ ['\n'] := by
  cases m with
  | note d p =>
    refine ⟨noteStart ++ List.replicate (d + 1) ' ' ++ p ++ ['\r'], ?_, ?_⟩
    · simp only [List.mem_append, List.mem_replicate, not_or]
      exact ⟨⟨⟨by decide +kernel, by simp⟩, h.1⟩, by simp⟩
    · simp only [Msg.text, rn, List.append_assoc, List.cons_append, List.nil_append]
  | other l => exact ⟨l, h.1, by rw [Msg.text, nl]⟩

theorem lines_text (ms : List Msg) (h : ∀ m ∈ ms, m.Plain) : lines (ms.flatMap Msg.text) = ms.map Msg.text := by
  induction ms with
  | nil => rfl
  | cons m ms ih =>
    obtain ⟨l, hl, ht⟩ := text_line (h m (by simp))
    rw [List.flatMap_cons, List.map_cons, ht, List.append_assoc, List.singleton_append, lines_line _ _ hl,
      ih fun m hm => h m (by simp [hm])]

theorem dropWhile_replicate (n : Nat) (s : Text) (h : s.head? ≠ some ' ') :
    (List.replicate n ' ' ++ s).dropWhile (· = ' ') = s := by
  induction n with
  | zero =>
    cases s with
    | nil => rfl
    | cons c s =>
      have : c ≠ ' ' := by simpa using h
      simp [this]
  | succ n ih => simpa [List.replicate_succ, List.dropWhile_cons] using ih

theorem after_append (x s : Text) : after x (x ++ s) = some s := by
  have : x.isPrefixOf (x ++ s) = true := by rw [List.isPrefixOf_iff_prefix]; exact List.prefix_append ..
  simp [after, this]

theorem depLine_note (d : Nat) (p : Text) (h : (Msg.note d p).Plain) : depLine (Msg.note d p).text = some p := by
  have e : (Msg.note d p).text =
      "Note:".toList ++ (' ' :: ("including file:".toList ++ (' ' :: (List.replicate d ' ' ++ (p ++ "\r\n".toList))))) := by
    simp only [Msg.text, List.replicate_succ, noteWords, List.append_assoc, List.cons_append]
  rw [e]
  unfold depLine
  rw [after_append]
  have h1 : blanks (' ' :: ("including file:".toList ++ (' ' :: (List.replicate d ' ' ++ (p ++ "\r\n".toList))))) =
      some ("including file:".toList ++ (' ' :: (List.replicate d ' ' ++ (p ++ "\r\n".toList)))) := by
    simp only [blanks]
    have : ∀ x : Text, ("including file:".toList ++ x).dropWhile (· = ' ') = "including file:".toList ++ x := by
      intro x
      rw [show "including file:".toList = 'i' :: "ncluding file:".toList by decide, List.cons_append]
      exact List.dropWhile_cons_of_neg (by decide)
    rw [this]
  have h2 : blanks (' ' :: (List.replicate d ' ' ++ (p ++ "\r\n".toList))) = some (p ++ "\r\n".toList) := by
    simp only [blanks]
    rw [dropWhile_replicate]
    cases p with
    | nil => rw [rn]; simp
    | cons c p => simpa using h.2
  have h3 : "\r\n".toList.isSuffixOf (p ++ "\r\n".toList) = true := by
    rw [List.isSuffixOf_iff_suffix]; exact List.suffix_append ..
  simp only [h1, after_append, h2, h3, if_true]
  rw [rn, List.length_append]
  simp

theorem depLine_other (l : Text) (h : (Msg.other l).Plain) : depLine (Msg.other l).text = none := by
  unfold depLine
  have : after "Note:".toList (Msg.other l).text = none := by
    unfold after
    rw [if_neg]
    rw [List.isPrefixOf_iff_prefix]
    intro hp
    refine h.2 ?_
    have hs : ("Note:".toList) <+: l ++ ['\n'] := by rw [← nl]; exact hp
    rcases List.prefix_concat_iff.mp (by simpa [List.concat_eq_append] using hs) with he | hl
    · exfalso
      have := congrArg List.getLast? he
      rw [List.getLast?_concat] at this
      exact absurd this (by decide)
    · exact hl
  rw [this]

/-! ## C90 -/

/-- **C90**: `compile` reports each header in the notes of the compiler, in their order, and shows the user all other lines.

Partial: the paths have no blank in front, and a header for which there is no relative path is left out
(`C90_drive_violated`). -/
theorem C90_output_partial (relpath : Text → Option Text) (loud : Bool) (srcName : Text) (ms : List Msg)
    (h : ∀ m ∈ ms, m.Plain) :
    (compileOutput relpath loud srcName (ms.flatMap Msg.text)).1 = ms.filterMap (fun m => m.header.bind relpath) ∧
    (compileOutput relpath loud srcName (ms.flatMap Msg.text)).2 = if loud then ms.flatMap (Msg.shown srcName) else [] := by
  unfold compileOutput
  rw [lines_text ms h]
  induction ms with
  | nil => cases loud <;> exact ⟨rfl, rfl⟩
  | cons m ms ih =>
    obtain ⟨h1, h2⟩ := ih fun m hm => h m (by simp [hm])
    have hm := h m (by simp)
    cases m with
    | note d p =>
      simp only [List.map_cons, read, depLine_note d p hm]
      cases hr : relpath p with
      | none => simp [h1, h2, Msg.header, Msg.shown, hr]
      | some q => simp [h1, h2, Msg.header, Msg.shown, hr]
    | other l =>
      simp only [List.map_cons, read, depLine_other l hm]
      have e : ((Msg.other l).text ≠ srcName ++ "\r\n".toList) ↔ ¬ l = srcName ++ ['\r'] := by
        have : srcName ++ "\r\n".toList = (srcName ++ ['\r']) ++ ['\n'] := by rw [rn]; simp
        simp only [Msg.text, this, ne_eq]
        rw [nl, List.append_left_inj]
      cases loud with
      | false => simp [h1, h2, Msg.header]
      | true =>
        by_cases hl : l = srcName ++ ['\r']
        · have : ¬ ((Msg.other l).text ≠ srcName ++ "\r\n".toList) := fun hn => e.mp hn hl
          simp only [true_and, if_neg this, h1, h2, if_true]
          simp [Msg.header, Msg.shown, hl]
        · have : (Msg.other l).text ≠ srcName ++ "\r\n".toList := e.mpr hl
          simp only [true_and, if_pos this, h1, h2, if_true]
          simp [Msg.header, Msg.shown, hl, Msg.text, nl]

/-- hypotheses met: a header that includes another, and a warning -/
example :
    let ms := [Msg.other "a.c\r".toList, .note 0 "src\\a b.h".toList, .note 1 "src\\b.h".toList,
      .other "a.c(3): warning\r".toList]
    (∀ m ∈ ms, m.Plain) ∧
    compileOutput some true "a.c".toList (ms.flatMap Msg.text) =
      (["src\\a b.h".toList, "src\\b.h".toList], "a.c(3): warning\r\n".toList) := by
  refine ⟨?_, by decide +kernel⟩
  simp only [List.mem_cons, List.not_mem_nil, or_false, forall_eq_or_imp, forall_eq]
  refine ⟨⟨by decide +kernel, by decide +kernel⟩, ⟨by decide +kernel, by decide +kernel⟩, ⟨by decide +kernel, by decide +kernel⟩,
    by decide +kernel, by decide +kernel⟩

/-- **C90** is false for headers on another drive: no relative path leads there (`ValueError`), and the header is no
dependency, whatever else happens.  The source is not compiled again when it changes. -/
theorem C90_drive_violated (relpath : Text → Option Text) (loud : Bool) (srcName : Text) (ms : List Msg)
    (h : ∀ m ∈ ms, m.Plain) (hr : ∀ m ∈ ms, ∀ p, m.header = some p → relpath p = none) :
    (compileOutput relpath loud srcName (ms.flatMap Msg.text)).1 = [] := by
  rw [(C90_output_partial relpath loud srcName ms h).1, List.filterMap_eq_nil_iff]
  intro m hm
  cases hp : m.header with
  | none => rfl
  | some p => simpa using hr m hm p hp

/-- **C90** is false for a compiler that speaks another language: its notes are not recognised, so no header is
reported, and the notes are shown. -/
theorem C90_language_violated :
    compileOutput some true "a.c".toList "Hinweis: Einlesen der Datei: a.h\r\n".toList =
      ([], "Hinweis: Einlesen der Datei: a.h\r\n".toList) := by decide +kernel

/-! ## C91: specification -/

/-- what a library was linked with -/
def deps : Obj → List Obj
  | .lib _ _ l _ => l
  | _ => []

def libpaths : Obj → List Obj
  | .lib _ p _ _ => p
  | _ => []

def external : Obj → List Obj
  | .lib _ _ _ x => x
  | _ => []

/-- The libraries needed: those given, and those that needed ones were linked with. -/
inductive Needed (roots : List Obj) : Obj → Prop
  | root {o : Obj} : o ∈ roots → Needed roots o
  | dep {o d : Obj} : Needed roots o → d ∈ deps o → Needed roots d

/-- The file that stands for the library on the command line: the import library of a `.dll`, else itself. -/
def ImportOf (s t : Text) : Prop :=
  (∃ u, s = u ++ ".dll".toList ∧ t = u ++ ".lib".toList) ∨ ((¬ ∃ u, s = u ++ ".dll".toList) ∧ t = s)

/-- each library is there once, left of the libraries it needs -/
def Ordered (libs : List Obj) : Prop :=
  ∀ pre o post, libs = pre ++ o :: post → (∀ d ∈ deps o, ∃ d' ∈ post, Same d' d) ∧ ∀ d' ∈ post, ¬ Same d' o

/-! ## C91: proofs -/

theorem has_iff {xs : List Obj} {x : Obj} : has xs x = true ↔ ∃ y ∈ xs, Same y x := by
  simp [has, List.any_eq_true, Library.eq_iff]

theorem addNew_spec (new xs : List Obj) :
    (∀ x ∈ new, x ∈ addNew new xs) ∧ (∀ x ∈ xs, ∃ y ∈ addNew new xs, Same y x) ∧
      ∀ x ∈ addNew new xs, x ∈ new ∨ x ∈ xs := by
  induction xs generalizing new with
  | nil => simp [addNew]
  | cons x xs ih =>
    obtain ⟨h1, h2, h3⟩ := ih (if has new x then new else new ++ [x])
    simp only [addNew]
    refine ⟨?_, ?_, ?_⟩
    · intro y hy
      refine h1 y ?_
      split
      · exact hy
      · simp [hy]
    · intro y hy
      rcases List.mem_cons.mp hy with rfl | hy
      · by_cases hh : has new y = true
        · obtain ⟨z, hz, hs⟩ := has_iff.mp hh
          exact ⟨z, h1 z (by rw [if_pos hh]; exact hz), hs⟩
        · exact ⟨y, h1 y (by rw [if_neg hh]; simp), .refl y⟩
      · exact h2 y hy
    · intro y hy
      rcases h3 y hy with h | h
      · split at h
        · exact Or.inl h
        · rcases List.mem_append.mp h with h | h
          · exact Or.inl h
          · right; simp_all
      · exact Or.inr (by simp [h])

/-- the number of parts of an object -/
def size (o : Obj) : Nat := Library.hash (fun _ => 0) (fun xs => xs.sum + 1) o

theorem size_same {a b : Obj} (h : Same a b) : size a = size b := h.hash _ _

theorem size_mem {d : Obj} {l : List Obj} (h : d ∈ l) :
    size d ≤ (Library.hashes (fun _ => 0) (fun xs => xs.sum + 1) l).sum := by
  induction l with
  | nil => simp at h
  | cons a l ih =>
    simp only [Library.hashes, List.sum_cons]
    rcases List.mem_cons.mp h with rfl | h
    · exact Nat.le_add_right ..
    · have := ih h
      omega

theorem size_dep {o d : Obj} (h : d ∈ deps o) : size d < size o := by
  cases o with
  | lib s p l x =>
    have := size_mem (show d ∈ l from h)
    simp only [size, Library.hash, List.sum_cons, List.sum_nil]
    simp only [size] at this
    omega
  | text b s => simp [deps] at h
  | exe s l => simp [deps] at h

theorem Needed.mono {r r' : List Obj} {o : Obj} (h : Needed r o) (hr : ∀ x ∈ r, Needed r' x) : Needed r' o := by
  induction h with
  | root h => exact hr _ h
  | dep _ hd ih => exact .dep ih hd

theorem size_needed {r : List Obj} {n : Nat} (hr : ∀ x ∈ r, size x < n) {o : Obj} (h : Needed r o) : size o < n := by
  induction h with
  | root h => exact hr _ h
  | dep _ hd ih => exact Nat.lt_trans (size_dep hd) ih

/-- the order in which `f` collects: dependencies first -/
def Good (libs : List Obj) : Prop :=
  ∀ pre o post, libs = pre ++ o :: post → (∀ d ∈ deps o, ∃ d' ∈ pre, Same d' d) ∧ ∀ d' ∈ pre, ¬ Same d' o

theorem Good.add {libs : List Obj} (h : Good libs) {o : Obj} (hd : ∀ d ∈ deps o, ∃ d' ∈ libs, Same d' d)
    (hn : ∀ d' ∈ libs, ¬ Same d' o) : Good (libs ++ [o]) := by
  intro pre q post he
  rcases List.eq_nil_or_concat post with rfl | ⟨post, z, rfl⟩
  · obtain ⟨rfl, h2⟩ := List.append_inj' he rfl
    cases h2
    exact ⟨hd, hn⟩
  · rw [List.concat_eq_append, ← List.cons_append, ← List.append_assoc] at he
    obtain ⟨rfl, h2⟩ := List.append_inj' he rfl
    exact h pre q post rfl

structure Inv (st : St) : Prop where
  good : Good st.libs
  paths : ∀ l ∈ st.libs, ∀ p ∈ libpaths l, ∃ q ∈ st.libpaths, Same q p
  ext : ∀ l ∈ st.libs, ∀ p ∈ external l, ∃ q ∈ st.external, Same q p

structure Step (roots : List Obj) (st st' : St) : Prop where
  libs : ∃ new, st'.libs = st.libs ++ new ∧ ∀ n ∈ new, Needed roots n
  there : ∀ r ∈ roots, ∃ d ∈ st'.libs, Same d r
  paths : ∀ x ∈ st.libpaths, x ∈ st'.libpaths
  ext : ∀ x ∈ st.external, x ∈ st'.external
  pathsOf : ∀ x ∈ st'.libpaths, x ∈ st.libpaths ∨ ∃ l, Needed roots l ∧ x ∈ libpaths l
  extOf : ∀ x ∈ st'.external, x ∈ st.external ∨ ∃ l, Needed roots l ∧ x ∈ external l

theorem plain_step {o : Obj} (hd : deps o = []) (hp : libpaths o = []) (hx : external o = []) {st : St} (h : Inv st) :
    Inv (if has st.libs o then st else { st with libs := st.libs ++ [o] }) ∧
    Step [o] st (if has st.libs o then st else { st with libs := st.libs ++ [o] }) := by
  by_cases hh : has st.libs o = true
  · rw [if_pos hh]
    refine ⟨h, ⟨[], by simp, by simp⟩, ?_, fun _ h => h, fun _ h => h, fun _ h => Or.inl h, fun _ h => Or.inl h⟩
    simpa using has_iff.mp hh
  · rw [if_neg hh]
    refine ⟨⟨?_, ?_, ?_⟩, ⟨[o], rfl, ?_⟩, ?_, fun _ h => h, fun _ h => h, fun _ h => Or.inl h, fun _ h => Or.inl h⟩
    · refine h.good.add (by simp [hd]) ?_
      intro d' hd' hs
      exact hh (has_iff.mpr ⟨d', hd', hs⟩)
    · intro l hl
      rcases List.mem_append.mp hl with hl | hl
      · exact h.paths l hl
      · simp only [List.mem_singleton] at hl
        subst hl
        simp [hp]
    · intro l hl
      rcases List.mem_append.mp hl with hl | hl
      · exact h.ext l hl
      · simp only [List.mem_singleton] at hl
        subst hl
        simp [hx]
    · intro n hn
      exact .root hn
    · intro r hr
      simp only [List.mem_singleton] at hr
      subst hr
      exact ⟨r, by simp, .refl r⟩

mutual
theorem walk_step : (o : Obj) → (st : St) → Inv st → Inv (walk o st) ∧ Step [o] st (walk o st)
  | .text b s, st, h => by
    simp only [walk]
    exact plain_step rfl rfl rfl h
  | .exe s l, st, h => by
    simp only [walk]
    exact plain_step rfl rfl rfl h
  | .lib s p l x, st, h => by
    simp only [walk]
    by_cases hh : has st.libs (.lib s p l x) = true
    · rw [if_pos hh]
      refine ⟨h, ⟨[], by simp, by simp⟩, ?_, fun _ h => h, fun _ h => h, fun _ h => Or.inl h, fun _ h => Or.inl h⟩
      simpa using has_iff.mp hh
    · rw [if_neg hh]
      obtain ⟨hp1, hp2, hp3⟩ := addNew_spec st.libpaths p
      obtain ⟨hx1, hx2, hx3⟩ := addNew_spec st.external x
      have h0 : Inv { st with libpaths := addNew st.libpaths p, external := addNew st.external x } := by
        refine ⟨h.good, ?_, ?_⟩
        · intro l hl q hq
          obtain ⟨r, hr, hs⟩ := h.paths l hl q hq
          exact ⟨r, hp1 r hr, hs⟩
        · intro l hl q hq
          obtain ⟨r, hr, hs⟩ := h.ext l hl q hq
          exact ⟨r, hx1 r hr, hs⟩
      obtain ⟨hi, ⟨new, hnew, hnd⟩, hth, hpa, hex, hpo, hxo⟩ :=
        walks_step l { st with libpaths := addNew st.libpaths p, external := addNew st.external x } h0
      generalize walks l { st with libpaths := addNew st.libpaths p, external := addNew st.external x } = st1 at *
      have hdown : ∀ {n : Obj}, Needed l n → Needed [.lib s p l x] n := fun hn =>
        hn.mono fun y hy => .dep (.root (List.mem_singleton.mpr rfl)) hy
      refine ⟨⟨?_, ?_, ?_⟩, ⟨new ++ [.lib s p l x], by rw [hnew, List.append_assoc], ?_⟩, ?_, ?_, ?_, ?_, ?_⟩
      · refine hi.good.add hth ?_
        intro d' hd' hs
        rw [hnew] at hd'
        rcases List.mem_append.mp hd' with hd' | hd'
        · exact hh (has_iff.mpr ⟨d', hd', hs⟩)
        · have h1 := size_needed (n := size (.lib s p l x)) (fun y hy => size_dep (o := .lib s p l x) hy) (hnd d' hd')
          have h2 := size_same hs
          omega
      · intro m hm q hq
        rcases List.mem_append.mp hm with hm | hm
        · exact hi.paths m hm q hq
        · simp only [List.mem_singleton] at hm
          subst hm
          obtain ⟨y, hy, hs⟩ := hp2 q hq
          exact ⟨y, hpa y hy, hs⟩
      · intro m hm q hq
        rcases List.mem_append.mp hm with hm | hm
        · exact hi.ext m hm q hq
        · simp only [List.mem_singleton] at hm
          subst hm
          obtain ⟨y, hy, hs⟩ := hx2 q hq
          exact ⟨y, hex y hy, hs⟩
      · intro n hn
        rcases List.mem_append.mp hn with hn | hn
        · exact hdown (hnd n hn)
        · exact .root hn
      · intro r hr
        simp only [List.mem_singleton] at hr
        subst hr
        exact ⟨_, List.mem_append_right _ (List.mem_singleton.mpr rfl), .refl _⟩
      · intro y hy
        exact hpa y (hp1 y hy)
      · intro y hy
        exact hex y (hx1 y hy)
      · intro y hy
        rcases hpo y hy with hy | ⟨m, hm, hy⟩
        · rcases hp3 y hy with hy | hy
          · exact Or.inl hy
          · exact Or.inr ⟨_, .root (List.mem_singleton.mpr rfl), hy⟩
        · exact Or.inr ⟨m, hdown hm, hy⟩
      · intro y hy
        rcases hxo y hy with hy | ⟨m, hm, hy⟩
        · rcases hx3 y hy with hy | hy
          · exact Or.inl hy
          · exact Or.inr ⟨_, .root (List.mem_singleton.mpr rfl), hy⟩
        · exact Or.inr ⟨m, hdown hm, hy⟩
theorem walks_step : (l : List Obj) → (st : St) → Inv st → Inv (walks l st) ∧ Step l st (walks l st)
  | [], st, h => by
    simp only [walks]
    exact ⟨h, ⟨[], by simp, by simp⟩, by simp, fun _ h => h, fun _ h => h, fun _ h => Or.inl h, fun _ h => Or.inl h⟩
  | o :: l, st, h => by
    simp only [walks]
    obtain ⟨hi, ⟨new, hnew, hnd⟩, hth, hpa, hex, hpo, hxo⟩ := walk_step o st h
    obtain ⟨hi', ⟨new', hnew', hnd'⟩, hth', hpa', hex', hpo', hxo'⟩ := walks_step l (walk o st) hi
    have h1 : ∀ {n : Obj}, Needed [o] n → Needed (o :: l) n := fun hn =>
      hn.mono fun y hy => .root (by rw [List.mem_singleton.mp hy]; exact List.mem_cons_self)
    have h2 : ∀ {n : Obj}, Needed l n → Needed (o :: l) n := fun hn =>
      hn.mono fun y hy => .root (List.mem_cons_of_mem _ hy)
    refine ⟨hi', ⟨new ++ new', by rw [hnew', hnew, List.append_assoc], ?_⟩, ?_, fun y hy => hpa' y (hpa y hy),
      fun y hy => hex' y (hex y hy), ?_, ?_⟩
    · intro n hn
      rcases List.mem_append.mp hn with hn | hn
      · exact h1 (hnd n hn)
      · exact h2 (hnd' n hn)
    · intro r hr
      rcases List.mem_cons.mp hr with rfl | hr
      · obtain ⟨d, hd, hs⟩ := hth r (List.mem_singleton.mpr rfl)
        exact ⟨d, by rw [hnew']; exact List.mem_append_left _ hd, hs⟩
      · exact hth' r hr
    · intro y hy
      rcases hpo' y hy with hy | ⟨m, hm, hy⟩
      · rcases hpo y hy with hy | ⟨m, hm, hy⟩
        · exact Or.inl hy
        · exact Or.inr ⟨m, h1 hm, hy⟩
      · exact Or.inr ⟨m, h2 hm, hy⟩
    · intro y hy
      rcases hxo' y hy with hy | ⟨m, hm, hy⟩
      · rcases hxo y hy with hy | ⟨m, hm, hy⟩
        · exact Or.inl hy
        · exact Or.inr ⟨m, h1 hm, hy⟩
      · exact Or.inr ⟨m, h2 hm, hy⟩
end

theorem collect_step (b : Linker) (a : Args) : Inv (collect b a) ∧
    Step (b.libs ++ a.libs) { libpaths := addNew [] (b.libpaths ++ a.libpaths), external := addNew [] (b.external ++ a.external), libs := [] }
      (collect b a) := by
  refine walks_step _ _ ⟨?_, by simp, by simp⟩
  intro pre o post h
  simp at h

theorem needed_there (b : Linker) (a : Args) {n : Obj} (h : Needed (b.libs ++ a.libs) n) :
    ∃ l ∈ (collect b a).libs, Same l n := by
  obtain ⟨hi, hs⟩ := collect_step b a
  induction h with
  | root h => exact hs.there _ h
  | @dep o d _ hd ih =>
    obtain ⟨l, hl, hsame⟩ := ih
    cases hsame with
    | text => simp [deps] at hd
    | exe => simp [deps] at hd
    | @lib s p ls x q ms y h1 h2 h3 =>
      have key : ∀ {ls ms : List Obj}, Sames ls ms → ∀ d ∈ ms, ∃ e ∈ ls, Same e d := by
        intro ls ms h
        induction ms generalizing ls with
        | nil => simp
        | cons m ms ihm =>
          cases h with
          | cons ha hb =>
            intro d hd
            rcases List.mem_cons.mp hd with rfl | hd
            · exact ⟨_, by simp, ha⟩
            · obtain ⟨e, he, hs⟩ := ihm hb d hd
              exact ⟨e, by simp [he], hs⟩
      obtain ⟨e, he, hse⟩ := key h2 d hd
      obtain ⟨pre, post, hpp⟩ := List.append_of_mem hl
      obtain ⟨d', hd', hs'⟩ := (hi.good pre _ post hpp).1 e he
      exact ⟨d', by rw [hpp]; simp [hd'], hs'.trans hse⟩

theorem importName_spec (s : Text) : ImportOf s (importName s) := by
  unfold importName
  split
  · rename_i h
    rw [List.isSuffixOf_iff_suffix] at h
    obtain ⟨u, rfl⟩ := h
    exact Or.inl ⟨u, rfl, by simp⟩
  · rename_i h
    rw [List.isSuffixOf_iff_suffix] at h
    refine Or.inr ⟨?_, rfl⟩
    rintro ⟨u, rfl⟩
    exact h (List.suffix_append ..)

/-! ## C91 -/

/-- **C91**: the libraries on the command line of the linker, in front of the objects, are just those that are needed, directly or by
other libraries, each once, left of those it needs; a DLL is there by its import library.

Partial: the builder's own libraries are in front of them once more, and for these the order is wrong
(`C91_own_violated`). -/
theorem C91_libs_partial (b : Linker) (a : Args) :
    ∃ (front : List Text) (libs : List Obj) (name : Text → Text), (∀ s, ImportOf s (name s)) ∧
      command b a = front ++ libs.map (fun l : Obj => "/DEFAULTLIB:".toList ++ name l.str) ++ a.srcs ++ a.ldlibs ∧
      Ordered libs ∧ (∀ l ∈ libs, Needed (b.libs ++ a.libs) l) ∧
      ∀ n, Needed (b.libs ++ a.libs) n → ∃ l ∈ libs, Same l n := by
  refine ⟨[b.exe, "/nologo".toList] ++ b.preFlags ++ a.preFlags ++ ["/OUT:".toList ++ a.dst] ++ b.flags ++ a.flags ++
    (((Gcc.sorted Gcc.leText ((collect b a).libpaths.map Obj.str)).filter (· ≠ [])).map ("/LIBRARYPATH:".toList ++ ·)) ++
    ((b.external ++ (collect b a).external ++ b.libs).map fun l => "/DEFAULTLIB:".toList ++ importName l.str),
    (collect b a).libs.reverse, importName, importName_spec, ?_, ?_, ?_, ?_⟩
  · simp only [command, List.map_append, List.append_assoc]
  · intro pre o post h
    have h' : (collect b a).libs = post.reverse ++ o :: pre.reverse := by
      have := congrArg List.reverse h
      simpa using this
    obtain ⟨h1, h2⟩ := (collect_step b a).1.good _ _ _ h'
    refine ⟨?_, ?_⟩
    · intro d hd
      obtain ⟨d', hd', hs⟩ := h1 d hd
      exact ⟨d', by simpa using hd', hs⟩
    · intro d' hd'
      exact h2 d' (by simpa using hd')
  · intro l hl
    obtain ⟨new, hnew, hn⟩ := (collect_step b a).2.libs
    rw [List.mem_reverse, hnew] at hl
    exact hn l (by simpa using hl)
  · intro n hn
    obtain ⟨l, hl, hs⟩ := needed_there b a hn
    exact ⟨l, by simpa using hl, hs⟩

/-- **C91**: each external library that was given, or that a needed library was linked with, is on the command line. -/
theorem C91_external (b : Linker) (a : Args) (x : Obj)
    (hx : x ∈ b.external ∨ x ∈ a.external ∨ ∃ l, Needed (b.libs ++ a.libs) l ∧ x ∈ external l) :
    ∃ t, ImportOf x.str t ∧ "/DEFAULTLIB:".toList ++ t ∈ command b a := by
  have key : ∃ y ∈ (collect b a).external, Same y x := by
    obtain ⟨hi, hs⟩ := collect_step b a
    have hxs : x ∈ b.external ++ a.external → ∃ y ∈ (collect b a).external, Same y x := by
      intro hx
      obtain ⟨y, hy, hsy⟩ := (addNew_spec [] (b.external ++ a.external)).2.1 x hx
      exact ⟨y, hs.ext y hy, hsy⟩
    rcases hx with hx | hx | ⟨l, hl, hx⟩
    · exact hxs (by simp [hx])
    · exact hxs (by simp [hx])
    · obtain ⟨l', hl', hsame⟩ := needed_there b a hl
      cases hsame with
      | text => simp [external] at hx
      | exe => simp [external] at hx
      | @lib s p ls y q ms z h1 h2 h3 =>
        have : ∀ {ls ms : List Obj}, Sames ls ms → ∀ d ∈ ms, ∃ e ∈ ls, Same e d := by
          intro ls ms h
          induction ms generalizing ls with
          | nil => simp
          | cons m ms ihm =>
            cases h with
            | cons ha hb =>
              intro d hd
              rcases List.mem_cons.mp hd with rfl | hd
              · exact ⟨_, by simp, ha⟩
              · obtain ⟨e, he, hs⟩ := ihm hb d hd
                exact ⟨e, by simp [he], hs⟩
        obtain ⟨e, he, hse⟩ := this h3 x hx
        obtain ⟨w, hw, hsw⟩ := hi.ext _ hl' e he
        exact ⟨w, hw, hsw.trans hse⟩
  obtain ⟨y, hy, hs⟩ := key
  have hstr : y.str = x.str := by cases hs <;> rfl
  refine ⟨importName x.str, importName_spec _, ?_⟩
  rw [← hstr]
  simp only [command, List.mem_append, List.mem_map]
  exact Or.inl (Or.inl (Or.inr ⟨y, by simp [hy], rfl⟩))

/-- **C91**, DLLs: the file that stands for a DLL is the import library that the linker writes beside it, for every
destination, buildroot and prefix. -/
theorem C91_import (root pre dst : Text) :
    ImportOf (Gcc.linkedFile root pre ".dll".toList dst) (Gcc.linkedFile root pre ".lib".toList dst) := by
  exact Or.inl ⟨_, rfl, rfl⟩

/-- **C91** is false for the directories of libraries: `link` knows the option `/LIBPATH:`, and no word of the command is one unless
it was given as a flag or file.  (What is written is `/LIBRARYPATH:`.) -/
theorem C91_paths_violated (b : Linker) (a : Args)
    (h : ∀ w ∈ b.exe :: (b.preFlags ++ a.preFlags ++ b.flags ++ a.flags ++ a.srcs ++ a.ldlibs), ¬ "/LIBPATH:".toList <+: w) :
    ∀ w ∈ command b a, ¬ "/LIBPATH:".toList <+: w := by
  intro w hw hp
  have no : ∀ (x : Text) (s : Text), x.take 5 ≠ "/LIBP".toList → 5 ≤ x.length → ¬ "/LIBPATH:".toList <+: x ++ s := by
    rintro x s hx hl ⟨t, ht⟩
    have := congrArg (List.take 5) ht
    rw [List.take_append_of_le_length hl] at this
    exact hx this.symm
  simp only [command, List.mem_append, List.mem_cons, List.mem_map, List.not_mem_nil, or_false] at hw
  rcases hw with ((((((((hw | hw) | hw) | hw) | hw) | hw) | hw) | hw) | hw) | hw
  · rcases hw with rfl | rfl
    · exact h _ (by simp) hp
    · exact absurd hp (by decide)
  · exact h w (by simp [hw]) hp
  · exact h w (by simp [hw]) hp
  · subst hw
    exact no _ _ (by decide) (by decide) hp
  · exact h w (by simp [hw]) hp
  · exact h w (by simp [hw]) hp
  · obtain ⟨x, _, rfl⟩ := hw
    exact no _ _ (by decide) (by decide) hp
  · obtain ⟨x, _, rfl⟩ := hw
    exact no _ _ (by decide) (by decide) hp
  · exact h w (by simp [hw]) hp
  · exact h w (by simp [hw]) hp

namespace Ex

def t (s : String) : Text := s.toList

def base : Obj := .lib (t "base.dll") [] [] [.text false (t "user32.lib")]
def net : Obj := .lib (t "net.lib") [.text false (t "vendor")] [base] []
def app : Obj := .lib (t "app.lib") [] [net, base] []

def linker : Linker := ⟨t "link", [], [], [], [], [], []⟩
def args : Args := ⟨t "app.exe", [t "a.obj"], [], [], [], [app], [], []⟩

end Ex

open Ex in
/-- a library that needs two others, one of which needs the other: hypotheses of the theorems are met by it -/
example : command linker args = [t "link", t "/nologo", t "/OUT:app.exe", t "/LIBRARYPATH:vendor", t "/DEFAULTLIB:user32.lib",
    t "/DEFAULTLIB:app.lib", t "/DEFAULTLIB:net.lib", t "/DEFAULTLIB:base.lib", t "a.obj"] := by decide +kernel

open Ex in
/-- **C91** is false for the libraries of the builder itself: they are written in the order given in front of all others, so a
library comes right of one that it needs; and the words of the builder's `ldlibs` are not there at all. -/
theorem C91_own_violated :
    command { linker with libs := [base, net], ldlibs := [t "/FORCE"] } { args with libs := [] } =
      [t "link", t "/nologo", t "/OUT:app.exe", t "/LIBRARYPATH:vendor", t "/DEFAULTLIB:user32.lib",
        t "/DEFAULTLIB:base.lib", t "/DEFAULTLIB:net.lib", t "/DEFAULTLIB:net.lib", t "/DEFAULTLIB:base.lib", t "a.obj"] := by
  decide +kernel

end Verif.Msvc
