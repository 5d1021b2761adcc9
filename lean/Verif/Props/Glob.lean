import Verif.Glob.Proof
/-!
# Glob: properties

C40: `glob(pattern)` returns exactly the existing paths that the components of the pattern pick.

It fails for patterns that end in `**`: the directory itself is returned without a look at the file system.
-/
namespace Verif.Glob
open Verif.Posix

/-- the last component is `**`, and it is special -/
def EndsRec (r : Bool) (cs : List Text) : Prop := r = true ∧ cs.getLast? = some ['*', '*']

theorem length_text (abs : Bool) (cs : List Text) : cs.length ≤ (text abs cs).length + 1 := by
  have : cs.length ≤ (slashed cs).length + 1 := by
    induction cs with
    | nil => simp
    | cons c cs ih =>
      cases cs with
      | nil => simp
      | cons d cs =>
        simp only [slashed, List.length_append, List.length_cons] at ih ⊢
        omega
  simp only [text, List.length_append]
  omega

theorem iglob_result' {fs : FS} (hok : fs.Ok) (r abs : Bool) {cs : List Text} (h : PatOk cs) :
    Result fs r abs cs (iglobFrom fs r ((text abs cs).length + 1) (text abs cs)) :=
  iglob_result hok r abs _ cs h (length_text abs cs)

/-- the text of a pattern is `**` only if its only component is -/
theorem text_rec {abs : Bool} {cs : List Text} (h : PatOk cs) (ht : text abs cs = ['*', '*']) :
    abs = false ∧ cs = [['*', '*']] := by
  cases abs with
  | true => simp [text] at ht
  | false =>
    simp only [text, Bool.false_eq_true, if_false, List.nil_append] at ht
    refine ⟨rfl, ?_⟩
    cases cs with
    | nil => simp [slashed] at ht
    | cons c cs =>
      cases cs with
      | nil => simp only [slashed] at ht; rw [ht]
      | cons d cs =>
        simp only [slashed] at ht
        have : '/' ∈ (['*', '*'] : Text) := by rw [← ht]; simp
        simp at this

theorem glob_mem {fs : FS} (r abs : Bool) {cs : List Text} (h : PatOk cs) {p : Text}
    (hp : p ∈ glob fs r (text abs cs)) : p ∈ iglobFrom fs r ((text abs cs).length + 1) (text abs cs) := by
  unfold glob at hp
  simp only at hp
  split at hp
  · exact List.mem_of_mem_drop hp
  · exact hp

/-- **C40**, nothing else: what is returned is picked by the pattern, and exists.  Missing for the full
claim: patterns that end in `**`. -/
theorem C40_sound_partial (fs : FS) (hok : fs.Ok) (r abs : Bool) (cs : List Text) (h : PatOk cs)
    (hend : ¬ EndsRec r cs) (p : Text) (hp : p ∈ glob fs r (text abs cs)) :
    fs.lexists p = true ∧ ∃ qs, Picks r cs qs ∧ p = text abs qs := by
  obtain ⟨qs, h1, h2, h3⟩ := (iglob_result' hok r abs h).sound p (glob_mem r abs h hp)
  refine ⟨h3.resolve_left ?_, qs, h1, h2⟩
  rintro ⟨c, hc, h4, rfl⟩
  exact hend ⟨h4, hc⟩

/-- Every pattern: what is returned and exists is picked by the pattern. -/
theorem C40_picked (fs : FS) (hok : fs.Ok) (r abs : Bool) (cs : List Text) (h : PatOk cs) (p : Text)
    (hp : p ∈ glob fs r (text abs cs)) : ∃ qs, Picks r cs qs ∧ p = text abs qs := by
  obtain ⟨qs, h1, h2, _⟩ := (iglob_result' hok r abs h).sound p (glob_mem r abs h hp)
  exact ⟨qs, h1, h2⟩

/-- **C40**, everything: each existing path picked by the pattern is returned. -/
theorem C40_complete (fs : FS) (hok : fs.Ok) (r abs : Bool) (cs : List Text) (h : PatOk cs)
    (qs : List Text) (hq : Picks r cs qs) (hx : fs.lexists (text abs qs) = true) :
    text abs qs ∈ glob fs r (text abs cs) := by
  have := (iglob_result' hok r abs h).complete qs hq (.inl hx)
  unfold glob
  simp only
  split
  · rename_i hr
    simp only [isRecursive, Bool.and_eq_true, beq_iff_eq] at hr
    -- the first result is the empty text
    have hfirst : iglobFrom fs r ((text abs cs).length + 1) (text abs cs) =
        [] :: rlistdir fs (fs.levels []) [] := by
      rw [hr.2]
      have hs : split ['*', '*'] = ([], ['*', '*']) := by decide
      simp only [iglobFrom, hs, hr.1]
      rfl
    rw [hfirst] at this ⊢
    rcases List.mem_cons.mp this with he | he
    · rw [he] at hx
      simp [FS.lexists, FS.resolve] at hx
    · exact he
  · exact this

/-! ## Cases -/

/-- `src/a.c`, `src/.b.c`, `src/sub/d.c`, `README` -/
def sampleRoot : Node := .dir [
  ("src".toList, .dir [("a.c".toList, .file), (".b.c".toList, .file), ("sub".toList, .dir [("d.c".toList, .file)])]),
  ("README".toList, .file)]

def sampleFS : FS := { root := sampleRoot, cwd := [sampleRoot] }

theorem sample_ok : sampleFS.Ok := by
  constructor
  · simp [sampleFS, sampleRoot, Good, Goods, IsName, Node.isDir]
  · simp [sampleFS, sampleRoot, Good, Goods, IsName, Node.isDir]

/-- `src/**/*.c` -/
def samplePat : List Text := ["src".toList, ['*', '*'], "*.c".toList]

theorem samplePat_ok : PatOk samplePat := by
  constructor
  · simp [samplePat]
  · simp [samplePat]
  · simp [samplePat]
  · simp [samplePat, Fnmatch.pattern, Fnmatch.read, Fnmatch.Sound]

theorem pattern_c : Fnmatch.pattern "*.c".toList = [.star, .lit '.', .lit 'c'] := by
  simp [Fnmatch.pattern, Fnmatch.read]

example : "src/sub/d.c".toList ∈ glob sampleFS true "src/**/*.c".toList := by
  have hp : Picks true samplePat ["src".toList, "sub".toList, "d.c".toList] := by
    refine .plain (by simp [Plain]) (.any (us := ["sub".toList]) rfl ?_ (.inr (by simp)) (.magic ?_ ?_ ?_ ?_ ?_ .nil))
    · simp [IsName]
    · simp [Plain]
    · simp
    · simp [IsName]
    · rw [pattern_c]; exact Fnmatch.Matches.star (u := ['d']) (.lit (.lit .nil))
    · simp
  exact C40_complete sampleFS sample_ok true false samplePat samplePat_ok _ hp (by decide +kernel)

/-- hidden names are not returned -/
example : "src/.b.c".toList ∉ glob sampleFS true "src/*.c".toList := by
  intro h
  have hok : PatOk ["src".toList, "*.c".toList] := by
    constructor <;> simp [Fnmatch.pattern, Fnmatch.read, Fnmatch.Sound]
  obtain ⟨_, qs, hq, he⟩ := C40_sound_partial sampleFS sample_ok true false _ hok (by simp [EndsRec]) _ h
  cases hq with
  | magic h1 _ _ _ _ _ => exact h1 (by simp [Plain])
  | plain _ hq =>
    cases hq with
    | plain h1 _ => exact h1 '*' (by simp) (by simp)
    | @magic _ _ x _ _ _ hn _ hh hq =>
      cases hq
      simp only [text, slashed] at he
      have hx : x = ".b.c".toList := by
        have he' : "src/".toList ++ ".b.c".toList = "src/".toList ++ x := by simpa using he
        exact (List.append_cancel_left he').symm
      subst hx
      exact absurd (hh (by decide)) (by decide)

/-- **C40 is violated**: `glob('nothing/**')` returns `nothing/`, and `glob('**/**')` returns the empty
text, whatever the file system is. -/
theorem C40_missing_directory_violated :
    ("nothing/".toList ∈ glob sampleFS true "nothing/**".toList ∧
      sampleFS.lexists "nothing/".toList = false) ∧
    ([] ∈ glob sampleFS true "**/**".toList ∧ sampleFS.lexists [] = false) := by
  have h1 : split "nothing/**".toList = ("nothing".toList, ['*', '*']) := by decide
  have h2 : split "**/**".toList = (['*', '*'], ['*', '*']) := by decide
  have h3 : split ['*', '*'] = ([], ['*', '*']) := by decide
  have e1 : (true && isRecursive "nothing/**".toList) = false := by decide
  have e2 : (true && isRecursive "**/**".toList) = false := by decide
  have e3 : (true && isRecursive ['*', '*']) = true := by decide
  refine ⟨⟨?_, by decide +kernel⟩, ?_, by decide⟩
  · have hm : hasMagic "nothing/**".toList = true := by decide
    have hd : hasMagic "nothing".toList = false := by decide
    have hb : hasMagic ['*', '*'] = true := by decide
    simp only [glob, e1, Bool.false_eq_true, if_false, iglobFrom, h1, hm, not_true_eq_false, hd, hb, e3,
      if_true, and_false]
    rw [if_neg (by decide)]
    simp only [List.flatMap_cons, List.flatMap_nil, List.append_nil, glob2, List.map_cons]
    have : join "nothing".toList [] = "nothing/".toList := by decide
    rw [this]
    exact .head _
  · have hm : hasMagic "**/**".toList = true := by decide
    have hb : hasMagic ['*', '*'] = true := by decide
    have hl : "**/**".toList.length + 1 = 5 + 1 := by decide
    simp only [glob, e2, Bool.false_eq_true, if_false, hl, iglobFrom, h2, h3, hm, not_true_eq_false, hb, e3,
      if_true, and_true]
    rw [if_neg (by decide), if_pos (by decide)]
    simp only [List.flatMap_cons, glob2, List.map_cons]
    exact .head _

end Verif.Glob
