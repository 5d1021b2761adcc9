import Verif.Ocaml.Lex
import Verif.Props.Scala
import Verif.Props.OcamlBuild
import Verif.Props.GccFiles
/-!
# C158: generated lexers and parsers

The specification has its own account of what `ocamllex` and `ocamlyacc` do with the words of a command, after their manuals.
-/
namespace Verif.Ocaml.Lex
open Verif.Path (Text addroot replaceext)
open Verif.Java (IsDir IsName)

/-! ## Specification -/

def sMl : Text := ['.', 'm', 'l']
def sMli : Text := ['.', 'm', 'l', 'i']
def sMll : Text := ['.', 'm', 'l', 'l']
def sMly : Text := ['.', 'm', 'l', 'y']

/-- what `ocamllex` reads from its words: the last argument of `-o`, the flags, and the sources -/
def lexWords : List Text → Option Text × List Text × List Text
  | [] => (none, [], [])
  | [w] => if w.head? = some '-' then (none, [w], []) else (none, [], [w])
  | w :: v :: ws =>
    if w = ['-', 'o'] then ((lexWords ws).1.or (some v), (lexWords ws).2)
    else if w.head? = some '-' then ((lexWords (v :: ws)).1, w :: (lexWords (v :: ws)).2.1, (lexWords (v :: ws)).2.2)
    else ((lexWords (v :: ws)).1, (lexWords (v :: ws)).2.1, w :: (lexWords (v :: ws)).2.2)

/-- `ocamllex -o out flags src` writes the lexer for the text of `src` to `out`, and nothing else.  `lexer` is the lexer for a text,
with the flags. -/
def LexTool (lexer : List Text → Text → Option Text) (run : Execute) : Prop :=
  ∀ exe ws fs out flags src, lexWords ws = (some out, flags, [src]) →
    run (exe :: ws) fs = ((fs src).bind (lexer flags)).map fun t q => if q = out then some t else fs q

/-- `ocamlyacc flags x.mly` writes the parser for the text of `x.mly` to `x.ml` and its interface to `x.mli`, and nothing else, unless a
flag says where to write. -/
def YaccTool (parser : List Text → Text → Option (Text × Text)) (run : Execute) : Prop :=
  ∀ exe flags x fs, (∀ f ∈ flags, f.head? = some '-' ∧ ¬ ['-', 'b'] <+: f) → (x ++ sMly).head? ≠ some '-' →
    run (exe :: flags ++ [x ++ sMly]) fs = ((fs (x ++ sMly)).bind (parser flags)).map fun t q =>
      if q = x ++ sMl then some t.1 else if q = x ++ sMli then some t.2 else fs q

/-! ## Proofs -/

theorem lexWords_flags (fl : List Text) (src : Text) (hf : ∀ f ∈ fl, f.head? = some '-' ∧ f ≠ ['-', 'o'])
    (hs : src.head? ≠ some '-') : lexWords (fl ++ [src]) = (none, fl, [src]) := by
  induction fl with
  | nil => simp [lexWords, hs]
  | cons f fl ih =>
    have h1 := ih fun g hg => hf g (List.mem_cons_of_mem _ hg)
    obtain ⟨h2, h3⟩ := hf f List.mem_cons_self
    cases fl with
    | nil =>
      simp only [List.cons_append, List.nil_append] at h1 ⊢
      rw [lexWords, if_neg h3, if_pos h2, h1]
    | cons g fl =>
      simp only [List.cons_append] at h1 ⊢
      rw [lexWords, if_neg h3, if_pos h2, h1]

theorem ext_of {d n e e' : Text} (hd : IsDir d) (hn : IsName n) (he : '/' ∉ e) (hde : '.' ∉ e) :
    replaceext (d ++ n ++ '.' :: e) e' = d ++ n ++ e' := by
  unfold replaceext
  rw [List.append_assoc, Path.splitext_dot d n e hd hn.1 he hde hn.2]

theorem addroot_stem {d n e : Text} (root : Text) (hd : IsDir d) (hn : IsName n) (he : '/' ∉ e) :
    ∃ d', IsDir d' ∧ addroot (d ++ n ++ e) root = d' ++ n ++ e := by
  have hname : '/' ∉ n ++ e := by rw [List.mem_append, not_or]; exact ⟨hn.1, he⟩
  have key : ∃ x, IsDir x ∧ (if Posix.isabs (d ++ n ++ e) then (Posix.split (d ++ n ++ e)).2 else d ++ n ++ e) = x ++ (n ++ e) := by
    split
    · refine ⟨[], .inl rfl, ?_⟩
      show Posix.tail (d ++ n ++ e) = n ++ e
      rw [List.append_assoc]
      exact Java.tail_file_name hd hname
    · exact ⟨d, hd, by simp⟩
  obtain ⟨x, hx, hk⟩ := key
  have hrel := Path.inner_rel (d ++ n ++ e)
  unfold addroot
  split
  · exact ⟨d, hd, rfl⟩
  · rename_i hp
    have hne : root ≠ [] := by rintro rfl; simp at hp
    rw [hk] at hrel ⊢
    unfold Posix.join
    rw [hrel]
    simp only [Bool.false_eq_true, if_false]
    have hdir : ∀ r : Text, r.getLast? = some '/' → IsDir (r ++ x) := by
      intro r hr
      rcases hx with rfl | hx
      · rw [List.append_nil]; exact .inr hr
      · refine .inr ?_
        rw [List.getLast?_append, hx]; rfl
    split
    · rename_i h
      rcases h with h | h
      · exact absurd h hne
      · exact ⟨root ++ x, hdir _ h, by simp⟩
    · exact ⟨root ++ ['/'] ++ x, hdir _ (by simp), by simp⟩

theorem ne_of_suffix {a b p q : Text} (ha : a <:+ p) (hb : b <:+ q) (hl : a.length ≤ b.length) (h : ¬ a <:+ b) : p ≠ q := by
  rintro rfl
  exact h (List.suffix_of_suffix_length_le ha hb hl)

/-! ## C158 -/

/-- **C158**, `Ocamllex`: the file that is returned has the lexer for the source, made with the flags of the object and of the call,
and no other file is changed, nor the source.  It fails if there is no source or no lexer for it. -/
theorem C158_lex (lexer : List Text → Text → Option Text) (run : Execute) (hrun : LexTool lexer run) (t : Tool) (own : Text)
    (buildroot : Option Text) (root : Text) (hroot : buildroot = some root ∧ root ≠ [] ∨ (buildroot = none ∨ buildroot = some []) ∧ own = root)
    (flags : List Text) (hf : ∀ f ∈ t.flags ++ flags, f.head? = some '-' ∧ f ≠ ['-', 'o']) (d n : Text) (hd : IsDir d)
    (hn : IsName n) (hs : (d ++ n ++ sMll).head? ≠ some '-') (fs : Files) :
    (∀ dst fs', ocamllex run t own buildroot flags (d ++ n ++ sMll) fs = some (dst, fs') →
      dst = addroot (d ++ n ++ sMl) root ∧ dst ≠ d ++ n ++ sMll ∧
      (∃ code out, fs (d ++ n ++ sMll) = some code ∧ lexer (t.flags ++ flags) code = some out ∧ fs' dst = some out) ∧
      ∀ p, p ≠ dst → fs' p = fs p) ∧
    (ocamllex run t own buildroot flags (d ++ n ++ sMll) fs = none ↔
      ∀ code, fs (d ++ n ++ sMll) = some code → lexer (t.flags ++ flags) code = none) := by
  have hr : rootOf own buildroot = root := by
    rcases hroot with ⟨rfl, hne⟩ | ⟨rfl | rfl, rfl⟩
    · cases root with
      | nil => exact absurd rfl hne
      | cons c r => rfl
    · rfl
    · rfl
  have hext : replaceext (d ++ n ++ sMll) ".ml".toList = d ++ n ++ sMl := ext_of hd hn (by decide) (by decide)
  have hw : lexWords (["-o".toList, addroot (d ++ n ++ sMl) root] ++ t.flags ++ flags ++ [d ++ n ++ sMll]) =
      (some (addroot (d ++ n ++ sMl) root), t.flags ++ flags, [d ++ n ++ sMll]) := by
    simp only [List.cons_append, List.nil_append]
    rw [lexWords, if_pos (by decide), lexWords_flags (t.flags ++ flags) _ hf hs]
    rfl
  have h := hrun t.exe _ fs _ _ _ hw
  unfold ocamllex
  simp only [hr, hext]
  have hc : [t.exe] ++ ["-o".toList, addroot (d ++ n ++ sMl) root] ++ t.flags ++ flags ++ [d ++ n ++ sMll] =
      t.exe :: (["-o".toList, addroot (d ++ n ++ sMl) root] ++ t.flags ++ flags ++ [d ++ n ++ sMll]) := by simp
  rw [hc, h]
  constructor
  · intro dst fs' he
    simp only [Option.map_map, Option.map_eq_some_iff, Function.comp_apply, Prod.mk.injEq] at he
    obtain ⟨out, hb, rfl, rfl⟩ := he
    obtain ⟨code, h1, h2⟩ := Option.bind_eq_some_iff.1 hb
    refine ⟨rfl, ?_, ⟨code, out, h1, h2, if_pos rfl⟩, fun p hp => if_neg hp⟩
    exact ne_of_suffix (a := sMl) (b := sMll) (suffix_addroot root (by decide) (List.suffix_append _ _)) (List.suffix_append _ _)
      (by decide) (by decide)
  · rw [Option.map_eq_none_iff, Option.map_eq_none_iff, Option.bind_eq_none_iff]

/-- **C158**, `Ocamlyacc`: the files that are returned have the parser for the source and its interface, made with the flags of the
object and of the call; besides them at most a copy of the source in the build directory is written, and the source stays as it
is. -/
theorem C158_yacc (parser : List Text → Text → Option (Text × Text)) (run : Execute) (hrun : YaccTool parser run) (t : Tool)
    (own : Text) (buildroot : Option Text) (root : Text)
    (hroot : buildroot = some root ∧ root ≠ [] ∨ (buildroot = none ∨ buildroot = some []) ∧ own = root) (flags : List Text)
    (hf : ∀ f ∈ t.flags ++ flags, f.head? = some '-' ∧ ¬ ['-', 'b'] <+: f) (d n : Text) (hd : IsDir d) (hn : IsName n)
    (hs : (addroot (d ++ n ++ sMly) root).head? ≠ some '-') (fs : Files) :
    (∀ ml mli fs', ocamlyacc run t own buildroot flags (d ++ n ++ sMly) fs = some ((ml, mli), fs') →
      (∃ x, addroot (d ++ n ++ sMly) root = x ++ sMly ∧ ml = x ++ sMl ∧ mli = x ++ sMli) ∧
      (∃ code p i, fs (d ++ n ++ sMly) = some code ∧ parser (t.flags ++ flags) code = some (p, i) ∧ fs' ml = some p ∧
        fs' mli = some i ∧ fs' (d ++ n ++ sMly) = some code ∧ fs' (addroot (d ++ n ++ sMly) root) = some code) ∧
      ∀ q, q ≠ ml → q ≠ mli → q ≠ addroot (d ++ n ++ sMly) root → fs' q = fs q) ∧
    (ocamlyacc run t own buildroot flags (d ++ n ++ sMly) fs = none ↔
      ∀ code, fs (d ++ n ++ sMly) = some code → parser (t.flags ++ flags) code = none) := by
  have hr : rootOf own buildroot = root := by
    rcases hroot with ⟨rfl, hne⟩ | ⟨rfl | rfl, rfl⟩
    · cases root with
      | nil => exact absurd rfl hne
      | cons c r => rfl
    · rfl
    · rfl
  obtain ⟨d', hd', hc⟩ := addroot_stem (e := sMly) root hd hn (by decide)
  have e1 : replaceext (d' ++ n ++ sMly) ".ml".toList = d' ++ n ++ sMl := ext_of hd' hn (by decide) (by decide)
  have e2 : replaceext (d' ++ n ++ sMly) ".mli".toList = d' ++ n ++ sMli := ext_of hd' hn (by decide) (by decide)
  have n1 : ∀ a b : Text, a ++ sMly ≠ b ++ sMl := fun a b =>
    (ne_of_suffix (a := sMl) (b := sMly) (List.suffix_append _ _) (List.suffix_append _ _) (by decide) (by decide)).symm
  have n2 : ∀ a b : Text, a ++ sMly ≠ b ++ sMli := fun a b =>
    ne_of_suffix (a := sMly) (b := sMli) (List.suffix_append _ _) (List.suffix_append _ _) (by decide) (by decide)
  have n3 : ∀ a b : Text, a ++ sMli ≠ b ++ sMl := fun a b =>
    (ne_of_suffix (a := sMl) (b := sMli) (List.suffix_append _ _) (List.suffix_append _ _) (by decide) (by decide)).symm
  unfold ocamlyacc
  simp only [hr, hc, e1, e2]
  rw [hc] at hs
  -- the files with the copy
  have hcopy : (if d ++ n ++ sMly ≠ d' ++ n ++ sMly then (fs (d ++ n ++ sMly)).map fun t => fs.put (d' ++ n ++ sMly) t else some fs) =
        none ∧ fs (d ++ n ++ sMly) = none ∨
      ∃ fs1 : Files, (if d ++ n ++ sMly ≠ d' ++ n ++ sMly then (fs (d ++ n ++ sMly)).map fun t => fs.put (d' ++ n ++ sMly) t
          else some fs) = some fs1 ∧ fs1 (d' ++ n ++ sMly) = fs (d ++ n ++ sMly) ∧ fs1 (d ++ n ++ sMly) = fs (d ++ n ++ sMly) ∧
        ∀ q, q ≠ d' ++ n ++ sMly → fs1 q = fs q := by
    by_cases heq : d ++ n ++ sMly = d' ++ n ++ sMly
    · rw [if_neg (by simp [heq])]
      exact .inr ⟨fs, rfl, by rw [heq], rfl, fun _ _ => rfl⟩
    · rw [if_pos heq]
      cases hsrc : fs (d ++ n ++ sMly) with
      | none => exact .inl ⟨rfl, rfl⟩
      | some code => exact .inr ⟨_, rfl, if_pos rfl, (if_neg heq).trans hsrc, fun q hq => if_neg hq⟩
  rcases hcopy with ⟨h1, h2⟩ | ⟨fs1, h1, h2, h3, h4⟩
  · rw [h1]
    exact ⟨fun ml mli fs' he => (nomatch he), fun _ code hcode => (nomatch h2.symm.trans hcode), fun _ => rfl⟩
  · rw [h1]
    simp only
    have h := hrun t.exe (t.flags ++ flags) (d' ++ n) fs1 hf hs
    have hcmd : [t.exe] ++ t.flags ++ flags ++ [d' ++ n ++ sMly] = t.exe :: (t.flags ++ flags) ++ [d' ++ n ++ sMly] := by simp
    rw [hcmd, h, h2]
    constructor
    · intro ml mli fs' he
      simp only [Option.map_map, Option.map_eq_some_iff, Function.comp_apply, Prod.mk.injEq] at he
      obtain ⟨out, hb, ⟨rfl, rfl⟩, rfl⟩ := he
      obtain ⟨code, k1, k2⟩ := Option.bind_eq_some_iff.1 hb
      refine ⟨⟨d' ++ n, rfl, rfl, rfl⟩, ⟨code, out.1, out.2, k1, k2, if_pos rfl, ?_, ?_, ?_⟩, ?_⟩
      all_goals try dsimp only
      · rw [if_neg (n3 _ _), if_pos rfl]
      · rw [if_neg (n1 _ _), if_neg (n2 _ _), h3, k1]
      · rw [if_neg (n1 _ _), if_neg (n2 _ _), h2, k1]
      · intro q q1 q2 q3
        rw [if_neg q1, if_neg q2, h4 q q3]
    · rw [Option.map_eq_none_iff, Option.map_eq_none_iff, Option.bind_eq_none_iff]

/-- **C158** (partial).  Two lexers that are made of different sources are different files, if the paths of the sources are relative
and do not begin with the build directory, and no two sources differ in the extension only. -/
theorem C158_distinct_partial (root d n d' n' : Text) (hd : IsDir d) (hn : IsName n) (hd' : IsDir d') (hn' : IsName n')
    (ha : Posix.isabs (d ++ n ++ sMl) = false) (ha' : Posix.isabs (d' ++ n' ++ sMl) = false)
    (hp : ¬ root <+: d ++ n ++ sMl) (hp' : ¬ root <+: d' ++ n' ++ sMl) (run run' : Execute) (t t' : Tool) (flags flags' : List Text)
    (fs fs' gs gs' : Files) (dst : Text)
    (h1 : ocamllex run t root none flags (d ++ n ++ sMll) fs = some (dst, gs))
    (h2 : ocamllex run' t' root none flags' (d' ++ n' ++ sMll) fs' = some (dst, gs')) : d ++ n = d' ++ n' := by
  have e : ∀ {d n : Text}, IsDir d → IsName n → replaceext (d ++ n ++ sMll) ".ml".toList = d ++ n ++ sMl :=
    fun hd hn => ext_of hd hn (by decide) (by decide)
  simp only [ocamllex, rootOf, e hd hn, e hd' hn', Option.map_eq_some_iff, Prod.mk.injEq] at h1 h2
  obtain ⟨_, _, h1, _⟩ := h1
  obtain ⟨_, _, h2, _⟩ := h2
  have b : ∀ {x : Text}, ¬ root <+: x → root.isPrefixOf x = false := fun h => by
    rw [← Bool.not_eq_true, List.isPrefixOf_iff_prefix]; exact h
  obtain ⟨r, hr, _⟩ := Gcc.addroot_rel _ root ha (b hp)
  rw [hr _ ha (b hp)] at h1
  rw [hr _ ha' (b hp')] at h2
  have := h1.trans h2.symm
  have := List.append_cancel_left this
  simp only [List.cons.injEq, true_and] at this
  exact List.append_cancel_right this

/-- **C158 is violated**: the lexer for `x.mll` and the parser for `x.mly` are the same file, so that the one that is made later
replaces the other. -/
theorem C158_same_violated (root d n : Text) (hd : IsDir d) (hn : IsName n) (ha : Posix.isabs (d ++ n) = false)
    (hp : ¬ root <+: d ++ n ++ sMl) (hp' : ¬ root <+: d ++ n ++ sMly) (run run' : Execute) (t t' : Tool) (flags flags' : List Text)
    (fs fs' gs gs' : Files) (dst ml mli : Text)
    (h1 : ocamllex run t root none flags (d ++ n ++ sMll) fs = some (dst, gs))
    (h2 : ocamlyacc run' t' root none flags' (d ++ n ++ sMly) fs' = some ((ml, mli), gs')) : dst = ml := by
  have e : replaceext (d ++ n ++ sMll) ".ml".toList = d ++ n ++ sMl := ext_of hd hn (by decide) (by decide)
  have hne : d ++ n ≠ [] := by
    obtain ⟨c, hc, _⟩ := hn.2
    intro h
    rw [List.append_eq_nil_iff] at h
    rw [h.2] at hc; cases hc
  have ha' : ∀ s, Posix.isabs (d ++ n ++ s) = false := by
    intro s
    cases hdn : d ++ n with
    | nil => exact absurd hdn hne
    | cons c r => rw [hdn] at ha; simpa [Posix.isabs] using ha
  have b : ∀ {x : Text}, ¬ root <+: x → root.isPrefixOf x = false := fun h => by
    rw [← Bool.not_eq_true, List.isPrefixOf_iff_prefix]; exact h
  obtain ⟨r, hr, _⟩ := Gcc.addroot_rel _ root (ha' sMl) (b hp)
  simp only [ocamllex, rootOf, e, Option.map_eq_some_iff, Prod.mk.injEq] at h1
  obtain ⟨_, _, h1, _⟩ := h1
  rw [hr _ (ha' _) (b hp)] at h1
  simp only [ocamlyacc, rootOf, hr _ (ha' _) (b hp')] at h2
  split at h2
  · cases h2
  · simp only [Option.map_eq_some_iff, Prod.mk.injEq] at h2
    obtain ⟨_, _, ⟨h2, _⟩, _⟩ := h2
    rw [← h1, ← h2]
    have hb : replaceext (r ++ '/' :: (d ++ n ++ sMly)) ".ml".toList = (r ++ '/' :: d) ++ n ++ sMl := by
      have := ext_of (d := r ++ '/' :: d) (e := ['m', 'l', 'y']) (e' := sMl) (n := n) ?_ hn (by decide) (by decide)
      · rw [← this]; simp [sMly, sMl]
      · rcases hd with rfl | hd
        · exact .inr (by simp)
        · refine .inr ?_
          rw [List.getLast?_append]
          simp [List.getLast?_cons, hd]
    rw [hb]; simp

/-- **C158 is violated**: a source, and a source in the build directory at the same place, have the same lexer. -/
theorem C158_root_violated (run : Execute) (t : Tool) (fs : Files) (dst dst' : Text) (gs gs' : Files)
    (h1 : ocamllex run t "build".toList none [] "a/x.mll".toList fs = some (dst, gs))
    (h2 : ocamllex run t "build".toList none [] "build/a/x.mll".toList fs = some (dst', gs')) : dst = dst' := by
  simp only [ocamllex, Option.map_eq_some_iff, Prod.mk.injEq] at h1 h2
  obtain ⟨_, _, h1, _⟩ := h1
  obtain ⟨_, _, h2, _⟩ := h2
  rw [← h1, ← h2]
  decide +kernel

/-! ## Cases -/
namespace Ex

def lexer : List Text → Text → Option Text := fun fl c => if c = [] then none else some (fl.flatten ++ c)
def parser : List Text → Text → Option (Text × Text) := fun fl c => if c = [] then none else some (fl.flatten ++ c, c)

def lexRun : Execute
  | _ :: ws, fs => match lexWords ws with
    | (some out, flags, [src]) => ((fs src).bind (lexer flags)).map fun t q => if q = out then some t else fs q
    | _ => none
  | [], _ => none

theorem lexRun_tool : LexTool lexer lexRun := by
  intro exe ws fs out flags src h
  simp only [lexRun, h]

def yaccRun : Execute
  | _ :: ws, fs =>
    let src := ws.getLast?.getD []
    let x := src.take (src.length - 4)
    ((fs src).bind (parser ws.dropLast)).map fun t q =>
      if q = x ++ sMl then some t.1 else if q = x ++ sMli then some t.2 else fs q
  | [], _ => none

theorem yaccRun_tool : YaccTool parser yaccRun := by
  intro exe flags x fs _ _
  have h1 : (x ++ sMly).take ((x ++ sMly).length - 4) = x := by simp [sMly]
  simp only [yaccRun, List.cons_append, List.getLast?_append, List.getLast?_singleton, Option.some_or, Option.getD_some,
    List.dropLast_concat, h1]

def disk : Files := fun p => if p = "src/x.mll".toList then some "rules".toList
  else if p = "src/x.mly".toList then some "grammar".toList else none

theorem dir : IsDir "src/".toList := .inr (by decide)
theorem name : IsName "x".toList := ⟨by decide, 'x', by decide, by decide⟩

end Ex

open Ex in
/-- the hypotheses are met: `Ocamllex(ctx, flags=['-q'])('src/x.mll')` -/
example : ∃ dst fs', ocamllex lexRun ⟨"ocamllex".toList, ["-q".toList]⟩ "build".toList none ["-ml".toList] "src/x.mll".toList disk =
      some (dst, fs') ∧ dst = "build/src/x.ml".toList ∧ fs' dst = some "-q-mlrules".toList := by
  obtain ⟨h1, h2⟩ := C158_lex lexer lexRun lexRun_tool ⟨"ocamllex".toList, ["-q".toList]⟩ "build".toList none "build".toList
    (.inr ⟨.inl rfl, rfl⟩) ["-ml".toList] (by decide) "src/".toList "x".toList dir name (by decide) disk
  have hsrc : "src/".toList ++ "x".toList ++ sMll = "src/x.mll".toList := by decide
  rw [hsrc] at h1 h2
  cases hr : ocamllex lexRun ⟨"ocamllex".toList, ["-q".toList]⟩ "build".toList none ["-ml".toList] "src/x.mll".toList disk with
  | none => exact absurd (h2.1 hr "rules".toList (by decide)) (by decide)
  | some r =>
    obtain ⟨k1, _, ⟨code, out, k3, k4, k5⟩, _⟩ := h1 r.1 r.2 hr
    refine ⟨r.1, r.2, rfl, k1.trans (by decide +kernel), ?_⟩
    have : code = "rules".toList := Option.some.inj (k3.symm.trans (by decide))
    subst this
    rw [k5, ← k4]; decide

open Ex in
/-- the hypotheses are met: `Ocamlyacc(ctx)('src/x.mly')` -/
example : ∃ ml mli fs', ocamlyacc yaccRun ⟨"ocamlyacc".toList, []⟩ "build".toList none ["-v".toList] "src/x.mly".toList disk =
      some ((ml, mli), fs') ∧ fs' ml = some "-vgrammar".toList ∧ fs' mli = some "grammar".toList := by
  obtain ⟨h1, h2⟩ := C158_yacc parser yaccRun yaccRun_tool ⟨"ocamlyacc".toList, []⟩ "build".toList none "build".toList
    (.inr ⟨.inl rfl, rfl⟩) ["-v".toList] (by decide) "src/".toList "x".toList dir name (by decide +kernel) disk
  have hsrc : "src/".toList ++ "x".toList ++ sMly = "src/x.mly".toList := by decide
  rw [hsrc] at h1 h2
  cases hr : ocamlyacc yaccRun ⟨"ocamlyacc".toList, []⟩ "build".toList none ["-v".toList] "src/x.mly".toList disk with
  | none => exact absurd (h2.1 hr "grammar".toList (by decide)) (by decide)
  | some r =>
    obtain ⟨_, ⟨code, p, i, k3, k4, k5, k6, _⟩, _⟩ := h1 r.1.1 r.1.2 r.2 hr
    refine ⟨r.1.1, r.1.2, r.2, rfl, ?_, ?_⟩
    all_goals
      have : code = "grammar".toList := Option.some.inj (k3.symm.trans (by decide))
      subst this
      have k7 : (p, i) = ("-vgrammar".toList, "grammar".toList) := Option.some.inj (k4.symm.trans (by decide))
      cases k7
    · exact k5
    · exact k6

open Ex in
/-- the hypotheses of `C158_distinct_partial` and `C158_same_violated` are met for `src/x` and `build` -/
example : Posix.isabs ("src/".toList ++ "x".toList ++ sMl) = false ∧ ¬ "build".toList <+: "src/".toList ++ "x".toList ++ sMl ∧
    ¬ "build".toList <+: "src/".toList ++ "x".toList ++ sMly ∧
    (ocamllex lexRun ⟨"ocamllex".toList, []⟩ "build".toList none [] "src/x.mll".toList disk).isSome := by
  refine ⟨by decide, by decide, by decide, by decide +kernel⟩

end Verif.Ocaml.Lex
