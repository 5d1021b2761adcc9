import Verif.Java.Core
/-!
# The Java builder

C109, C110, C111.
-/
namespace Verif.Java

/-! ## Files that were written -/

def sWrote : Text := ['[', 'w', 'r', 'o', 't', 'e', ' ']
def sObject : Text := ['R', 'e', 'g', 'u', 'l', 'a', 'r', 'F', 'i', 'l', 'e', 'O', 'b', 'j', 'e', 'c', 't', '[']
def sTo : Text := ['\'', ' ', 't', 'o', ' ']

/-- a line of the output of a compiler with `-verbose` -/
inductive Msg where
  /-- `[wrote F]` -/
  | plain (f : Text)
  /-- `[wrote RegularFileObject[F]]` -/
  | object (f : Text)
  /-- `[wrote 'N' to F]` -/
  | named (n f : Text)
  /-- another line -/
  | other (l : Text)

def Msg.line : Msg → Text
  | .plain f => sWrote ++ f ++ [']']
  | .object f => sWrote ++ sObject ++ f ++ [']', ']']
  | .named n f => sWrote ++ ['\''] ++ n ++ sTo ++ f ++ [']']
  | .other l => l

/-- the file that was written -/
def Msg.file : Msg → Option Text
  | .plain f => some f
  | .object f => some f
  | .named _ f => some f
  | .other _ => none

/-- the path of a file that is recognised: something without `]` and newlines, not beginning like one of the other forms -/
def Plain (f : Text) : Prop := f ≠ [] ∧ ']' ∉ f ∧ '\n' ∉ f ∧ f.head? ≠ some '\'' ∧ ¬ sObject <+: f

/-- the line is one that javac or scalac may print -/
def Msg.Ok : Msg → Prop
  | .plain f => Plain f
  | .object f => Plain f
  | .named n f => Plain f ∧ n ≠ [] ∧ '\'' ∉ n ∧ '\n' ∉ n
  | .other l => '\n' ∉ l ∧ ¬ sWrote <+: l

/-- the whole output -/
def output (ms : List Msg) : Text := ms.flatMap (fun m => m.line ++ ['\n'])

theorem lines_line (l s : Text) (h : '\n' ∉ l) : ∀ cur, lines cur (l ++ '\n' :: s) = (cur ++ l ++ ['\n']) :: lines [] s := by
  induction l with
  | nil => intro cur; simp [lines]
  | cons c l ih =>
    intro cur
    rw [List.mem_cons, not_or] at h
    rw [List.cons_append, lines, if_neg (Ne.symm h.1), ih h.2]
    simp

theorem after_app (x s : Text) : after x (x ++ s) = some s := by
  unfold after
  rw [if_pos (List.isPrefixOf_iff_prefix.2 (List.prefix_append _ _))]
  simp

theorem takeWhile_stop {p : Char → Bool} (a b : Text) (h : ∀ c ∈ a, p c = true) (hb : ∀ c, b.head? = some c → p c = false) :
    (a ++ b).takeWhile p = a ∧ (a ++ b).dropWhile p = b := by
  induction a with
  | nil =>
    cases b with
    | nil => exact ⟨rfl, rfl⟩
    | cons c b => simp [hb c rfl]
  | cons c a ih =>
    obtain ⟨h1, h2⟩ := ih (fun d hd => h d (.tail _ hd))
    simp [h c (.head _), h1, h2]

theorem group_file {f s : Text} (h0 : f ≠ []) (hf : ']' ∉ f) : group (f ++ ']' :: s) = some f := by
  unfold group
  have := (takeWhile_stop (p := (· ≠ ']')) f (']' :: s) (by
    intro c hc
    simp only [ne_eq, decide_not, Bool.not_eq_eq_eq_not, Bool.not_true, decide_eq_false_iff_not]
    rintro rfl; exact hf hc) (by intro c hc; cases hc; decide)).1
  rw [this, if_neg h0]

theorem quoted_none {s : Text} (h : s.head? ≠ some '\'') : quoted s = none := by
  unfold quoted
  split
  · simp at h
  · rfl

theorem quoted_named {n s : Text} (h0 : n ≠ []) (hn : '\'' ∉ n) : quoted ('\'' :: (n ++ (litTo ++ s))) = some s := by
  unfold quoted
  obtain ⟨h1, h2⟩ := takeWhile_stop (p := (· ≠ '\'')) n (litTo ++ s) (by
    intro c hc
    simp only [ne_eq, decide_not, Bool.not_eq_eq_eq_not, Bool.not_true, decide_eq_false_iff_not]
    rintro rfl; exact hn hc) (by intro c hc; cases hc; decide)
  simp only [h1, h2, if_neg h0]
  exact after_app _ _

theorem head_app {f s : Text} (h0 : f ≠ []) : (f ++ s).head? = f.head? := by
  cases f with
  | nil => exact absurd rfl h0
  | cons c f => rfl

theorem optional_none {part rest : Text → Option Text} {s : Text} (h : part s = none) : optional part rest s = rest s := by
  unfold optional
  rw [h]

theorem optional_some {part rest : Text → Option Text} {s s' r : Text} (h : part s = some s') (h2 : rest s' = some r) :
    optional part rest s = some r := by
  unfold optional
  rw [h]
  simp [h2]

theorem after_none {x s : Text} (h : ¬ x <+: s) : after x s = none := by
  unfold after
  rw [if_neg (fun h' => h (List.isPrefixOf_iff_prefix.1 h'))]

theorem tail_file {f s : Text} (h : Plain f) : optional quoted group (f ++ ']' :: s) = some f := by
  rw [optional_none (quoted_none (by rw [head_app h.1]; exact h.2.2.2.1))]
  exact group_file h.1 h.2.1

theorem prefix_of_stop {x a s : Text} {c : Char} (hc : c ∉ x) (h : x <+: a ++ c :: s) : x <+: a := by
  rw [← List.singleton_append, ← List.append_assoc] at h
  rcases List.prefix_or_prefix_of_prefix h (List.prefix_append (a ++ [c]) s) with h | h
  · rcases List.prefix_concat_iff.1 h with rfl | h
    · simp at hc
    · exact h
  · exact absurd (h.subset (by simp)) hc

theorem not_object {f s : Text} (h : Plain f) : ¬ litObject <+: f ++ ']' :: s := by
  intro hp
  exact h.2.2.2.2 (prefix_of_stop (by decide) hp)

theorem wrote_msg (m : Msg) (h : m.Ok) : wrote (m.line ++ ['\n']) = m.file := by
  cases m with
  | plain f =>
    have h : Plain f := h
    have e : (Msg.plain f).line ++ ['\n'] = litWrote ++ (f ++ ']' :: ['\n']) := by simp [Msg.line, litWrote, sWrote]
    unfold wrote
    rw [e, after_app]
    simp only
    rw [optional_none (after_none (not_object h))]
    exact tail_file h
  | object f =>
    have h : Plain f := h
    have e : (Msg.object f).line ++ ['\n'] = litWrote ++ (litObject ++ (f ++ ']' :: [']', '\n'])) := by
      simp [Msg.line, litWrote, sWrote, litObject, sObject]
    unfold wrote
    rw [e, after_app]
    exact optional_some (after_app _ _) (tail_file h)
  | named n f =>
    have h : Plain f ∧ n ≠ [] ∧ '\'' ∉ n ∧ '\n' ∉ n := h
    obtain ⟨hf, hn0, hn, _⟩ := h
    have e : (Msg.named n f).line ++ ['\n'] = litWrote ++ ('\'' :: (n ++ (litTo ++ (f ++ ']' :: ['\n'])))) := by
      simp [Msg.line, litWrote, sWrote, litTo, sTo]
    unfold wrote
    rw [e, after_app]
    simp only
    rw [optional_none (after_none (by
      intro hp
      rw [show litObject = 'R' :: ['e', 'g', 'u', 'l', 'a', 'r', 'F', 'i', 'l', 'e', 'O', 'b', 'j', 'e', 'c', 't', '['] from rfl, List.cons_prefix_cons] at hp
      exact absurd hp.1 (by decide)))]
    exact optional_some (quoted_named hn0 hn) (group_file hf.1 hf.2.1)
  | other l =>
    have h : '\n' ∉ l ∧ ¬ sWrote <+: l := h
    unfold wrote
    rw [Msg.line, after_none]
    · rfl
    · intro hp
      exact h.2 (prefix_of_stop (s := []) (by decide) hp)

theorem line_line (m : Msg) (h : m.Ok) : '\n' ∉ m.line := by
  cases m with
  | plain f =>
    have h : Plain f := h
    simp only [Msg.line, List.mem_append, not_or]
    exact ⟨⟨by decide, h.2.2.1⟩, by decide⟩
  | object f =>
    have h : Plain f := h
    simp only [Msg.line, List.mem_append, not_or]
    exact ⟨⟨⟨by decide, by decide⟩, h.2.2.1⟩, by decide⟩
  | named n f =>
    have h : Plain f ∧ n ≠ [] ∧ '\'' ∉ n ∧ '\n' ∉ n := h
    simp only [Msg.line, List.mem_append, not_or]
    exact ⟨⟨⟨⟨⟨by decide, by decide⟩, h.2.2.2⟩, by decide⟩, h.1.2.2.1⟩, by decide⟩
  | other l => exact h.1

/-- **C109**: `compile` returns the files that the compiler says it has written, in this order, and no others.
Partial: there is no `]` in the paths, and they do not begin with a quote (`C109_violated`). -/
theorem C109_partial (ms : List Msg) (h : ∀ m ∈ ms, m.Ok) : written (output ms) = ms.filterMap Msg.file := by
  unfold written output
  induction ms with
  | nil => rfl
  | cons m ms ih =>
    rw [List.flatMap_cons, List.append_assoc, List.singleton_append, lines_line _ _ (line_line m (h m (.head _))), List.nil_append,
      List.filterMap_cons, List.filterMap_cons, wrote_msg m (h m (.head _)), ih (fun x hx => h x (.tail _ hx))]

/-- **C109**, violated: the path of a file in a directory with brackets in its name is cut off. -/
theorem C109_violated : written (output [.plain "build[1]/A.class".toList]) = ["build[1".toList] := by decide +kernel

set_option maxRecDepth 4000 in
/-- `C109_partial` -/
example : (∀ m ∈ [Msg.other "[parsing started A.java]".toList, .object "build/A.class".toList, .plain "b/B.class".toList,
      .named "C".toList "b/C.class".toList, .other "1 warning".toList], m.Ok) ∧
    written (output [Msg.other "[parsing started A.java]".toList, .object "build/A.class".toList, .plain "b/B.class".toList,
      .named "C".toList "b/C.class".toList, .other "1 warning".toList]) =
      ["build/A.class".toList, "b/B.class".toList, "b/C.class".toList] := by
  refine ⟨?_, by decide +kernel⟩
  intro m hm
  simp only [List.mem_cons, List.not_mem_nil, or_false] at hm
  rcases hm with rfl | rfl | rfl | rfl | rfl <;> simp only [Msg.Ok, Plain] <;> decide +kernel

/-! ## Class paths -/

def sCp : Text := ['-', 'c', 'p']
def sD : Text := ['-', 'd']
def sSource : Text := ['-', 's', 'o', 'u', 'r', 'c', 'e', 'p', 'a', 't', 'h']

/-- The class path that `javac` or `java` uses: that of the last `-cp` among its options.  `-cp`, `-d` and `-sourcepath` have an argument. -/
def classPath (found : Option Text) : List Text → Option Text
  | [] => found
  | [_] => found
  | a :: b :: rest =>
    if a = sCp then classPath (some b) rest
    else if a = sD ∨ a = sSource then classPath found rest
    else classPath found (b :: rest)

/-- not an option that has an argument -/
def NoOpt (x : Text) : Prop := x ≠ sCp ∧ x ≠ sD ∧ x ≠ sSource

/-- the directories and archives of a class path -/
def parts (p : Text) : List Text := go [] p
where
  go : Text → Text → List Text
    | cur, [] => [cur]
    | cur, c :: s => if c = ':' then cur :: go [] s else go (cur ++ [c]) s

theorem parts_go (l s cur : Text) (h : ':' ∉ l) : parts.go cur (l ++ s) = parts.go (cur ++ l) s := by
  induction l generalizing cur with
  | nil => simp
  | cons c l ih =>
    rw [List.mem_cons, not_or] at h
    rw [List.cons_append, parts.go, if_neg (Ne.symm h.1), ih _ h.2]
    simp

theorem parts_pathsep (ps : List Text) (h0 : ps ≠ []) (h : ∀ p ∈ ps, ':' ∉ p) : parts (pathsep ps) = ps := by
  unfold parts
  induction ps with
  | nil => exact absurd rfl h0
  | cons p ps ih =>
    cases ps with
    | nil =>
      have := parts_go p [] [] (h p (.head _))
      rw [List.append_nil] at this
      rw [pathsep, this]; simp [parts.go]
    | cons q ps =>
      rw [pathsep, parts_go p _ [] (h p (.head _)), parts.go, if_pos rfl, ih (by simp) (fun x hx => h x (.tail _ hx))]
      rfl

theorem classPath_skip {f : Option Text} {x : Text} {l : List Text} (h : NoOpt x) : classPath f (x :: l) = classPath f l := by
  cases l with
  | nil => simp only [classPath]
  | cons y l => rw [classPath, if_neg h.1, if_neg (fun h' => h'.elim h.2.1 h.2.2)]

theorem classPath_skips {f : Option Text} {a l : List Text} (h : ∀ x ∈ a, NoOpt x) : classPath f (a ++ l) = classPath f l := by
  induction a with
  | nil => rfl
  | cons x a ih => rw [List.cons_append, classPath_skip (h x (.head _)), ih (fun y hy => h y (.tail _ hy))]

theorem classPath_cp {f : Option Text} {p : Text} {l : List Text} : classPath f (cp :: p :: l) = classPath (some p) l := by
  rw [classPath, if_pos (show cp = sCp from rfl)]

theorem classPath_d {f : Option Text} {p : Text} {l : List Text} : classPath f (optD :: p :: l) = classPath f l := by
  rw [classPath, if_neg (by decide), if_pos (.inl rfl)]

theorem classPath_source {f : Option Text} {p : Text} {l : List Text} : classPath f (optSource :: p :: l) = classPath f l := by
  rw [classPath, if_neg (by decide), if_pos (.inr rfl)]

theorem classPath_sources {f : Option Text} {ps l : List Text} :
    classPath f (ps.flatMap (fun p => [optSource, p]) ++ l) = classPath f l := by
  induction ps with
  | nil => rfl
  | cons p ps ih =>
    rw [List.flatMap_cons, List.append_assoc]
    exact classPath_source.trans ih

theorem classPath_cps {f : Option Text} {ps l : List Text} :
    classPath f (ps.flatMap (fun p => [cp, p]) ++ l) = classPath (ps.getLast?.or f) l := by
  induction ps generalizing f with
  | nil => simp
  | cons p ps ih =>
    rw [List.flatMap_cons, List.append_assoc]
    refine classPath_cp.trans (ih.trans ?_)
    cases ps with
    | nil => rfl
    | cons q ps =>
      rw [List.getLast?_cons_cons]
      cases h : (q :: ps).getLast? with
      | none => simp at h
      | some x => rfl

theorem noOpt_target (t : Text) : NoOpt (optTarget ++ t) := by
  refine ⟨?_, ?_, ?_⟩ <;> simp [optTarget, sCp, sD, sSource]

/-- The command of the compiler uses the last class path. -/
theorem classPath_javac (exe : Text) (dst : Option Text) (debug : Bool) (debugFlags : List Text) (target : Option Text)
    (own given ownSrc givenSrc ownFlags flags srcs : List Text)
    (h : ∀ x ∈ exe :: (debugFlags ++ ownFlags ++ flags ++ srcs), NoOpt x) :
    classPath none (javac exe dst debug debugFlags target own given ownSrc givenSrc ownFlags flags srcs) = (own ++ given).getLast? := by
  have hf : ∀ x ∈ debugFlags ++ ownFlags ++ flags ++ srcs, NoOpt x := fun x hx => h x (.tail _ hx)
  simp only [List.mem_append] at hf
  unfold javac
  simp only [List.append_assoc]
  rw [List.singleton_append, classPath_skip (h exe (.head _))]
  have h1 : ∀ l, classPath none (dstArgs dst ++ l) = classPath none l := by
    intro l
    cases dst with
    | none => rfl
    | some d => exact classPath_d
  have h2 : ∀ l, classPath none ((if debug then debugFlags else []) ++ l) = classPath none l := by
    intro l
    cases debug with
    | false => rfl
    | true => exact classPath_skips (fun x hx => hf x (.inl (.inl (.inl hx))))
  have h3 : ∀ l, classPath none (targetArgs target ++ l) = classPath none l := by
    intro l
    cases target with
    | none => rfl
    | some t => exact classPath_skip (noOpt_target t)
  rw [h1, h2, h3, classPath_cps, classPath_sources, classPath_skips (fun x hx => hf x (.inl (.inl (.inr hx)))),
    classPath_skips (fun x hx => hf x (.inl (.inr hx)))]
  have := classPath_skips (f := (own ++ given).getLast?.or none) (l := []) (fun x hx => hf x (.inr hx))
  rw [List.append_nil] at this
  rw [this, Option.or_none, classPath]

/-- **C110**: `run_class` runs the class with all class paths, those of the object first. -/
theorem C110_run (exe : Text) (own given : List Text) (cls : Text) (h0 : own ++ given ≠ []) (h : ∀ p ∈ own ++ given, ':' ∉ p)
    (hexe : NoOpt exe) : ∃ p, classPath none (runClass exe own given cls) = some p ∧ parts p = own ++ given := by
  refine ⟨pathsep (own ++ given), ?_, parts_pathsep _ h0 h⟩
  rw [runClass, classPath_skip hexe, classPath_cp, classPath]

/-- **C111**: the compiler looks for classes in all class paths.
Partial: there is at most one, and it is no list.  With more, only the last is used (`C111_violated`). -/
theorem C111_partial (exe : Text) (dst : Option Text) (debug : Bool) (debugFlags : List Text) (target : Option Text)
    (own given ownSrc givenSrc ownFlags flags srcs : List Text)
    (h : ∀ x ∈ exe :: (debugFlags ++ ownFlags ++ flags ++ srcs), NoOpt x) (h1 : (own ++ given).length ≤ 1) (hc : ∀ p ∈ own ++ given, ':' ∉ p) :
    ((classPath none (javac exe dst debug debugFlags target own given ownSrc givenSrc ownFlags flags srcs)).map parts).getD [] =
      own ++ given := by
  rw [classPath_javac exe dst debug debugFlags target own given ownSrc givenSrc ownFlags flags srcs h]
  match hl : own ++ given with
  | [] => rfl
  | [p] =>
    rw [hl] at hc
    exact parts_pathsep [p] (by simp) hc
  | p :: q :: l => rw [hl] at h1; simp at h1

/-- **C111**, violated: whatever the class paths, one that is given and is not the last is not searched. -/
theorem C111_violated (exe : Text) (dst : Option Text) (debug : Bool) (debugFlags : List Text) (target : Option Text)
    (own given ownSrc givenSrc ownFlags flags srcs : List Text)
    (h : ∀ x ∈ exe :: (debugFlags ++ ownFlags ++ flags ++ srcs), NoOpt x) (p q : Text) (_hp : p ∈ own ++ given) (hl : (own ++ given).getLast? = some q)
    (hpq : p ≠ q) (hc : ':' ∉ q) :
    p ∉ ((classPath none (javac exe dst debug debugFlags target own given ownSrc givenSrc ownFlags flags srcs)).map parts).getD [] := by
  rw [classPath_javac exe dst debug debugFlags target own given ownSrc givenSrc ownFlags flags srcs h, hl]
  have := parts_pathsep [q] (by simp) (by simpa using hc)
  rw [pathsep] at this
  simp [this, hpq]

/-- `C110_run`, `C111_partial`, `C111_violated` -/
example : classPath none (runClass "java".toList ["a".toList] ["b.jar".toList] "A".toList) = some "a:b.jar".toList ∧
    parts "a:b.jar".toList = ["a".toList, "b.jar".toList] ∧
    classPath none (javac "javac".toList (some "build".toList) true ["-g".toList] none [] ["a.jar".toList] [] ["src".toList] [] []
      ["A.java".toList]) = some "a.jar".toList ∧
    classPath none (javac "javac".toList (some "build".toList) true ["-g".toList] none ["a.jar".toList] ["b.jar".toList] [] ["src".toList] [] []
      ["A.java".toList]) = some "b.jar".toList := by
  refine ⟨?_, ?_, ?_, ?_⟩ <;> decide +kernel

end Verif.Java
