import Verif.Java.Home
/-!
# The home directory of Java

C165.
-/
namespace Verif.Java

/-! ## Specification -/

/-- a line of a text -/
def OneLine (l : Text) : Prop := '\n' ∉ l ∧ '\r' ∉ l

/-- the end of a line, on POSIX or on Windows -/
def LineEnd (e : Text) : Prop := e = ['\n'] ∨ e = ['\r', '\n']

/-- lines, each with its end -/
def textOf (e : Text) (ls : List Text) : Text := ls.flatMap (· ++ e)

/-! ## Proofs -/

theorem splitlines_line {e : Text} (he : LineEnd e) (l rest cur : Text) (hl : OneLine l) :
    splitlines cur (l ++ e ++ rest) = (cur ++ l) :: splitlines [] rest := by
  induction l generalizing cur with
  | nil =>
    rcases he with rfl | rfl
    · simp [splitlines]
    · simp [splitlines]
  | cons c l ih =>
    obtain ⟨h1, h2⟩ := hl
    simp only [List.mem_cons, not_or] at h1 h2
    have hc : ¬ (c = '\n' ∨ c = '\r') := by grind
    have step : splitlines cur (c :: (l ++ e ++ rest)) = splitlines (cur ++ [c]) (l ++ e ++ rest) := by
      rw [splitlines.eq_def]
      split
      · grind
      · grind
      · rename_i h
        cases h
        rw [if_neg hc]
    rw [List.cons_append, List.cons_append, step, ih _ ⟨h1.2, h2.2⟩]
    simp

theorem splitlines_text {e : Text} (he : LineEnd e) (ls : List Text) (rest : Text) (hl : ∀ l ∈ ls, OneLine l) :
    splitlines [] (textOf e ls ++ rest) = ls ++ splitlines [] rest := by
  induction ls with
  | nil => rfl
  | cons l ls ih =>
    have : textOf e (l :: ls) ++ rest = l ++ e ++ (textOf e ls ++ rest) := by simp [textOf]
    rw [this, splitlines_line he l _ [] (hl l (by simp)), ih fun x hx => hl x (by simp [hx])]
    rfl

theorem homeOf_other {l : Text} (h : ¬ "[Opened ".toList <+: l) : homeOf l = none := by
  unfold homeOf after
  rw [if_neg]
  · rfl
  · rw [List.isPrefixOf_iff_prefix]
    exact h

theorem shortest_first (h r : Text) (hn : ¬ "/jre/lib".toList <:+: h ++ "/jre/li".toList) : shortest (h ++ ("/jre/lib".toList ++ r)) = some h := by
  have e : "/jre/lib".toList = litJre := by decide +kernel
  induction h with
  | nil =>
    have : [] ++ ("/jre/lib".toList ++ r) = '/' :: (['j', 'r', 'e', '/', 'l', 'i', 'b'] ++ r) := by
      rw [e]
      rfl
    rw [this, shortest, if_pos]
    rw [List.isPrefixOf_iff_prefix]
    exact ⟨r, rfl⟩
  | cons c h ih =>
    have hp : ¬ litJre.isPrefixOf (c :: (h ++ ("/jre/lib".toList ++ r))) = true := by
      rw [List.isPrefixOf_iff_prefix]
      intro hpre
      apply hn
      rw [e] at hpre ⊢
      have e2 : c :: (h ++ (litJre ++ r)) = (c :: h ++ "/jre/li".toList) ++ ('b' :: r) := by simp [litJre]
      rw [e2] at hpre
      have : litJre <+: c :: h ++ "/jre/li".toList := by
        refine List.prefix_of_prefix_length_le hpre (List.prefix_append _ _) ?_
        simp [litJre]
      exact this.isInfix
    rw [List.cons_append, shortest, if_neg hp, ih]
    · rfl
    · intro hi
      apply hn
      rw [List.cons_append]
      exact hi.trans (List.suffix_cons _ _).isInfix

/-- **C165**: the home directory is found in the first line `[Opened .../jre/lib...`, whatever comes before it and behind it.  Partial: it
must not have `/jre/lib` in its own name (`C165_nested_violated`), and Java must be one that prints such lines (`C165_modern_violated`). -/
theorem C165_home_partial {e : Text} (he : LineEnd e) (before : List Text) (hb : ∀ l ∈ before, OneLine l ∧ ¬ "[Opened ".toList <+: l)
    (home file behind : Text) (hh : OneLine home) (hf : OneLine file) (hn : ¬ "/jre/lib".toList <:+: home ++ "/jre/li".toList) :
    javaHome (textOf e before ++ ("[Opened ".toList ++ home ++ "/jre/lib".toList ++ file ++ e ++ behind)) = some home := by
  have hl : OneLine ("[Opened ".toList ++ home ++ "/jre/lib".toList ++ file) := by
    constructor
    · simp only [List.mem_append, not_or]
      exact ⟨⟨⟨by decide +kernel, hh.1⟩, by decide +kernel⟩, hf.1⟩
    · simp only [List.mem_append, not_or]
      exact ⟨⟨⟨by decide +kernel, hh.2⟩, by decide +kernel⟩, hf.2⟩
  have hm : homeOf ("[Opened ".toList ++ home ++ "/jre/lib".toList ++ file) = some home := by
    have eo : "[Opened ".toList = litOpened := by decide +kernel
    unfold homeOf after
    rw [eo, List.append_assoc, List.append_assoc, if_pos (List.isPrefixOf_iff_prefix.2 (List.prefix_append _ _)), List.drop_left]
    exact shortest_first home file hn
  have hnone : before.findSome? homeOf = none := List.findSome?_eq_none_iff.2 fun l hl => homeOf_other (hb l hl).2
  unfold javaHome
  rw [splitlines_text he before _ fun l hl => (hb l hl).1, splitlines_line he _ _ [] hl, List.findSome?_append, hnone]
  simp only [List.nil_append, List.findSome?_cons, hm]
  rfl

/-- **C165**: without such a line there is no answer. -/
theorem C165_none {e : Text} (he : LineEnd e) (ls : List Text) (hl : ∀ l ∈ ls, OneLine l ∧ ¬ "[Opened ".toList <+: l) :
    javaHome (textOf e ls) = none := by
  have h := splitlines_text he ls [] fun l h => (hl l h).1
  rw [List.append_nil] at h
  unfold javaHome
  rw [h, splitlines, if_pos rfl, List.append_nil]
  exact List.findSome?_eq_none_iff.2 fun l h => homeOf_other (hl l h).2

/-- **C165** is false for Java 9 and later, whose log has another form: there is no answer for any home directory. -/
theorem C165_modern_violated (home : Text) (hh : OneLine home) :
    javaHome (textOf ['\n'] ["openjdk version \"11.0.2\" 2019-01-15".toList,
      "[0.010s][info][class,load] opened: ".toList ++ home ++ "/lib/modules".toList]) = none := by
  refine C165_none (.inl rfl) _ ?_
  intro l hl
  simp only [List.mem_cons, List.not_mem_nil, or_false] at hl
  rcases hl with rfl | rfl
  · exact ⟨by unfold OneLine; decide +kernel, by decide +kernel⟩
  · refine ⟨⟨?_, ?_⟩, ?_⟩
    · simp only [List.mem_append, not_or]
      exact ⟨⟨by decide +kernel, hh.1⟩, by decide +kernel⟩
    · simp only [List.mem_append, not_or]
      exact ⟨⟨by decide +kernel, hh.2⟩, by decide +kernel⟩
    · rintro ⟨t, ht⟩
      simp at ht

set_option maxRecDepth 4000 in
/-- **C165** is false for a directory below another `jre/lib`. -/
theorem C165_nested_violated :
    javaHome (textOf ['\n'] ["[Opened /opt/jre/lib/java8/jre/lib/rt.jar]".toList]) = some "/opt".toList := by decide +kernel

set_option maxRecDepth 4000 in
/-- hypotheses met -/
example : LineEnd ['\r', '\n'] ∧ OneLine "C:/java".toList ∧ ¬ "/jre/lib".toList <:+: "C:/java".toList ++ "/jre/li".toList ∧
    javaHome (textOf ['\r', '\n'] ["java version \"1.8.0\"".toList, "[Opened C:/java/jre/lib/rt.jar]".toList, "[Loaded x]".toList]) =
      some "C:/java".toList := by
  refine ⟨.inr rfl, ?_, ?_, ?_⟩
  · unfold OneLine
    decide +kernel
  · decide +kernel
  · decide +kernel

end Verif.Java
