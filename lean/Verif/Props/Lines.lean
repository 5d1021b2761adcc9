import Verif.Path.Lines
/-!
# How many lines a file has

C168.
-/
namespace Verif.Path

/-! ## Specification -/

/-- the end of a line: of POSIX, of Windows, of old systems -/
def EndsLine (e : Text) : Prop := e = ['\n'] ∨ e = ['\r', '\n'] ∨ e = ['\r']

/-- what stands in a line -/
def InLine (l : Text) : Prop := '\n' ∉ l ∧ '\r' ∉ l

/-! ## Proofs -/

theorem countLoop_length (ls : List Text) (n : Nat) : countLoop n ls = n + ls.length := by
  induction ls generalizing n with
  | nil => rfl
  | cons l ls ih => rw [countLoop, ih, List.length_cons]; omega

theorem fileLines_step {c : Char} (hc : ¬ (c = '\n' ∨ c = '\r')) (cur s : Text) : fileLines cur (c :: s) = fileLines (cur ++ [c]) s := by
  rw [fileLines.eq_def]
  split
  · grind
  · grind
  · rename_i h
    cases h
    rw [if_neg hc]

theorem fileLines_end {e : Text} (he : EndsLine e) (l rest cur : Text) (hl : InLine l) (hr : rest.head? ≠ some '\n') :
    fileLines cur (l ++ e ++ rest) = (cur ++ l ++ ['\n']) :: fileLines [] rest := by
  induction l generalizing cur with
  | nil =>
    rcases he with rfl | rfl | rfl
    · simp [fileLines]
    · simp [fileLines]
    · cases rest with
      | nil => simp [fileLines]
      | cons d rest =>
        have hd : d ≠ '\n' := fun h => hr (by rw [h]; rfl)
        show fileLines cur ('\r' :: d :: rest) = _
        rw [fileLines.eq_def]
        split
        · rename_i h
          cases h
        · rename_i h
          cases h
          exact absurd rfl hd
        · rename_i h
          cases h
          simp
  | cons c l ih =>
    obtain ⟨h1, h2⟩ := hl
    simp only [List.mem_cons, not_or] at h1 h2
    rw [List.cons_append, List.cons_append, fileLines_step (by grind), ih _ ⟨h1.2, h2.2⟩]
    simp

theorem fileLines_last (l cur : Text) (hl : InLine l) : fileLines cur l = if cur ++ l = [] then [] else [cur ++ l] := by
  induction l generalizing cur with
  | nil => simp [fileLines]
  | cons c l ih =>
    obtain ⟨h1, h2⟩ := hl
    simp only [List.mem_cons, not_or] at h1 h2
    rw [fileLines_step (by grind), ih _ ⟨h1.2, h2.2⟩]
    simp

theorem head_lines {e : Text} (he : EndsLine e) (hn : e ≠ ['\n']) (ls : List Text) (last : Text) (hl : ∀ l ∈ ls, InLine l) (hlast : InLine last) :
    (ls.flatMap (· ++ e) ++ last).head? ≠ some '\n' := by
  cases ls with
  | nil =>
    cases last with
    | nil => simp
    | cons c l =>
      intro h
      simp only [List.flatMap_nil, List.nil_append, List.head?_cons, Option.some.injEq] at h
      exact hlast.1 (by simp [h])
  | cons l ls =>
    cases l with
    | nil =>
      rcases he with rfl | rfl | rfl
      · exact absurd rfl hn
      · simp
      · simp
    | cons c l =>
      intro h
      simp only [List.flatMap_cons, List.cons_append, List.head?_cons, Option.some.injEq] at h
      exact (hl (c :: l) (by simp)).1 (by simp [h])

theorem fileLines_newline (l rest cur : Text) (hl : InLine l) :
    fileLines cur (l ++ ['\n'] ++ rest) = (cur ++ l ++ ['\n']) :: fileLines [] rest := by
  induction l generalizing cur with
  | nil => simp [fileLines]
  | cons c l ih =>
    obtain ⟨h1, h2⟩ := hl
    simp only [List.mem_cons, not_or] at h1 h2
    rw [List.cons_append, List.cons_append, fileLines_step (by grind), ih _ ⟨h1.2, h2.2⟩]
    simp

theorem fileLines_all {e : Text} (he : EndsLine e) (ls : List Text) (last : Text) (hl : ∀ l ∈ ls, InLine l) (hlast : InLine last) :
    (fileLines [] (ls.flatMap (· ++ e) ++ last)).length = ls.length + if last = [] then 0 else 1 := by
  induction ls with
  | nil =>
    rw [List.flatMap_nil, List.nil_append, fileLines_last last [] hlast, List.nil_append]
    split <;> rfl
  | cons l ls ih =>
    have ih' := ih fun x hx => hl x (by simp [hx])
    have e1 : (l :: ls).flatMap (· ++ e) ++ last = l ++ e ++ (ls.flatMap (· ++ e) ++ last) := by simp
    rw [e1]
    have e2 : fileLines [] (l ++ e ++ (ls.flatMap (· ++ e) ++ last)) = ([] ++ l ++ ['\n']) :: fileLines [] (ls.flatMap (· ++ e) ++ last) := by
      by_cases hn : e = ['\n']
      · subst hn
        exact fileLines_newline l _ [] (hl l (by simp))
      · exact fileLines_end he l _ [] (hl l (by simp)) (head_lines he hn ls last (fun x hx => hl x (by simp [hx])) hlast)
    rw [e2, List.length_cons, ih', List.length_cons]
    omega

/-- **C168**: the number of lines is that of the lines that are ended, and one more if there is something behind the last end; how lines are
ended, and what stands in them, does not matter. -/
theorem C168_lines {e : Text} (he : EndsLine e) (ls : List Text) (last : Text) (hl : ∀ l ∈ ls, InLine l) (hlast : InLine last) :
    linecount (ls.flatMap (· ++ e) ++ last) = ls.length + if last = [] then 0 else 1 := by
  unfold linecount
  rw [countLoop_length, fileLines_all he ls last hl hlast, Nat.zero_add]

/-- **C168**: for a file without carriage returns, this is the number of newlines, and one more if the file does not end with one. -/
theorem C168_newlines (s : Text) (h : '\r' ∉ s) :
    linecount s = s.count '\n' + if s = [] ∨ s.getLast? = some '\n' then 0 else 1 := by
  have key : ∀ (s cur : Text), '\r' ∉ s → '\n' ∉ cur →
      (fileLines cur s).length = s.count '\n' + if cur ++ s = [] ∨ (cur ++ s).getLast? = some '\n' then 0 else 1 := by
    intro s
    induction s with
    | nil =>
      intro cur _ hcur
      have hlast : cur.getLast? ≠ some '\n' := fun hx => hcur (List.mem_of_getLast? hx)
      simp only [fileLines, List.append_nil, List.count_nil, Nat.zero_add]
      by_cases hc : cur = []
      · simp [hc]
      · simp [hc, hlast]
    | cons c s ih =>
      intro cur hs hcur
      simp only [List.mem_cons, not_or] at hs
      by_cases hc : c = '\n'
      · subst hc
        have e1 : fileLines cur ('\n' :: s) = (cur ++ ['\n']) :: fileLines [] s := fileLines_newline [] s cur ⟨by simp, by simp⟩ |>.trans (by simp)
        rw [e1, List.length_cons, ih [] hs.2 (by simp), List.count_cons_self]
        have e2 : (([] ++ s = [] ∨ ([] ++ s).getLast? = some '\n')) ↔ (cur ++ '\n' :: s = [] ∨ (cur ++ '\n' :: s).getLast? = some '\n') := by
          cases s with
          | nil => simp
          | cons d s => simp [List.getLast?_append, List.getLast?_cons_cons]
        by_cases hx : ([] ++ s = [] ∨ ([] ++ s).getLast? = some '\n')
        · rw [if_pos hx, if_pos (e2.1 hx)]
        · rw [if_neg hx, if_neg (fun h => hx (e2.2 h))]
      · rw [fileLines_step (by grind), ih (cur ++ [c]) hs.2 (by grind), List.count_cons_of_ne (by exact hc)]
        simp
  unfold linecount
  rw [countLoop_length, key s [] h (by simp), Nat.zero_add]
  simp

/-- hypotheses met -/
example : EndsLine ['\r', '\n'] ∧ InLine "a b".toList ∧ linecount "a\r\n\r\nb".toList = 3 ∧ linecount "a\n\n".toList = 2 ∧ linecount [] = 0 ∧
    linecount "a\r\rb\r".toList = 3 := by
  refine ⟨.inr (.inl rfl), ?_, by decide +kernel, by decide +kernel, by decide +kernel, by decide +kernel⟩
  unfold InLine
  decide +kernel

end Verif.Path
