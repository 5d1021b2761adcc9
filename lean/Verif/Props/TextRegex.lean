import Verif.Text.Regex
/-!
# Replacing by regular expressions (C153)
-/
namespace Verif.Text.Regex

/-! ## Specification -/

variable {α : Type}

/-- the elements are applied one after the other, each to what came of those before it; an element is a pattern, a text and flags, or a
pattern and a text, for which the flags are those for many lines -/
inductive Applied (sub : α → α → α → Text → Option Text) (m : α) : List (List α) → Text → Text → Prop where
  | nil (t) : Applied sub m [] t t
  | three {p r f t t' t'' l} : sub p r f t = some t' → Applied sub m l t' t'' → Applied sub m ([p, r, f] :: l) t t''
  | two {p r t t' t'' l} : sub p r m t = some t' → Applied sub m l t' t'' → Applied sub m ([p, r] :: l) t t''

/-! ## Proofs -/

theorem subAll_iff (sub : α → α → α → Text → Option Text) (m : α) (items : List (List α)) (t r : Text) :
    subAll sub m items t = .ok r ↔ Applied sub m items t r := by
  induction items generalizing t with
  | nil =>
    simp only [subAll, Except.ok.injEq]
    constructor
    · rintro rfl; exact .nil t
    · intro h; cases h; rfl
  | cons item items ih =>
    constructor
    · intro h
      rw [subAll] at h
      split at h
      · cases h
      · rename_i p x f hu
        split at h
        · cases h
        · rename_i t' hs
          have := (ih t').1 h
          unfold unpack at hu
          split at hu
          · cases hu; exact .three hs this
          · cases hu; exact .two hs this
          · cases hu
    · intro h
      cases h with
      | three hs ha => simp only [subAll, unpack, hs]; exact (ih _).2 ha
      | two hs ha => simp only [subAll, unpack, hs]; exact (ih _).2 ha

/-- **C153**, partial: `regex_substitute` returns exactly if all elements can be applied, and then the destination has the text that comes
of it, and no other file is changed; otherwise no file is changed.  Partial: for a source whose line ends are not those of POSIX see
`C153_ends_violated`. -/
theorem C153_partial (sub : α → α → α → Text → Option Text) (m : α) (items : List (List α)) (src dst code : Text) (files : Files)
    (hs : files src = some code) (hc : '\r' ∉ code) :
    let o := regexSubstitute sub m items src dst files
    (o.1 = .ok () ↔ ∃ r, Applied sub m items code r) ∧
    (∀ r, Applied sub m items code r → o.2 dst = some r) ∧
    (∀ f, f ≠ dst ∨ o.1 ≠ .ok () → o.2 f = files f) := by
  have hr : readText code = code := by
    clear hs
    induction code with
    | nil => rfl
    | cons c l ih =>
      have h1 : c ≠ '\r' := by rintro rfl; simp at hc
      have h2 : '\r' ∉ l := fun h => hc (by simp [h])
      rw [readText]
      · rw [ih h2]
      · intro _ h; exact absurd h h1
      · exact h1
  dsimp only
  unfold regexSubstitute
  rw [hs]
  dsimp only
  rw [hr]
  cases h : subAll sub m items code with
  | error e =>
    have hno : ∀ r, ¬ Applied sub m items code r := by
      intro r ha
      rw [← subAll_iff, h] at ha
      cases ha
    refine ⟨?_, ?_, ?_⟩
    · simp [hno]
    · intro r ha; exact absurd ha (hno r)
    · intro f _; rfl
  | ok new =>
    have ha := (subAll_iff sub m items code new).1 h
    refine ⟨?_, ?_, ?_⟩
    · simp only [true_iff]; exact ⟨new, ha⟩
    · intro r hr'
      rw [← subAll_iff, h] at hr'
      cases hr'
      simp
    · intro f hf
      rcases hf with hf | hf
      · simp [hf]
      · simp at hf

/-- **C153** is false for other line ends: even with no pattern the file that is written is not the source. -/
theorem C153_ends_violated (sub : α → α → α → Text → Option Text) (m : α) :
    ∃ (src dst code : Text) (files : Files),
      files src = some code ∧ Applied sub m [] code code ∧ (regexSubstitute sub m [] src dst files).2 dst ≠ some code := by
  refine ⟨['a'], ['b'], ['x', '\r', '\n'], fun _ => some ['x', '\r', '\n'], rfl, .nil _, ?_⟩
  simp [regexSubstitute, subAll, readText]

/-- hypotheses met: an element that replaces one character, once with flags and once without, and one with too many parts -/
def exSub (p r _f : Text) (t : Text) : Option Text :=
  match p with
  | [c] => some (t.flatMap fun x => if x = c then r else [x])
  | _ => none

example : Applied exSub "M".toList [["a".toList, "bb".toList], ["b".toList, "c".toList, "I".toList]] "xa".toList "xcc".toList ∧
    ¬ ∃ r, Applied exSub "M".toList [["a".toList, "b".toList, "M".toList, "".toList]] "xa".toList r := by
  constructor
  · exact .two rfl (.three rfl (.nil _))
  · rintro ⟨r, h⟩
    cases h

end Verif.Text.Regex
