import Verif.Fnmatch.Proof
/-!
# Shell patterns: properties

C38 (`fnmatchcase` implements shell patterns) and C39 (`glob.escape` is exact).

Both fail for names with newlines, and a pattern with a reversed range makes `fnmatchcase` raise; see the
theorems `..._violated`.  A newline is a legal character of a file name.
-/
namespace Verif.Fnmatch

/-- `escape` (glob.py:153-163); `splitdrive` gives no drive on POSIX -/
def escape : List Char → List Char
  | [] => []
  | c :: s => (if c ∈ ['*', '?', '[', '{'] then ['[', c, ']'] else [c]) ++ escape s

/-! ## C38 -/

/-- **C38** for patterns given by their parts: `fnmatchcase` accepts the names the parts match, and does
not raise.  Missing for the full claim: names with newlines, and reversed ranges. -/
theorem C38_parts_partial (p : List Elem) (hw : Writable false p) (hs : Sound p) (name : List Char)
    (hn : '\n' ∉ name) :
    (Fnmatchcase name (render p) ↔ Matches p name) ∧ ¬ Raises (render p) := by
  have hp := pattern_render hw
  refine ⟨?_, ?_⟩
  · have := fnmatch_read (render p) name (by rw [hp]; exact hs) hn
    rw [hp] at this
    exact this
  · intro h
    exact h ⟨_, compiles (render p) (by rw [hp]; exact hs)⟩

/-- **C38** for any text: read as a pattern, unclosed brackets and braces stand for themselves. -/
theorem C38_text_partial (pat name : List Char) (hs : Sound (pattern pat)) (hn : '\n' ∉ name) :
    (Fnmatchcase name pat ↔ Matches (pattern pat) name) ∧ ¬ Raises pat :=
  ⟨fnmatch_read pat name hs hn, fun h => h ⟨_, compiles pat hs⟩⟩

/-- For names with newlines: what is accepted matches, up to one newline at the end. -/
theorem C38_newline_partial (pat name : List Char) (hs : Sound (pattern pat)) (h : Fnmatchcase name pat) :
    Matches (pattern pat) name ∨ ∃ u, name = u ++ ['\n'] ∧ Matches (pattern pat) u := by
  obtain ⟨alts, ha, alt, hm, t, hr⟩ := h
  rw [Compiles.unique ha (compiles pat hs)] at hm
  simp only [List.mem_singleton] at hm
  subst hm
  obtain ⟨u, v, rfl, h1, h2⟩ := run_matches hr _ _ rfl
  cases h2 with
  | eos he _ =>
    rcases he with rfl | rfl
    · left; simpa using h1
    · exact .inr ⟨u, rfl, h1⟩

/-- `fnmatchcase('a\n', 'a')` is true. -/
theorem C38_trailing_newline_violated :
    Fnmatchcase ['a', '\n'] ['a'] ∧ ¬ Matches (pattern ['a']) ['a', '\n'] := by
  refine ⟨⟨_, compiles ['a'] (by simp [pattern, Fnmatch.read, Sound]), _, List.mem_singleton.mpr rfl, ['\n'], ?_⟩, ?_⟩
  · simp [pattern, Fnmatch.read, toSeq, toRe]
    exact .chr (.eos (.inr rfl) (.nil _))
  · simp only [pattern, Fnmatch.read]
    intro h
    cases h with
    | lit h => cases h

/-- `fnmatchcase('\n', '?')` and `fnmatchcase('a\nb', '*')` are false. -/
theorem C38_newline_any_violated :
    (¬ Fnmatchcase ['\n'] ['?'] ∧ Matches (pattern ['?']) ['\n']) ∧
    (¬ Fnmatchcase ['a', '\n', 'b'] ['*'] ∧ Matches (pattern ['*']) ['a', '\n', 'b']) := by
  refine ⟨⟨?_, ?_⟩, ⟨?_, ?_⟩⟩
  · rintro ⟨alts, ha, alt, hm, t, hr⟩
    rw [Compiles.unique ha (compiles ['?'] (by simp [pattern, Fnmatch.read, Sound]))] at hm
    simp [pattern, Fnmatch.read, toSeq, toRe] at hm
    subst hm
    cases hr with
    | any hc _ => exact hc rfl
  · simp [pattern, Fnmatch.read]
    exact .any .nil
  · rintro ⟨alts, ha, alt, hm, t, hr⟩
    rw [Compiles.unique ha (compiles ['*'] (by simp [pattern, Fnmatch.read, Sound]))] at hm
    simp [pattern, Fnmatch.read, toSeq, toRe] at hm
    subst hm
    cases hr with
    | starNil h => cases h with | eos he _ => simp at he
    | starCons h1 h2 =>
      cases h1 with
      | any _ h =>
        cases h
        cases h2 with
        | starNil h => cases h with | eos he _ => simp at he
        | starCons h1 _ => cases h1 with | any hc _ => exact hc rfl
  · simp [pattern, Fnmatch.read]
    exact Matches.star (u := ['a', '\n', 'b']) .nil

/-- `fnmatchcase(name, '[b-a]')` raises `re.error` for every name. -/
theorem C38_reversed_range_violated : Raises ['[', 'b', '-', 'a', ']'] := by
  rintro ⟨alts, n, h⟩
  have ht : translate ['[', 'b', '-', 'a', ']'] = ['[', 'b', '-', 'a', ']', '$'] := by decide
  rw [ht] at h
  cases n with
  | zero => simp [parseAlts] at h
  | succ n =>
    cases n with
    | zero => simp [parseAlts, parseSeq] at h
    | succ n =>
      simp [parseAlts, parseSeq, setItems, setTok] at h

/-! ### A case -/

/-- `*.{c,h[!0-9]}` -/
def sample : List Elem :=
  [.star, .lit '.', .alts [[.lit 'c'], [.lit 'h', .cls true ['0', '-', '9']]]]

theorem sample_text : render sample = "*.{c,h[!0-9]}".toList := by
  simp [sample, render, renderAlts]

theorem sample_ok : Writable false sample ∧ Sound sample := by
  constructor
  · simp [sample, Writable, WritableAlts, SeqOk]
  · simp [sample, Sound, SoundAlts, RangesOk, ranges]

example : Fnmatchcase "a.b.hx".toList "*.{c,h[!0-9]}".toList :=
  sample_text ▸ ((C38_parts_partial sample sample_ok.1 sample_ok.2 "a.b.hx".toList (by decide)).1).mpr
    (Matches.star (u := ['a', '.', 'b']) (.lit (Matches.alts (p := [.lit 'h', .cls true ['0', '-', '9']])
      (u := ['h', 'x']) (by simp) (.lit (.cls (by decide) .nil)) .nil)))

example : ¬ Fnmatchcase "a.h5".toList "*.{c,h[!0-9]}".toList := by
  intro h
  rw [← sample_text] at h
  have hm := ((C38_parts_partial sample sample_ok.1 sample_ok.2 "a.h5".toList (by decide)).1).mp h
  unfold sample at hm
  generalize hx : "a.h5".toList = x at hm
  have hx' : x = ['a', '.', 'h', '5'] := by rw [← hx]; decide
  clear hx
  cases hm with
  | @star u _ s h1 =>
    cases h1 with
    | lit h1 =>
      cases h1 with
      | @alts _ p v _ s hp h1 h2 =>
        cases h2
        have hu : u = ['a'] ∧ v = ['h', '5'] := by
          match u, hx' with
          | [], hx' => simp at hx'
          | [_], hx' => simp at hx'; simp [hx']
          | [_, _], hx' => simp at hx'
          | [_, _, _], hx' => simp at hx'
          | _ :: _ :: _ :: _ :: u, hx' => simp at hx'
        rw [hu.2] at h1
        simp only [List.mem_cons, List.not_mem_nil, or_false] at hp
        rcases hp with rfl | rfl
        · cases h1
        · cases h1 with
          | lit h1 => cases h1 with | cls hc _ => exact hc (by decide)

/-! ## C39 -/

/-- the parts of `escape(s)` -/
def escapeParts : List Char → List Elem
  | [] => []
  | c :: s => (if c ∈ ['*', '?', '[', '{'] then .cls false [c] else .lit c) :: escapeParts s

theorem escape_render (s : List Char) : render (escapeParts s) = escape s := by
  induction s with
  | nil => simp [escapeParts, escape, render]
  | cons c s ih =>
    simp only [escapeParts, escape]
    split
    · simp [render, ih]
    · simp [render, ih]

theorem escape_writable (s : List Char) : Writable false (escapeParts s) := by
  induction s with
  | nil => simp [escapeParts, Writable]
  | cons c s ih =>
    simp only [escapeParts]
    split
    · rename_i hc
      simp only [Writable, SeqOk]
      refine ⟨⟨by simp, fun _ he => ?_⟩, ih⟩
      subst he
      exact absurd hc (by decide)
    · rename_i hc
      simp only [Writable]
      exact ⟨hc, by simp, ih⟩

theorem escape_sound (s : List Char) : Sound (escapeParts s) := by
  induction s with
  | nil => simp [escapeParts, Sound]
  | cons c s ih =>
    simp only [escapeParts]
    split
    · simp only [Sound]
      exact ⟨by simp [RangesOk, ranges], ih⟩
    · simpa only [Sound] using ih

theorem escape_matches (s name : List Char) : Matches (escapeParts s) name ↔ name = s := by
  induction s generalizing name with
  | nil =>
    constructor
    · intro h; cases h; rfl
    · rintro rfl; exact .nil
  | cons c s ih =>
    simp only [escapeParts]
    split
    · constructor
      · intro h
        cases h with
        | @cls _ _ d _ s' hc h =>
          rw [(ih _).mp h]
          have : d = c := by
            simp [inSeq, ranges] at hc
            exact Char.le_antisymm hc.2 hc.1
          rw [this]
      · rintro rfl
        exact .cls (by simp [inSeq, ranges]) ((ih s).mpr rfl)
    · constructor
      · intro h
        cases h with
        | lit h => rw [(ih _).mp h]
      · rintro rfl
        exact .lit ((ih s).mpr rfl)

theorem escape_run (s v t : List Char) (rs : List Re) (h : Run rs v t) :
    Run (toSeq (escapeParts s) ++ rs) (s ++ v) t := by
  induction s with
  | nil => exact h
  | cons c s ih =>
    simp only [escapeParts]
    split
    · exact .set (by simp [ranges]) ih
    · exact .chr ih

/-- **C39**: the names that match `escape(s)` are `s`, and `s` with a newline at the end.  Missing for the
full claim: the latter is wrong. -/
theorem C39_exact_partial (s name : List Char) :
    (Fnmatchcase name (escape s) ↔ name = s ∨ name = s ++ ['\n']) ∧ ¬ Raises (escape s) := by
  have hp : pattern (escape s) = escapeParts s := by
    rw [← escape_render, pattern_render (escape_writable s)]
  have hs : Sound (pattern (escape s)) := by rw [hp]; exact escape_sound s
  refine ⟨⟨?_, ?_⟩, fun h => h ⟨_, compiles _ hs⟩⟩
  · intro h
    rcases C38_newline_partial _ _ hs h with h | ⟨u, rfl, h'⟩
    · rw [hp, escape_matches] at h
      exact .inl h
    · rw [hp, escape_matches] at h'
      exact .inr (by rw [h'])
  · intro h
    refine ⟨_, compiles _ hs, _, List.mem_singleton.mpr rfl, ?_⟩
    rw [hp]
    rcases h with rfl | rfl
    · exact ⟨[], by simpa using escape_run name [] [] [.eos] (.eos (.inl rfl) (.nil _))⟩
    · exact ⟨['\n'], escape_run s ['\n'] ['\n'] [.eos] (.eos (.inr rfl) (.nil _))⟩

/-- A file `a` followed by a newline matches `escape('a')`. -/
theorem C39_newline_violated : Fnmatchcase ['a', '\n'] (escape ['a']) :=
  (C39_exact_partial ['a'] ['a', '\n']).1.mpr (.inr rfl)

example : escape "a[1]{x".toList = "a[[]1][{]x".toList := by decide

example : Fnmatchcase "a[1]{x".toList (escape "a[1]{x".toList) ∧
    ¬ Fnmatchcase "a1x".toList (escape "a[1]{x".toList) :=
  ⟨(C39_exact_partial _ _).1.mpr (.inl rfl), fun h => absurd ((C39_exact_partial _ _).1.mp h) (by decide)⟩

end Verif.Fnmatch
