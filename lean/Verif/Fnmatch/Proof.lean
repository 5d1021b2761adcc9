import Verif.Fnmatch.Core
/-! # The regular expression of a pattern -/
namespace Verif.Fnmatch

/-! ## Brackets -/

theorem upTo_eq (r : List Char) : upTo r =
    if (r.takeWhile (fun c => c ≠ ']')).length < r.length then
      some (r.take (r.takeWhile (fun c => c ≠ ']')).length, r.drop ((r.takeWhile (fun c => c ≠ ']')).length + 1))
    else none := by
  induction r with
  | nil => rfl
  | cons c r ih =>
    simp only [upTo]
    by_cases hc : c = ']'
    · subst hc; simp
    · rw [if_neg hc, ih]
      simp only [hc, List.takeWhile_cons, decide_not, decide_false, Bool.not_false, if_true, List.length_cons]
      split
      · rw [if_pos (by omega)]; simp
      · rw [if_neg (by omega)]; rfl

theorem bracket_eq (cs : List Char) : bracket cs =
    if bracketEnd cs < cs.length then
      some (cs.take (bracketEnd cs), cs.drop (bracketEnd cs + 1)) else none := by
  unfold bracket
  split
  · rename_i c r
    rw [upTo_eq]
    have : bracketEnd ('!' :: c :: r) = (r.takeWhile (fun c => c ≠ ']')).length + 2 := by
      simp only [bracketEnd, List.getElem?_cons_zero, if_true]
      by_cases hc : c = ']'
      · subst hc; simp; omega
      · simp [hc]; omega
    rw [this]
    simp only [List.length_cons]
    split
    · rw [if_pos (by omega)]; simp
    · rw [if_neg (by omega)]; rfl
  · rename_i c r hne
    rw [upTo_eq]
    by_cases h1 : c = '!'
    · subst h1
      cases r with
      | nil => simp [bracketEnd]
      | cons d r => exact absurd rfl (hne d r rfl)
    · have : bracketEnd (c :: r) = (r.takeWhile (fun c => c ≠ ']')).length + 1 := by
        simp only [bracketEnd, List.getElem?_cons_zero, Option.some.injEq, h1, if_false]
        by_cases hc : c = ']'
        · subst hc; simp; omega
        · simp [hc]
      rw [this]
      simp only [List.length_cons]
      split
      · rw [if_pos (by omega)]; simp
      · rw [if_neg (by omega)]; rfl
  · simp [bracketEnd]

theorem upTo_mem {r x after : List Char} (h : upTo r = some (x, after)) : ']' ∉ x := by
  induction r generalizing x with
  | nil => simp [upTo] at h
  | cons c r ih =>
    simp only [upTo] at h
    split at h
    · simp only [Option.some.injEq, Prod.mk.injEq] at h; rw [← h.1]; simp
    · rename_i hc
      simp only [Option.map_eq_some_iff] at h
      obtain ⟨⟨y, a⟩, h1, h2⟩ := h
      simp only [Prod.mk.injEq] at h2
      rw [← h2.1]
      simp only [List.mem_cons, not_or]
      exact ⟨fun he => hc he.symm, ih (h2.2 ▸ h1)⟩

/-- what was read can stand in brackets -/
theorem bracket_ok {cs stuff after : List Char} (h : bracket cs = some (stuff, after)) :
    ∃ neg seq, readSeq stuff = .cls neg seq ∧ SeqOk neg seq := by
  unfold bracket at h
  split at h
  · rename_i c r
    simp only [Option.map_eq_some_iff] at h
    obtain ⟨⟨y, a⟩, h1, h2⟩ := h
    simp only [Prod.mk.injEq] at h2
    rw [← h2.1]
    exact ⟨true, c :: y, rfl, upTo_mem h1, by simp⟩
  · rename_i c r hne
    simp only [Option.map_eq_some_iff] at h
    obtain ⟨⟨y, a⟩, h1, h2⟩ := h
    simp only [Prod.mk.injEq] at h2
    rw [← h2.1]
    by_cases hc : c = '!'
    · subst hc
      cases r with
      | nil => simp [upTo] at h1
      | cons d r => exact absurd rfl (hne d r rfl)
    · refine ⟨false, c :: y, ?_, upTo_mem h1, fun _ => hc⟩
      unfold readSeq
      split
      · rename_i heq
        simp only [List.cons.injEq] at heq
        exact absurd heq.1 hc
      · rfl
  · simp at h

/-! ## The text of brackets read by `re` -/

/-- backslashes are doubled -/
def dbl (c : Char) : List Char := if c = '\\' then ['\\', '\\'] else [c]

theorem setTok_dbl {first : Bool} {c : Char} (r : List Char) (h : c ≠ ']' ∨ first = true) :
    setTok first (dbl c ++ r) = some (some c, r) := by
  by_cases hc : c = '\\'
  · subst hc; rfl
  · simp only [dbl, hc, if_false, List.singleton_append, setTok]
    by_cases h2 : c = ']'
    · subst h2
      rcases h with h | h
      · exact absurd rfl h
      · simp [h]
    · simp [h2, hc]

theorem setTok_close (r : List Char) : setTok false (']' :: r) = some (none, r) := rfl

theorem dbl_head {c : Char} (hc : c ≠ '-') (r r' : List Char) : dbl c ++ r ≠ '-' :: r' := by
  unfold dbl
  split
  · simp
  · simp [hc]

/-- one character: what comes next decides -/
theorem setItems_one {n : Nat} {first : Bool} {cs r : List Char} {a : Char} {acc : List (Char × Char)}
    (h : setTok first cs = some (some a, r)) (hr : ∀ r', r ≠ '-' :: r') :
    setItems (n + 1) first cs acc = setItems n false r (acc ++ [(a, a)]) := by
  simp only [setItems, h]

theorem setItems_range {n : Nat} {first : Bool} {cs r : List Char} {a : Char} {acc : List (Char × Char)}
    (h : setTok first cs = some (some a, '-' :: r)) :
    setItems (n + 1) first cs acc = match setTok false r with
      | none => none
      | some (none, r) => some (acc ++ [(a, a), ('-', '-')], r)
      | some (some hi, r) => if a ≤ hi then setItems n false r (acc ++ [(a, hi)]) else none := by
  simp only [setItems, h]
  rfl

/-- the inside of brackets after the first character (already read as `a`) -/
theorem setItems_seq (seq : List Char) : ∀ (n : Nat) (first : Bool) (cs r : List Char) (a : Char) (tl : List Char)
    (acc : List (Char × Char)), seq = a :: tl → ']' ∉ tl → RangesOk seq →
    setTok first cs = some (some a, tl.flatMap dbl ++ ']' :: r) → seq.length ≤ n →
    setItems (n + 1) first cs acc = some (acc ++ ranges seq, r) := by
  induction seq using ranges.induct with
  | case1 a0 b rest ih =>
    intro n first cs r a tl acc hs hm hok ht hn
    simp only [List.cons.injEq] at hs
    obtain ⟨rfl, rfl⟩ := hs
    have hb : b ≠ ']' := by
      intro h; subst h; simp at hm
    have ht' : setTok first cs = some (some a0, '-' :: (dbl b ++ (rest.flatMap dbl ++ ']' :: r))) := by
      rw [ht]
      simp [dbl]
    rw [setItems_range ht', setTok_dbl _ (.inl hb)]
    have hle : a0 ≤ b := hok (a0, b) (by simp [ranges])
    simp only [hle, if_true]
    have hrest : RangesOk rest := fun x hx => hok x (by simp only [ranges]; exact .tail _ hx)
    cases rest with
    | nil =>
      obtain ⟨m, rfl⟩ : ∃ m, n = m + 1 := ⟨n - 1, by simp at hn; omega⟩
      simp [ranges, setItems, setTok]
    | cons c rest' =>
      obtain ⟨m, rfl⟩ : ∃ m, n = m + 1 := ⟨n - 1, by simp at hn; omega⟩
      have hc : c ≠ ']' := by
        intro h; subst h; simp at hm
      have := ih m false (dbl c ++ (rest'.flatMap dbl ++ ']' :: r)) r c rest' (acc ++ [(a0, b)]) rfl
        (by intro h; apply hm; simp [h]) hrest (setTok_dbl _ (.inl hc)) (by simp at hn ⊢; omega)
      simp only [List.flatMap_cons, List.append_assoc] at this ⊢
      rw [this]
      simp [ranges]
  | case2 a0 rest hne ih =>
    intro n first cs r a tl acc hs hm hok ht hn
    simp only [List.cons.injEq] at hs
    obtain ⟨rfl, rfl⟩ := hs
    have hrg : ranges (a0 :: rest) = (a0, a0) :: ranges rest := by
      rw [ranges]
      exact hne
    have hrest : RangesOk rest := fun x hx => hok x (by rw [hrg]; exact .tail _ hx)
    rw [hrg]
    cases rest with
    | nil =>
      rw [setItems_one ht (by simp)]
      obtain ⟨m, rfl⟩ : ∃ m, n = m + 1 := ⟨n - 1, by simp at hn; omega⟩
      simp [ranges, setItems, setTok]
    | cons c rest' =>
      have hc : c ≠ ']' := by
        intro h; subst h; simp at hm
      by_cases hd : c = '-'
      · subst hd
        -- only a `-` at the end
        cases rest' with
        | cons b rest'' => exact absurd rfl (hne b rest'')
        | nil =>
          rw [setItems_range (r := ']' :: r) (by rw [ht]; rfl)]
          simp [setTok, ranges]
      · obtain ⟨m, rfl⟩ : ∃ m, n = m + 1 := ⟨n - 1, by simp at hn; omega⟩
        simp only [List.flatMap_cons, List.append_assoc] at ht
        rw [setItems_one ht (fun r' => dbl_head hd _ r')]
        rw [ih m false _ r c rest' (acc ++ [(a0, a0)]) rfl (by intro h; apply hm; simp [h]) hrest
          (setTok_dbl _ (.inl hc)) (by simp at hn ⊢; omega)]
        simp
  | case3 =>
    intro n first cs r a tl acc hs
    simp at hs

/-! ## Compiled patterns -/

mutual
def toRe : Elem → Re
  | .lit c => .chr c
  | .any => .any
  | .star => .star .any
  | .cls neg seq => .set neg (ranges seq)
  | .alts ps => .group (toAlts ps)
def toSeq : List Elem → List Re
  | [] => []
  | e :: es => toRe e :: toSeq es
def toAlts : List (List Elem) → List (List Re)
  | [] => []
  | p :: ps => toSeq p :: toAlts ps
end

theorem toSeq_append (a b : List Elem) : toSeq (a ++ b) = toSeq a ++ toSeq b := by
  induction a with
  | nil => rfl
  | cons e a ih => simp [toSeq, ih]

theorem toAlts_map (ps : List (List Elem)) : toAlts ps = ps.map toSeq := by
  induction ps with
  | nil => rfl
  | cons p ps ih => simp [toAlts, ih]

/-! ## More fuel -/

theorem mono (n : Nat) :
    (∀ s acc r, parseSeq n s acc = some r → parseSeq (n + 1) s acc = some r) ∧
    (∀ s acc r, parseAlts n s acc = some r → parseAlts (n + 1) s acc = some r) := by
  induction n with
  | zero => constructor <;> (intro s acc r h; simp [parseSeq, parseAlts] at h)
  | succ n ih =>
    obtain ⟨ih1, ih2⟩ := ih
    constructor
    · intro s acc r h
      cases s with
      | nil => simpa [parseSeq] using h
      | cons c cs =>
        rw [parseSeq.eq_def] at h ⊢
        simp only at h ⊢
        split at h
        · rename_i hc; rw [if_pos hc]; exact h
        rename_i hc; rw [if_neg hc]
        split at h
        · rename_i hc; rw [if_pos hc]
          split at h
          · simp at h
          · split at h
            · simp at h
            · rename_i hd; simp only [hd]; exact ih1 _ _ _ h
        rename_i hc; rw [if_neg hc]
        split at h
        · rename_i hc; rw [if_pos hc]; exact ih1 _ _ _ h
        rename_i hc; rw [if_neg hc]
        split at h
        · rename_i hc; rw [if_pos hc]; exact ih1 _ _ _ h
        rename_i hc; rw [if_neg hc]
        split at h
        · rename_i hc; rw [if_pos hc]
          cases hl : acc.getLast? with
          | none => rw [hl] at h; simp at h
          | some x =>
            rw [hl] at h
            cases x <;> simp only at h ⊢ <;> first | exact ih1 _ _ _ h | (simp at h)
        rename_i hc; rw [if_neg hc]
        split at h
        · simp at h
        rename_i hc; rw [if_neg hc]
        split at h
        · rename_i hc; rw [if_pos hc]
          split at h
          · simp at h
          · rename_i hd; rw [if_neg hd]; exact ih1 _ _ _ h
        rename_i hc; rw [if_neg hc]
        split at h
        · rename_i hc; rw [if_pos hc]
          split at h
          · rename_i cs'
            cases hx : setItems (cs'.length + 1) true cs' [] with
            | none => rw [hx] at h; simp at h
            | some y => rw [hx] at h; exact ih1 _ _ _ h
          · rename_i hne
            cases hx : setItems (cs.length + 1) true cs [] with
            | none => rw [hx] at h; simp at h
            | some y => rw [hx] at h; exact ih1 _ _ _ h
        rename_i hc; rw [if_neg hc]
        split at h
        · rename_i hc; rw [if_pos hc]
          split at h
          · simp at h
          · split at h
            · rename_i alts rest hx
              rw [ih2 _ _ _ hx]
              exact ih1 _ _ _ h
            · simp at h
        · rename_i hc; rw [if_neg hc]; exact ih1 _ _ _ h
    · intro s acc r h
      rw [parseAlts] at h ⊢
      split at h
      · simp at h
      · rename_i seq rest hx
        rw [ih1 _ _ _ hx]
        exact ih2 _ _ _ h
      · rename_i seq rest hne hx
        rw [ih1 _ _ _ hx]
        simp only
        exact h

theorem parseSeq_mono {n m : Nat} (hm : n ≤ m) {s acc r} (h : parseSeq n s acc = some r) :
    parseSeq m s acc = some r := by
  induction hm with
  | refl => exact h
  | step _ ih => exact (mono _).1 _ _ _ ih

theorem parseAlts_mono {n m : Nat} (hm : n ≤ m) {s acc r} (h : parseAlts n s acc = some r) :
    parseAlts m s acc = some r := by
  induction hm with
  | refl => exact h
  | step _ ih => exact (mono _).2 _ _ _ ih

theorem Compiles.unique {s : List Char} {a b : List (List Re)} (ha : Compiles s a) (hb : Compiles s b) :
    a = b := by
  obtain ⟨n, hn⟩ := ha
  obtain ⟨m, hm⟩ := hb
  have h1 := parseAlts_mono (Nat.le_max_left n m) hn
  have h2 := parseAlts_mono (Nat.le_max_right n m) hm
  rw [h1] at h2
  simpa using h2

/-! ## Text that stands for a pattern -/

/-- the first character that is no digit and no comma is not `}` -/
def Safe (s : List Char) : Prop := (s.dropWhile (fun c => c.isDigit || c == ',')).head? ≠ some '}'

theorem Safe.cons {c : Char} {s : List Char} (hc : c ≠ '}') (h : c.isDigit || c == ',' → Safe s) :
    Safe (c :: s) := by
  unfold Safe
  rw [List.dropWhile_cons]
  split
  · rename_i hd; exact h hd
  · simpa using hc

theorem safe_cons_safe {c : Char} {s : List Char} (hd : (c.isDigit || c == ',') = true) (h : Safe (c :: s)) :
    Safe s := by
  unfold Safe at h
  rw [List.dropWhile_cons, if_pos hd] at h
  exact h

theorem safe_dropWhile {s : List Char} (h : Safe s) : Safe (s.dropWhile Char.isDigit) := by
  induction s with
  | nil => exact h
  | cons c s ih =>
    rw [List.dropWhile_cons]
    split
    · rename_i hd; exact ih (safe_cons_safe (by simp [hd]) h)
    · exact h

theorem Safe.noRepeat {s : List Char} (h : Safe s) : isRepeat s = false := by
  have h1 := safe_dropWhile h
  have hs : ∀ r, ¬ Safe ('}' :: r) := by
    intro r hr
    exact hr (by simp [List.dropWhile_cons])
  unfold isRepeat
  simp only
  split
  · rename_i r heq
    exfalso
    split at heq
    · rename_i r' hr'
      rw [hr'] at h1
      have h2 := safe_dropWhile (safe_cons_safe rfl h1)
      rw [heq] at h2
      exact hs _ h2
    · rw [heq] at h1
      exact hs _ h1
  · rfl

structure Enc (txt : List Char) (es : List Elem) : Prop where
  safe : ∀ suffix, Safe suffix → Safe (txt ++ suffix)
  quest : ∀ suffix, suffix.head? ≠ some '?' → (txt ++ suffix).head? ≠ some '?'
  parse : ∃ k, ∀ n suffix acc r, Safe suffix → parseSeq n suffix (acc ++ toSeq es) = some r →
    parseSeq (n + k) (txt ++ suffix) acc = some r

theorem Enc.nil : Enc [] [] := by
  refine ⟨fun _ h => h, fun _ h => h, 0, ?_⟩
  intro n suffix acc r _ h
  simpa [toSeq] using h

theorem Enc.append {t1 t2 : List Char} {e1 e2 : List Elem} (h1 : Enc t1 e1) (h2 : Enc t2 e2) :
    Enc (t1 ++ t2) (e1 ++ e2) := by
  obtain ⟨k1, p1⟩ := h1.parse
  obtain ⟨k2, p2⟩ := h2.parse
  refine ⟨?_, ?_, k2 + k1, ?_⟩
  · intro suffix h
    rw [List.append_assoc]
    exact h1.safe _ (h2.safe _ h)
  · intro suffix h
    rw [List.append_assoc]
    exact h1.quest _ (h2.quest _ h)
  · intro n suffix acc r hs h
    rw [toSeq_append, ← List.append_assoc] at h
    rw [List.append_assoc, ← Nat.add_assoc]
    exact p1 _ _ _ _ (h2.safe _ hs) (p2 _ _ _ _ hs h)

theorem Enc.escape (c : Char) : Enc (reEscape c) [.lit c] := by
  unfold reEscape
  split
  · rename_i hc
    have ha : c.isAlphanum = false := by
      have : ∀ x ∈ "()[]{}?*+-|^$\\.&~# \t\n\r\x0b\x0c".toList, x.isAlphanum = false := by decide
      exact this c hc
    refine ⟨?_, ?_, 1, ?_⟩
    · intro s _; exact Safe.cons (by decide) (fun h => absurd h (by decide))
    · intro s _; simp
    · intro n suffix acc r _ h
      simp only [List.cons_append, List.nil_append, parseSeq]
      simp [ha]
      simpa [toSeq, toRe] using h
  · rename_i hc
    have hne : ∀ x ∈ "()[]{}?*+-|^$\\.&~# \t\n\r\x0b\x0c".toList, c ≠ x := by
      intro x hx he; subst he; exact hc hx
    have e1 : c ≠ '|' := hne _ (by decide)
    have e2 : c ≠ ')' := hne _ (by decide)
    have e3 : c ≠ '\\' := hne _ (by decide)
    have e4 : c ≠ '.' := hne _ (by decide)
    have e5 : c ≠ '$' := hne _ (by decide)
    have e6 : c ≠ '*' := hne _ (by decide)
    have e7 : c ≠ '+' := hne _ (by decide)
    have e8 : c ≠ '?' := hne _ (by decide)
    have e9 : c ≠ '^' := hne _ (by decide)
    have e10 : c ≠ '{' := hne _ (by decide)
    have e11 : c ≠ '[' := hne _ (by decide)
    have e12 : c ≠ '(' := hne _ (by decide)
    have e13 : c ≠ '}' := hne _ (by decide)
    refine ⟨?_, ?_, 1, ?_⟩
    · intro s h; exact Safe.cons e13 (fun _ => h)
    · intro s _; simpa using e8
    · intro n suffix acc r _ h
      simp only [List.cons_append, List.nil_append, parseSeq, e1, e2, e3, e4, e5, e6, e7, e8, e9, e10, e11, e12,
        or_self, if_false]
      simpa [toSeq, toRe] using h

theorem Enc.dot : Enc ['.'] [.any] := by
  refine ⟨?_, ?_, 1, ?_⟩
  · intro s _; exact Safe.cons (by decide) (fun h => absurd h (by decide))
  · intro s _; simp
  · intro n suffix acc r _ h
    simp only [List.cons_append, List.nil_append, parseSeq]
    simpa [toSeq, toRe] using h

theorem Enc.star : Enc ['.', '*'] [.star] := by
  refine ⟨?_, ?_, 2, ?_⟩
  · intro s _; exact Safe.cons (by decide) (fun h => absurd h (by decide))
  · intro s _; simp
  · intro n suffix acc r _ h
    simp only [List.cons_append, List.nil_append, parseSeq]
    simpa [toSeq, toRe] using h

theorem Enc.openBracket : Enc ['\\', '['] [.lit '['] := by
  have := Enc.escape '['
  exact this

/-- `{` that opens nothing -/
theorem Enc.brace {t : List Char} {es : List Elem} (h : Enc t es) : Enc ('{' :: t) (.lit '{' :: es) := by
  obtain ⟨k, p⟩ := h.parse
  refine ⟨?_, ?_, k + 1, ?_⟩
  · intro s _; exact Safe.cons (by decide) (fun h => absurd h (by decide))
  · intro s _; simp
  · intro n suffix acc r hs hp
    have hq := p n suffix (acc ++ [.chr '{']) r hs (by simpa [toSeq, toRe] using hp)
    simp only [List.cons_append, ← Nat.add_assoc, parseSeq]
    simp [(h.safe _ hs).noRepeat]
    exact hq

theorem Enc.cls {neg : Bool} {seq : List Char} (hok : SeqOk neg seq) (hr : RangesOk seq) (txt : List Char)
    (ht : txt = (if neg then ['^'] else []) ++ seq.flatMap dbl ∨
      ∃ tl, neg = false ∧ seq = '^' :: tl ∧ txt = '\\' :: '^' :: tl.flatMap dbl)
    (hcar : ∀ tl, neg = false → seq = '^' :: tl → txt ≠ seq.flatMap dbl) :
    Enc ('[' :: txt ++ [']']) [.cls neg seq] := by
  refine ⟨?_, ?_, 1, ?_⟩
  · intro s _; exact Safe.cons (by decide) (fun h => absurd h (by decide))
  · intro s _; simp
  · intro n suffix acc r _ h
    cases seq with
    | nil => exact absurd hok (by simp [SeqOk])
    | cons a tl =>
      obtain ⟨hm, hn⟩ := hok
      have hset : ∀ (cs : List Char) (N : Nat), setTok true cs = some (some a, tl.flatMap dbl ++ ']' :: suffix) →
          (a :: tl).length ≤ N → setItems (N + 1) true cs [] = some (ranges (a :: tl), suffix) := by
        intro cs N hc hN
        have := setItems_seq (a :: tl) N true cs suffix a tl [] rfl hm hr hc hN
        simpa using this
      have hlen : ∀ l : List Char, l.length ≤ (l.flatMap dbl).length := by
        intro l
        induction l with
        | nil => simp
        | cons c l ih =>
          simp only [List.flatMap_cons, List.length_append, List.length_cons]
          have : 1 ≤ (dbl c).length := by unfold dbl; split <;> simp
          omega
      simp only [List.cons_append, List.append_assoc, List.nil_append, parseSeq]
      simp only [show ('[' : Char) ≠ '|' by decide, show ('[' : Char) ≠ ')' by decide,
        show ('[' : Char) ≠ '\\' by decide, show ('[' : Char) ≠ '.' by decide,
        show ('[' : Char) ≠ '$' by decide, show ('[' : Char) ≠ '*' by decide,
        show ('[' : Char) ≠ '+' by decide, show ('[' : Char) ≠ '?' by decide,
        show ('[' : Char) ≠ '^' by decide, show ('[' : Char) ≠ '{' by decide, or_self, if_false, if_true]
      cases neg with
      | true =>
        rcases ht with ht | ⟨_, h1, _⟩
        · rw [ht]
          simp only [if_true, List.cons_append, List.nil_append, List.flatMap_cons, List.append_assoc]
          rw [hset (dbl a ++ (tl.flatMap dbl ++ ']' :: suffix)) _ (setTok_dbl _ (.inr rfl)) (by
            have := hlen tl
            have h1 : 1 ≤ (dbl a).length := by unfold dbl; split <;> simp
            simp only [List.length_append, List.length_cons]; omega)]
          simpa [toSeq, toRe] using h
        · simp at h1
      | false =>
        rcases ht with ht | ⟨tl', _, h1, ht⟩
        · have hne : a ≠ '^' := by
            intro he
            subst he
            exact hcar tl rfl rfl (by simpa using ht)
          have hbr : ∀ cs, txt ++ (']' :: suffix) = '^' :: cs → False := by
            intro cs hcs
            rw [ht] at hcs
            simp only [Bool.false_eq_true, if_false, List.nil_append, List.flatMap_cons, List.append_assoc] at hcs
            unfold dbl at hcs
            split at hcs
            · simp at hcs
            · simp [hne] at hcs
          split
          · rename_i cs hcs
            exact absurd hcs (fun hx => hbr cs hx)
          · rw [hset (txt ++ (']' :: suffix)) _ (by
              rw [ht]
              simp only [Bool.false_eq_true, if_false, List.nil_append, List.flatMap_cons, List.append_assoc]
              exact setTok_dbl _ (.inr rfl)) (by
              rw [ht]
              have := hlen (a :: tl)
              simp only [Bool.false_eq_true, if_false, List.nil_append, List.length_append, List.length_cons] at this ⊢
              omega)]
            simpa [toSeq, toRe] using h
        · simp only [List.cons.injEq] at h1
          obtain ⟨rfl, rfl⟩ := h1
          rw [ht]
          simp only [List.cons_append]
          show (match setItems (('\\' :: '^' :: (tl.flatMap dbl ++ (']' :: suffix))).length + 1) true
              ('\\' :: '^' :: (tl.flatMap dbl ++ (']' :: suffix))) [] with
            | none => none
            | some (items, rest) => parseSeq n rest (acc ++ [Re.set false items])) = some r
          rw [hset ('\\' :: '^' :: (tl.flatMap dbl ++ (']' :: suffix))) _ rfl (by
            have := hlen tl
            simp only [List.length_append, List.length_cons]; omega)]
          simpa [toSeq, toRe] using h

/-- the first character of the text in brackets -/
def fixHead : List Char → List Char
  | '!' :: r => '^' :: r
  | '^' :: r => '\\' :: '^' :: r
  | d => d

theorem stuffText_eq (d : List Char) (stuff : List Char) (hd : stuff.flatMap dbl = d) :
    stuffText stuff = fixHead d := by
  subst hd
  unfold stuffText fixHead
  have : (fun c => if c = '\\' then ['\\', '\\'] else [c]) = dbl := rfl
  rw [this]
  rfl

theorem Enc.stuff {stuff : List Char} {neg : Bool} {seq : List Char} (h : readSeq stuff = .cls neg seq)
    (hok : SeqOk neg seq) (hr : RangesOk seq) : Enc ('[' :: stuffText stuff ++ [']']) [readSeq stuff] := by
  rw [h]
  unfold readSeq at h
  split at h
  · rename_i seq'
    simp only [Elem.cls.injEq] at h
    obtain ⟨rfl, rfl⟩ := h
    rw [stuffText_eq ('!' :: seq'.flatMap dbl) _ (by simp [dbl])]
    exact Enc.cls hok hr _ (.inl rfl) (by simp)
  · rename_i hne
    simp only [Elem.cls.injEq] at h
    obtain ⟨rfl, rfl⟩ := h
    cases stuff with
    | nil => exact absurd hok (by simp [SeqOk])
    | cons a tl =>
      have hx : a ≠ '!' := by
        intro he; subst he; exact hne tl rfl
      by_cases hc : a = '^'
      · subst hc
        rw [stuffText_eq ('^' :: tl.flatMap dbl) _ (by simp [dbl])]
        refine Enc.cls hok hr _ (.inr ⟨tl, rfl, rfl, rfl⟩) ?_
        intro _ _ _ he
        simp [dbl, fixHead] at he
      · have : stuffText (a :: tl) = (a :: tl).flatMap dbl := by
          rw [stuffText_eq _ _ rfl]
          unfold fixHead
          split
          · rename_i heq
            simp only [List.flatMap_cons] at heq
            unfold dbl at heq
            split at heq
            · simp at heq
            · simp [hx] at heq
          · rename_i heq
            simp only [List.flatMap_cons] at heq
            unfold dbl at heq
            split at heq
            · simp at heq
            · simp [hc] at heq
          · rfl
        rw [this]
        refine Enc.cls hok hr _ (.inl rfl) ?_
        intro tl' _ he
        simp only [List.cons.injEq] at he
        exact absurd he.1 hc

/-! ## Groups -/

/-- texts and patterns, one by one -/
inductive Encs : List (List Char) → List (List Elem) → Prop
  | nil : Encs [] []
  | cons {t ts p ps} : Enc t p → Encs ts ps → Encs (t :: ts) (p :: ps)

theorem Encs.append {ts ts' ps ps'} (h : Encs ts ps) (h' : Encs ts' ps') : Encs (ts ++ ts') (ps ++ ps') := by
  induction h with
  | nil => exact h'
  | cons h1 _ ih => exact .cons h1 ih

theorem safe_stop {c : Char} {s : List Char} (hc : c = '|' ∨ c = ')' ∨ c = '$') : Safe (c :: s) := by
  rcases hc with rfl | rfl | rfl <;> exact Safe.cons (by decide) (fun h => absurd h (by decide))

theorem Encs.group {ts ps} (h : Encs ts ps) (hne : ts ≠ []) :
    ∃ N, ∀ suffix acc, parseAlts N (join ['|'] ts ++ ')' :: suffix) acc =
      some (acc ++ toAlts ps, ')' :: suffix) := by
  induction h with
  | nil => exact absurd rfl hne
  | @cons t ts p ps h1 h2 ih =>
    obtain ⟨k, hk⟩ := h1.parse
    have hend : ∀ c s, c = '|' ∨ c = ')' → parseSeq (1 + k) (t ++ c :: s) [] = some (toSeq p, c :: s) := by
      intro c s hc
      apply hk
      · rcases hc with h | h
        · exact safe_stop (.inl h)
        · exact safe_stop (.inr (.inl h))
      · simp [parseSeq, hc]
    cases h2 with
    | nil =>
      refine ⟨1 + k + 1, ?_⟩
      intro suffix acc
      simp only [join, parseAlts]
      rw [hend ')' suffix (.inr rfl)]
      simp [toAlts]
    | @cons t' ts' p' ps' h3 h4 =>
      obtain ⟨N, hN⟩ := ih (by simp)
      refine ⟨max (1 + k) N + 1, ?_⟩
      intro suffix acc
      simp only [join, List.append_assoc, List.cons_append, List.nil_append, parseAlts]
      rw [parseSeq_mono (Nat.le_max_left (1 + k) N) (hend '|' _ (.inl rfl))]
      simp only
      have := parseAlts_mono (Nat.le_max_right (1 + k) N) (hN suffix (acc ++ [toSeq p]))
      rw [this]
      simp [toAlts]

theorem Encs.quest {ts ps} (h : Encs ts ps) : ∀ suffix, (')' :: suffix).head? ≠ some '?' →
    (join ['|'] ts ++ ')' :: suffix).head? ≠ some '?' := by
  induction h with
  | nil => intro suffix h; simpa [join] using h
  | @cons t ts p ps h1 h2 ih =>
    intro suffix hs
    cases h2 with
    | nil => exact h1.quest _ hs
    | cons _ _ =>
      simp only [join, List.append_assoc]
      exact h1.quest _ (by simp)

theorem Enc.group {ts ps} (h : Encs ts ps) (hne : ts ≠ []) :
    Enc ('(' :: join ['|'] ts ++ [')']) [.alts ps] := by
  obtain ⟨N, hN⟩ := h.group hne
  refine ⟨?_, ?_, N + 1, ?_⟩
  · intro s _; exact Safe.cons (by decide) (fun h => absurd h (by decide))
  · intro s _; simp
  · intro n suffix acc r _ hp
    have hq := h.quest suffix (by simp)
    have hx := parseAlts_mono (show N ≤ n + N by omega) (hN suffix [])
    have hy := parseSeq_mono (show n ≤ n + N by omega) hp
    simp only [List.cons_append, List.append_assoc, ← Nat.add_assoc, parseSeq]
    simp only [show ('(' : Char) ≠ '|' by decide, show ('(' : Char) ≠ ')' by decide,
        show ('(' : Char) ≠ '\\' by decide, show ('(' : Char) ≠ '.' by decide,
        show ('(' : Char) ≠ '$' by decide, show ('(' : Char) ≠ '*' by decide,
        show ('(' : Char) ≠ '+' by decide, show ('(' : Char) ≠ '?' by decide, show ('(' : Char) ≠ '[' by decide,
        show ('(' : Char) ≠ '^' by decide, show ('(' : Char) ≠ '{' by decide, or_self, if_false, if_true]
    simp only [List.nil_append] at hx ⊢
    split
    · rename_i heq
      rw [heq] at hq
      simp at hq
    · rw [hx]
      simpa [toSeq, toRe] using hy

theorem Encs.commas {ts ps} (h : Encs ts ps) : Enc (join [','] ts) (commas ps) := by
  induction h with
  | nil => exact .nil
  | @cons t ts p ps h1 h2 ih =>
    cases h2 with
    | nil => exact h1
    | cons _ _ =>
      have hc : Enc [','] [.lit ','] := Enc.escape ','
      have := h1.append (hc.append ih)
      simp only [join, Fnmatch.commas, List.append_assoc]
      exact this

/-! ## The translation -/

theorem sound_append {a b : List Elem} : Sound (a ++ b) ↔ Sound a ∧ Sound b := by
  induction a with
  | nil => simp [Sound]
  | cons e a ih => cases e <;> simp [Sound, ih, and_assoc]

theorem sound_commas {ps : List (List Elem)} (h : Sound (commas ps)) : SoundAlts ps := by
  induction ps with
  | nil => simp [SoundAlts]
  | cons p ps ih =>
    cases ps with
    | nil => simpa [SoundAlts, commas] using h
    | cons q ps =>
      simp only [commas, sound_append] at h
      rw [SoundAlts]
      exact ⟨h.1, ih (by simpa [Sound] using h.2)⟩

theorem translate_read (n : Nat) :
    (∀ inner cs res, Sound (read n inner cs).1 →
      ∃ txt, Enc txt (read n inner cs).1 ∧
        translateFrom n inner cs res = ((read n inner cs).2, (read n inner cs).2.head?, res ++ txt) ∧
        (inner = false → (read n inner cs).2 = []) ∧
        ∀ c ∈ (read n inner cs).2.head?, c = ',' ∨ c = '}') ∧
    (∀ cs subs, SoundAlts (readAlts n cs).1 →
      ∃ ts, Encs ts (readAlts n cs).1 ∧
        match (readAlts n cs).2 with
        | some after => ts ≠ [] ∧ subexpression n cs subs = (after, '(' :: join ['|'] (subs ++ ts) ++ [')'])
        | none => subexpression n cs subs = ([], '{' :: join [','] (subs ++ ts))) := by
  induction n with
  | zero =>
    constructor
    · intro inner cs res _
      exact ⟨[], .nil, by simp [translateFrom, read], by simp [read], by simp [read]⟩
    · intro cs subs _
      exact ⟨[], .nil, by simp [subexpression, readAlts]⟩
  | succ n ih =>
    obtain ⟨ih1, ih2⟩ := ih
    constructor
    · intro inner cs res hs
      cases cs with
      | nil => exact ⟨[], .nil, by simp [translateFrom, read], by simp [read], by simp [read]⟩
      | cons c cs =>
        -- one part, then the rest
        have comb : ∀ (t : List Char) (e : Elem) (cs' : List Char), Enc t [e] →
            Sound (e :: (read n inner cs').1) →
            ∃ txt, Enc txt (e :: (read n inner cs').1) ∧
              translateFrom n inner cs' (res ++ t) =
                ((read n inner cs').2, (read n inner cs').2.head?, res ++ txt) ∧
              (inner = false → (read n inner cs').2 = []) ∧
              ∀ c ∈ (read n inner cs').2.head?, c = ',' ∨ c = '}' := by
          intro t e cs' ht hse
          have hs' : Sound (read n inner cs').1 := (sound_append (a := [e]).mp hse).2
          obtain ⟨txt, h1, h2, h3⟩ := ih1 inner cs' (res ++ t) hs'
          exact ⟨t ++ txt, ht.append h1, by rw [h2, List.append_assoc], h3⟩
        simp only [read, translateFrom] at hs ⊢
        by_cases h0 : inner = true ∧ (c = ',' ∨ c = '}')
        · simp only [h0, and_self, if_true] at hs ⊢
          exact ⟨[], .nil, by simp, by simp, by simpa using h0.2⟩
        simp only [h0, if_false] at hs ⊢
        by_cases h1 : c = '*'
        · simp only [h1, if_true] at hs ⊢
          exact comb _ _ _ .star hs
        simp only [h1, if_false] at hs ⊢
        by_cases h2 : c = '?'
        · simp only [h2, if_true] at hs ⊢
          exact comb _ _ _ .dot hs
        simp only [h2, if_false] at hs ⊢
        by_cases h3 : c = '['
        · simp only [h3, if_true] at hs ⊢
          cases hb : bracket cs with
          | none =>
            rw [hb] at hs
            have hbe := bracket_eq cs
            rw [hb] at hbe
            have hlt : ¬ bracketEnd cs < cs.length := by
              intro hlt; rw [if_pos hlt] at hbe; simp at hbe
            simp only [hlt, if_false]
            exact comb _ _ _ .openBracket hs
          | some x =>
            obtain ⟨stuff, after⟩ := x
            rw [hb] at hs
            have hbe := bracket_eq cs
            rw [hb] at hbe
            have hlt : bracketEnd cs < cs.length := by
              apply Classical.byContradiction
              intro hlt; rw [if_neg hlt] at hbe; simp at hbe
            rw [if_pos hlt] at hbe
            simp only [Option.some.injEq, Prod.mk.injEq] at hbe
            simp only [hlt, if_true, ← hbe.1, ← hbe.2]
            obtain ⟨neg, seq, hq, hok⟩ := bracket_ok hb
            have hr : RangesOk seq := by
              simp only [hq, Sound] at hs
              exact hs.1
            have := comb _ _ after (Enc.stuff hq hok hr) hs
            simpa using this
        simp only [h3, if_false] at hs ⊢
        by_cases h4 : c = '{'
        · simp only [h4, if_true] at hs ⊢
          generalize hra : readAlts n cs = ra at hs ⊢
          obtain ⟨ps, after⟩ := ra
          cases after with
          | some after =>
            simp only at hs ⊢
            have hsa : SoundAlts (readAlts n cs).1 := by
              rw [hra]; simp only [Sound] at hs; exact hs.1
            obtain ⟨ts, he, hm⟩ := ih2 cs [] hsa
            rw [hra] at he hm
            simp only [List.nil_append] at hm he
            rw [hm.2]
            exact comb _ _ after (Enc.group he hm.1) hs
          | none =>
            simp only at hs ⊢
            have hsa : SoundAlts (readAlts n cs).1 := by
              rw [hra]
              simp only [Sound] at hs
              exact sound_commas hs
            obtain ⟨ts, he, hm⟩ := ih2 cs [] hsa
            rw [hra] at he hm
            simp only [List.nil_append] at hm he
            rw [hm]
            refine ⟨'{' :: join [','] ts, he.commas.brace, ?_, by simp, by simp⟩
            cases n <;> simp [translateFrom]
        · simp only [h4, if_false] at hs ⊢
          exact comb _ _ _ (Enc.escape c) hs
    · intro cs subs hs
      rw [readAlts] at hs ⊢
      rw [subexpression]
      generalize hrd : read n true cs = rd at hs ⊢
      obtain ⟨p, rest⟩ := rd
      have hsp : Sound (read n true cs).1 := by
        rw [hrd]
        simp only at hs ⊢
        cases rest with
        | nil => simp only [SoundAlts] at hs; exact hs.1
        | cons c after =>
          simp only at hs
          split at hs <;> (simp only [SoundAlts] at hs; exact hs.1)
      obtain ⟨txt, h1, h2, -, h3⟩ := ih1 true cs [] hsp
      rw [hrd] at h1 h2 h3
      simp only [List.nil_append] at h1 h2 h3
      rw [h2]
      cases rest with
      | nil =>
        simp only [List.head?_nil]
        exact ⟨[txt], .cons h1 .nil, rfl⟩
      | cons c after =>
        simp only [List.head?_cons, Option.mem_def, Option.some.injEq, forall_eq'] at h3
        simp only [List.head?_cons, List.drop_succ_cons, List.drop_zero] at hs ⊢
        by_cases hc : c = ','
        · subst hc
          simp only [if_true, SoundAlts] at hs ⊢
          obtain ⟨ts, he, hm⟩ := ih2 after (subs ++ [txt]) hs.2
          refine ⟨txt :: ts, .cons h1 he, ?_⟩
          split at hm
          · simp only [ne_eq, reduceCtorEq, not_false_eq_true, true_and]
            show subexpression n after (subs ++ [txt]) = _
            rw [hm.2]
            simp
          · show subexpression n after (subs ++ [txt]) = _
            rw [hm]
            simp
        · have hc' : c = '}' := by
            rcases h3 with h | h
            · exact absurd h hc
            · exact h
          subst hc'
          simp only [if_neg hc]
          exact ⟨[txt], .cons h1 .nil, by simp, rfl⟩

theorem compiles (pat : List Char) (hs : Sound (pattern pat)) :
    Compiles (translate pat) [toSeq (pattern pat) ++ [.eos]] := by
  obtain ⟨txt, h1, h2, -, -⟩ := (translate_read (2 * pat.length + 1)).1 false pat [] hs
  obtain ⟨k, hk⟩ := h1.parse
  refine ⟨2 + k + 1, ?_⟩
  have ht : translate pat = txt ++ ['$'] := by
    rw [translate, h2]; rfl
  rw [ht, parseAlts]
  have := hk 2 ['$'] [] (toSeq (pattern pat) ++ [.eos], []) (safe_stop (.inr (.inr rfl))) (by
    simp [parseSeq]; rfl)
  rw [this]
  rfl

/-! ## What compiled patterns match -/

theorem run_matches {l : List Re} {s t : List Char} (h : Run l s t) : ∀ (es : List Elem) (rs : List Re),
    l = toSeq es ++ rs → ∃ u v, s = u ++ v ∧ Matches es u ∧ Run rs v t := by
  induction h with
  | nil s =>
    intro es rs hl
    cases es with
    | nil => simp only [toSeq, List.nil_append] at hl; subst hl; exact ⟨[], s, rfl, .nil, .nil s⟩
    | cons e es => simp [toSeq] at hl
  | @chr c rs' s t hr ih =>
    intro es rs hl
    cases es with
    | nil => simp only [toSeq, List.nil_append] at hl; subst hl; exact ⟨[], c :: s, rfl, .nil, .chr hr⟩
    | cons e es =>
      cases e <;> simp [toSeq, toRe] at hl
      obtain ⟨rfl, hl⟩ := hl
      obtain ⟨u, v, rfl, h1, h2⟩ := ih es rs hl
      exact ⟨c :: u, v, rfl, .lit h1, h2⟩
  | @any c rs' s t hc hr ih =>
    intro es rs hl
    cases es with
    | nil => simp only [toSeq, List.nil_append] at hl; subst hl; exact ⟨[], c :: s, rfl, .nil, .any hc hr⟩
    | cons e es =>
      cases e <;> simp [toSeq, toRe] at hl
      obtain ⟨u, v, rfl, h1, h2⟩ := ih es rs hl
      exact ⟨c :: u, v, rfl, .any h1, h2⟩
  | @eos rs' s t hc hr ih =>
    intro es rs hl
    cases es with
    | nil => simp only [toSeq, List.nil_append] at hl; subst hl; exact ⟨[], s, rfl, .nil, .eos hc hr⟩
    | cons e es => cases e <;> simp [toSeq, toRe] at hl
  | @set neg items c rs' s t hc hr ih =>
    intro es rs hl
    cases es with
    | nil => simp only [toSeq, List.nil_append] at hl; subst hl; exact ⟨[], c :: s, rfl, .nil, .set hc hr⟩
    | cons e es =>
      cases e <;> simp [toSeq, toRe] at hl
      obtain ⟨⟨rfl, rfl⟩, hl⟩ := hl
      obtain ⟨u, v, rfl, h1, h2⟩ := ih es rs hl
      exact ⟨c :: u, v, rfl, .cls hc h1, h2⟩
  | @starNil r rs' s t hr ih =>
    intro es rs hl
    cases es with
    | nil => simp only [toSeq, List.nil_append] at hl; subst hl; exact ⟨[], s, rfl, .nil, .starNil hr⟩
    | cons e es =>
      cases e <;> simp [toSeq, toRe] at hl
      obtain ⟨u, v, rfl, h1, h2⟩ := ih es rs hl.2
      exact ⟨u, v, rfl, by simpa using Matches.star (u := []) h1, h2⟩
  | @starCons r rs' s u t h1 h2 ih1 ih2 =>
    intro es rs hl
    cases es with
    | nil => simp only [toSeq, List.nil_append] at hl; subst hl; exact ⟨[], s, rfl, .nil, .starCons h1 h2⟩
    | cons e es =>
      cases e <;> simp [toSeq, toRe] at hl
      obtain ⟨rfl, hl⟩ := hl
      obtain ⟨u', v, rfl, h3, h4⟩ := ih2 (.star :: es) rs (by simp [toSeq, toRe, hl])
      cases h1 with
      | @any c _ _ _ hc hn =>
        cases hn
        cases h3 with
        | @star w _ s' h5 =>
          exact ⟨c :: (w ++ s'), v, by simp, Matches.star (u := c :: w) h5, h4⟩
  | @group alts alt rs' s u t hm h1 h2 ih1 ih2 =>
    intro es rs hl
    cases es with
    | nil => simp only [toSeq, List.nil_append] at hl; subst hl; exact ⟨[], s, rfl, .nil, .group hm h1 h2⟩
    | cons e es =>
      cases e <;> simp [toSeq, toRe] at hl
      rename_i ps
      obtain ⟨rfl, hl⟩ := hl
      rw [toAlts_map] at hm
      obtain ⟨p, hp, rfl⟩ := List.mem_map.mp hm
      obtain ⟨a, b, rfl, h3, h4⟩ := ih1 p [] (by simp)
      cases h4
      obtain ⟨c, d, rfl, h5, h6⟩ := ih2 es rs hl
      exact ⟨a ++ c, d, by simp, .alts hp h3 h5, h6⟩

theorem star_run {rs : List Re} {v t : List Char} (h : Run rs v t) (u : List Char) (hu : '\n' ∉ u) :
    Run (.star .any :: rs) (u ++ v) t := by
  induction u with
  | nil => exact .starNil h
  | cons c u ih =>
    refine .starCons (u := u ++ v) (.any ?_ (.nil _)) (ih (fun hm => hu (.tail _ hm)))
    intro hc; subst hc; exact hu (.head _)

theorem matches_run {es : List Elem} {u : List Char} (h : Matches es u) (hu : '\n' ∉ u) {rs : List Re}
    {v t : List Char} (hr : Run rs v t) : Run (toSeq es ++ rs) (u ++ v) t := by
  induction h generalizing rs v t with
  | nil => exact hr
  | lit _ ih => exact .chr (ih (fun hm => hu (.tail _ hm)) hr)
  | any _ ih =>
    refine .any ?_ (ih (fun hm => hu (.tail _ hm)) hr)
    intro hc; subst hc; exact hu (.head _)
  | @star w es s _ ih =>
    simp only [List.mem_append, not_or] at hu
    rw [List.append_assoc]
    exact star_run (ih hu.2 hr) w hu.1
  | cls hc _ ih => exact .set hc (ih (fun hm => hu (.tail _ hm)) hr)
  | @alts ps p w es s hp _ _ ih1 ih2 =>
    simp only [List.mem_append, not_or] at hu
    rw [List.append_assoc]
    refine .group (alt := toSeq p) (u := s ++ v) ?_ ?_ (ih2 hu.2 hr)
    · rw [toAlts_map]; exact List.mem_map.mpr ⟨p, hp, rfl⟩
    · have := ih1 hu.1 (Run.nil (s ++ v))
      simpa using this

/-- for names without newlines the code implements the pattern that was read -/
theorem fnmatch_read (pat name : List Char) (hs : Sound (pattern pat)) (hn : '\n' ∉ name) :
    Fnmatchcase name pat ↔ Matches (pattern pat) name := by
  have hc := compiles pat hs
  constructor
  · rintro ⟨alts, ha, alt, hm, t, hr⟩
    rw [Compiles.unique ha hc] at hm
    simp only [List.mem_singleton] at hm
    subst hm
    obtain ⟨u, v, rfl, h1, h2⟩ := run_matches hr _ _ rfl
    cases h2 with
    | eos he _ =>
      rcases he with rfl | rfl
      · simpa using h1
      · simp at hn
  · intro hm
    refine ⟨_, hc, _, List.mem_singleton.mpr rfl, [], ?_⟩
    have := matches_run hm hn (Run.eos (.inl rfl) (.nil []))
    simpa using this

/-! ## Reading what was written -/

theorem upTo_append {x : List Char} (h : ']' ∉ x) (r : List Char) : upTo (x ++ ']' :: r) = some (x, r) := by
  induction x with
  | nil => rfl
  | cons c x ih =>
    simp only [List.cons_append, upTo]
    rw [if_neg (by intro hc; subst hc; exact h (.head _)), ih (fun hm => h (.tail _ hm))]
    rfl

theorem bracket_render {neg : Bool} {seq : List Char} (h : SeqOk neg seq) (r : List Char) :
    ∃ stuff, bracket ((if neg then ['!'] else []) ++ seq ++ ']' :: r) = some (stuff, r) ∧
      readSeq stuff = .cls neg seq := by
  cases seq with
  | nil => exact absurd h (by simp [SeqOk])
  | cons c tl =>
    obtain ⟨h1, h2⟩ := h
    cases neg with
    | true =>
      refine ⟨'!' :: c :: tl, ?_, rfl⟩
      simp only [if_true, List.cons_append, List.nil_append, bracket]
      rw [upTo_append h1]
      rfl
    | false =>
      have hc := h2 rfl
      refine ⟨c :: tl, ?_, ?_⟩
      · simp only [Bool.false_eq_true, if_false, List.nil_append, List.cons_append]
        unfold bracket
        split
        · rename_i heq
          simp only [List.cons.injEq] at heq
          exact absurd heq.1 hc
        · rename_i heq
          simp only [List.cons.injEq] at heq
          obtain ⟨rfl, rfl⟩ := heq
          rw [upTo_append h1]
          rfl
        · rename_i heq; simp at heq
      · unfold readSeq
        split
        · rename_i heq
          simp only [List.cons.injEq] at heq
          exact absurd heq.1 hc
        · rfl

/-- where a pattern ends -/
def Ends (inner : Bool) (r : List Char) : Prop :=
  if inner then ∃ c s, r = c :: s ∧ (c = ',' ∨ c = '}') else r = []

mutual
theorem read_render : ∀ (es : List Elem) (inner : Bool) (r : List Char) (n : Nat), Writable inner es →
    Ends inner r → 2 * (render es).length + 1 ≤ n → read n inner (render es ++ r) = (es, r)
  | [], inner, r, n, _, he, hn => by
    obtain ⟨m, rfl⟩ : ∃ m, n = m + 1 := ⟨n - 1, by omega⟩
    cases inner with
    | false => simp only [Ends] at he; simp at he; subst he; simp [render, read]
    | true =>
      simp only [Ends] at he
      obtain ⟨c, s, rfl, hc⟩ := he
      simp [render, read, hc]
  | .lit c :: es, inner, r, n, hw, he, hn => by
    rw [Writable] at hw
    obtain ⟨h1, h2, h3⟩ := hw
    simp only [render, List.length_cons] at hn
    obtain ⟨m, rfl⟩ : ∃ m, n = m + 1 := ⟨n - 1, by omega⟩
    have ih := read_render es inner r m h3 he (by omega)
    simp only [List.mem_cons, List.not_mem_nil, or_false, not_or] at h1 h2
    have h4 : ¬ (inner = true ∧ (c = ',' ∨ c = '}')) := by
      rintro ⟨ha, hb⟩
      rcases hb with hb | hb
      · exact (h2 ha).1 hb
      · exact (h2 ha).2 hb
    simp only [render, List.cons_append, read, h4, h1.1, h1.2.1, h1.2.2.1, h1.2.2.2, if_false, ih]
  | .any :: es, inner, r, n, hw, he, hn => by
    rw [Writable] at hw
    simp only [render, List.length_cons] at hn
    obtain ⟨m, rfl⟩ : ∃ m, n = m + 1 := ⟨n - 1, by omega⟩
    have ih := read_render es inner r m hw he (by omega)
    simp [render, read, ih]
  | .star :: es, inner, r, n, hw, he, hn => by
    rw [Writable] at hw
    simp only [render, List.length_cons] at hn
    obtain ⟨m, rfl⟩ : ∃ m, n = m + 1 := ⟨n - 1, by omega⟩
    have ih := read_render es inner r m hw he (by omega)
    simp [render, read, ih]
  | .cls neg seq :: es, inner, r, n, hw, he, hn => by
    rw [Writable] at hw
    obtain ⟨h1, h2⟩ := hw
    simp only [render, List.length_cons, List.length_append, List.cons_append] at hn
    obtain ⟨m, rfl⟩ : ∃ m, n = m + 1 := ⟨n - 1, by omega⟩
    have ih := read_render es inner r m h2 he (by omega)
    obtain ⟨stuff, hb, hs⟩ := bracket_render h1 (render es ++ r)
    have : render (.cls neg seq :: es) ++ r =
        '[' :: ((if neg then ['!'] else []) ++ seq ++ ']' :: (render es ++ r)) := by
      simp [render]
    rw [this]
    generalize (if neg = true then ['!'] else []) ++ seq ++ ']' :: (render es ++ r) = x at hb ⊢
    simp [read, hb, hs, ih]
  | .alts ps :: es, inner, r, n, hw, he, hn => by
    rw [Writable] at hw
    obtain ⟨h1, h2, h3⟩ := hw
    simp only [render, List.length_cons, List.length_append, List.cons_append] at hn
    obtain ⟨m, rfl⟩ : ∃ m, n = m + 1 := ⟨n - 1, by omega⟩
    have ih := read_render es inner r m h3 he (by omega)
    have ha := readAlts_render ps (render es ++ r) m h1 h2 (by omega)
    have : render (.alts ps :: es) ++ r = '{' :: (renderAlts ps ++ (render es ++ r)) := by
      simp [render]
    rw [this]
    simp [read, ha, ih]
theorem readAlts_render : ∀ (ps : List (List Elem)) (r : List Char) (n : Nat), ps ≠ [] → WritableAlts ps →
    2 * (renderAlts ps).length + 1 ≤ n → readAlts n (renderAlts ps ++ r) = (ps, some r)
  | [], _, _, h, _, _ => absurd rfl h
  | [p], r, n, _, hw, hn => by
    rw [WritableAlts] at hw
    simp only [renderAlts, List.length_append, List.length_cons, List.length_nil] at hn
    obtain ⟨m, rfl⟩ : ∃ m, n = m + 1 := ⟨n - 1, by omega⟩
    have ih := read_render p true ('}' :: r) m hw.1 ⟨'}', r, rfl, .inr rfl⟩ (by omega)
    simp only [renderAlts, List.append_assoc, List.cons_append, List.nil_append, readAlts, ih]
    simp
  | p :: q :: ps, r, n, _, hw, hn => by
    rw [WritableAlts] at hw
    simp only [renderAlts, List.length_append, List.length_cons] at hn
    obtain ⟨m, rfl⟩ : ∃ m, n = m + 1 := ⟨n - 1, by omega⟩
    have ih := read_render p true (',' :: (renderAlts (q :: ps) ++ r)) m hw.1 ⟨',', _, rfl, .inl rfl⟩ (by omega)
    have ih2 := readAlts_render (q :: ps) r m (by simp) hw.2 (by omega)
    simp only [renderAlts, List.append_assoc, List.cons_append, readAlts, ih]
    simp [ih2]
end

theorem pattern_render {es : List Elem} (h : Writable false es) : pattern (render es) = es := by
  have := read_render es false [] _ h (by simp [Ends]) (Nat.le_refl _)
  simp only [List.append_nil] at this
  simp [pattern, this]

end Verif.Fnmatch
