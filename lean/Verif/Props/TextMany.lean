import Verif.Props.Text
/-!
# `substitute` with several patterns

C60.
-/
namespace Verif.Text

/-- a part of a text: some characters, or a pattern with its replacement -/
inductive Bit where
  | plain (t : Text)
  | use (p : Text × Text)

/-- what is in the file -/
def Bit.source : Bit → Text
  | .plain t => t
  | .use p => p.1

/-- what has to be in the result -/
def Bit.result : Bit → Text
  | .plain t => t
  | .use p => p.2

/-- All patterns begin with the character `o`, which is nowhere else in patterns and replacements, and none is the beginning of
another one. -/
structure Marked (o : Char) (ps : List (Text × Text)) : Prop where
  starts : ∀ p ∈ ps, ∃ r, p.1 = o :: r ∧ o ∉ r
  texts : ∀ p ∈ ps, o ∉ p.2
  apart : ps.Pairwise fun p q => ¬ p.1 <+: q.1 ∧ ¬ q.1 <+: p.1

/-- what one replacement does to a part -/
def Bit.turn (q : Text × Text) : Bit → Bit
  | .plain t => .plain t
  | .use p => if p = q then .plain p.2 else .use p

theorem replaceFrom_plain {pat text t r x : Text} {o : Char} {s : Text} (hp : pat = o :: s) (ht : o ∉ t)
    (h : ∀ n, r.length ≤ n → replaceFrom pat text n r = x) (n : Nat) (hn : (t ++ r).length ≤ n) :
    replaceFrom pat text n (t ++ r) = t ++ x := by
  induction t generalizing n with
  | nil => exact h n hn
  | cons c t ih =>
    cases n with
    | zero => simp at hn
    | succ n =>
      have hc : c ≠ o := fun h' => ht (by simp [h'])
      simp only [List.cons_append, replaceFrom]
      rw [if_neg, ih (fun h' => ht (List.mem_cons_of_mem _ h')) n (by simp at hn ⊢; omega)]
      rw [hp, List.isPrefixOf_iff_prefix]
      rintro ⟨y, hy⟩
      injection hy with hy _
      exact hc hy.symm

theorem replaceFrom_bits {o : Char} {q : Text × Text} {s : Text} (hq : q.1 = o :: s) (bits : List Bit)
    (hb : ∀ b ∈ bits, match b with
      | .plain t => o ∉ t
      | .use p => (∃ r, p.1 = o :: r ∧ o ∉ r) ∧ (p ≠ q → ¬ p.1 <+: q.1 ∧ ¬ q.1 <+: p.1)) (n : Nat)
    (hn : (bits.flatMap Bit.source).length ≤ n) :
    replaceFrom q.1 q.2 n (bits.flatMap Bit.source) = (bits.map (Bit.turn q)).flatMap Bit.source := by
  induction bits generalizing n with
  | nil => cases n <;> rfl
  | cons b bits ih =>
    have ih := fun n hn => ih (fun b hm => hb b (List.mem_cons_of_mem _ hm)) n hn
    have h0 := hb b List.mem_cons_self
    rw [List.map_cons, List.flatMap_cons, List.flatMap_cons] at *
    cases b with
    | plain t => exact replaceFrom_plain hq h0 ih n hn
    | use p =>
      obtain ⟨⟨r, hr, hor⟩, hne⟩ := h0
      by_cases hpq : p = q
      · subst hpq
        simp only [Bit.turn, if_pos, Bit.source] at hn ⊢
        cases n with
        | zero => rw [hr] at hn; simp at hn
        | succ n =>
          have h1 : p.1 ++ bits.flatMap Bit.source = o :: (r ++ bits.flatMap Bit.source) := by rw [hr]; rfl
          rw [h1, replaceFrom, ← h1, if_pos (by rw [List.isPrefixOf_iff_prefix]; exact ⟨_, rfl⟩), List.drop_left,
            ih n (by rw [List.length_append, hr] at hn; simp at hn ⊢; omega)]
      · have hne := hne hpq
        simp only [Bit.turn, if_neg hpq, Bit.source] at hn ⊢
        cases n with
        | zero => rw [hr] at hn; simp at hn
        | succ n =>
          have h1 : p.1 ++ bits.flatMap Bit.source = o :: (r ++ bits.flatMap Bit.source) := by rw [hr]; rfl
          have h2 : ¬ q.1 <+: p.1 ++ bits.flatMap Bit.source := by
            intro h'
            rcases List.prefix_or_prefix_of_prefix h' (List.prefix_append p.1 _) with h' | h'
            · exact hne.2 h'
            · exact hne.1 h'
          rw [h1, replaceFrom, ← h1, if_neg (by rw [List.isPrefixOf_iff_prefix]; exact h2),
            replaceFrom_plain hq hor ih n (by rw [List.length_append, hr] at hn; simp at hn ⊢; omega), hr]
          rfl

theorem turn_result (q : Text × Text) (bits : List Bit) :
    (bits.map (Bit.turn q)).flatMap Bit.result = bits.flatMap Bit.result := by
  induction bits with
  | nil => rfl
  | cons b bits ih =>
    rw [List.map_cons, List.flatMap_cons, List.flatMap_cons, ih]
    cases b with
    | plain t => rfl
    | use p => by_cases hpq : p = q <;> simp [Bit.turn, hpq, Bit.result]

theorem fold_bits {o : Char} : ∀ (ps : List (Text × Text)) (_ : Marked o ps) (bits : List Bit)
    (_ : ∀ b ∈ bits, match b with
      | .plain t => o ∉ t
      | .use p => p ∈ ps),
    ps.foldl (fun c p => replaceStr p.1 p.2 c) (bits.flatMap Bit.source) = bits.flatMap Bit.result := by
  intro ps
  induction ps with
  | nil =>
    intro _ bits hb
    induction bits with
    | nil => rfl
    | cons b bits ih =>
      have h0 := hb b List.mem_cons_self
      have ih := ih (fun b hm => hb b (List.mem_cons_of_mem _ hm))
      rw [List.foldl_nil] at ih ⊢
      rw [List.flatMap_cons, List.flatMap_cons, ih]
      cases b with
      | plain t => rfl
      | use p => cases h0
  | cons q ps ih =>
    intro hm bits hb
    obtain ⟨s, hs, _⟩ := hm.starts q List.mem_cons_self
    have hap := List.pairwise_cons.1 hm.apart
    have hm' : Marked o ps := ⟨fun p h => hm.starts p (List.mem_cons_of_mem _ h),
      fun p h => hm.texts p (List.mem_cons_of_mem _ h), hap.2⟩
    rw [List.foldl_cons]
    have h1 : replaceStr q.1 q.2 (bits.flatMap Bit.source) = (bits.map (Bit.turn q)).flatMap Bit.source := by
      unfold replaceStr
      rw [if_neg (by rw [hs]; simp)]
      refine replaceFrom_bits hs bits (fun b hbm => ?_) _ (Nat.le_refl _)
      have h0 := hb b hbm
      cases b with
      | plain t => exact h0
      | use p =>
        refine ⟨hm.starts p h0, fun hne => ?_⟩
        rcases List.mem_cons.1 h0 with h0 | h0
        · exact absurd h0 hne
        · exact ⟨(hap.1 p h0).2, (hap.1 p h0).1⟩
    rw [h1, ih hm' (bits.map (Bit.turn q))]
    · exact turn_result q bits
    · intro b hbm
      obtain ⟨b', hb', rfl⟩ := List.mem_map.1 hbm
      have h0 := hb b' hb'
      cases b' with
      | plain t => exact h0
      | use p =>
        by_cases hpq : p = q
        · subst hpq
          simp only [Bit.turn, if_pos]
          exact hm.texts p List.mem_cons_self
        · simp only [Bit.turn, if_neg hpq]
          rcases List.mem_cons.1 h0 with h0 | h0
          · exact absurd h0 hpq
          · exact h0

/-- **C60** for `substitute` with several patterns that are marked by a character: in a text of characters and patterns, in
which the mark is in front of patterns only, every pattern becomes its own replacement and the rest is kept, whatever the order
of the patterns.  Without the mark see `C60_twice_violated`. -/
theorem C60_substitute_marked_partial (o : Char) (ps : List (Text × Text)) (hm : Marked o ps) (bits : List Bit)
    (hplain : ∀ t, Bit.plain t ∈ bits → o ∉ t) (huse : ∀ p, Bit.use p ∈ bits → p ∈ ps) (dst : String) (fs : Files)
    (hcr : '\r' ∉ bits.flatMap Bit.source) :
    substitute ps dst (bits.flatMap Bit.source) fs = fs.set dst (bits.flatMap Bit.result) := by
  unfold substitute
  rw [readText_id _ hcr, fold_bits ps hm bits]
  intro b hb
  cases b with
  | plain t => exact hplain t hb
  | use p => exact huse p hb

/-- The hypotheses of `C60_substitute_marked_partial`: `x=${A}${B} A}` with two patterns. -/
example : substitute [("${A}".toList, "B}".toList), ("${B}".toList, "A".toList)] "out" "x=${A}${B} A}".toList (fun _ => none) "out" =
    some "x=B}A A}".toList := by
  have := C60_substitute_marked_partial '$' [("${A}".toList, "B}".toList), ("${B}".toList, "A".toList)]
    ⟨by
      intro p hp
      simp only [List.mem_cons, List.not_mem_nil, or_false] at hp
      rcases hp with rfl | rfl
      · exact ⟨"{A}".toList, by decide +kernel, by decide +kernel⟩
      · exact ⟨"{B}".toList, by decide +kernel, by decide +kernel⟩, by decide +kernel, by decide +kernel⟩
    [.plain "x=".toList, .use ("${A}".toList, "B}".toList), .use ("${B}".toList, "A".toList), .plain " A}".toList]
    (by
      intro t ht
      simp only [List.mem_cons, List.not_mem_nil, or_false, Bit.plain.injEq, reduceCtorEq, false_or] at ht
      rcases ht with rfl | rfl <;> decide +kernel)
    (by
      intro p hp
      simp only [List.mem_cons, List.not_mem_nil, or_false, Bit.use.injEq, reduceCtorEq, false_or] at hp
      rcases hp with rfl | rfl <;> simp)
    "out" (fun _ => none) (by decide +kernel)
  exact (congrFun this "out").trans (by decide +kernel)

end Verif.Text
