import Verif.Builders.Library
/-!
# Equality of libraries and executables: properties

C89.
-/
namespace Verif.Library

/-! ## Specification -/

mutual
/-- Two objects are the same: both plain texts (or paths) or of the same class, with the same text, and all that they were
built with the same. -/
inductive Same : Obj → Obj → Prop
  | text (p q : Bool) (s : Text) : Same (.text p s) (.text q s)
  | lib (s : Text) {p l x q m y : List Obj} : Sames p q → Sames l m → Sames x y → Same (.lib s p l x) (.lib s q m y)
  | exe (s : Text) {l m : List Obj} : Sames l m → Same (.exe s l) (.exe s m)
inductive Sames : List Obj → List Obj → Prop
  | nil : Sames [] []
  | cons {a b : Obj} {l m : List Obj} : Same a b → Sames l m → Sames (a :: l) (b :: m)
end

/-! ## Proofs -/

mutual
theorem eq_iff : (a b : Obj) → (eq a b = true ↔ Same a b)
  | .text p s, .text q t => by
    simp only [eq, beq_iff_eq]
    constructor
    · rintro rfl; exact .text ..
    · intro h; cases h; rfl
  | .lib s p l x, .lib t q m y => by
    simp only [eq, Bool.and_eq_true, beq_iff_eq, eqs_iff p q, eqs_iff l m, eqs_iff x y]
    constructor
    · rintro ⟨⟨⟨rfl, h1⟩, h2⟩, h3⟩; exact .lib _ h1 h2 h3
    · intro h; cases h; exact ⟨⟨⟨rfl, by assumption⟩, by assumption⟩, by assumption⟩
  | .exe s l, .exe t m => by
    simp only [eq, Bool.and_eq_true, beq_iff_eq, eqs_iff l m]
    constructor
    · rintro ⟨rfl, h1⟩; exact .exe _ h1
    · intro h; cases h; exact ⟨rfl, by assumption⟩
  | .text .., .lib .. => by simp only [eq]; exact ⟨fun h => (by cases h), fun h => by cases h⟩
  | .text .., .exe .. => by simp only [eq]; exact ⟨fun h => (by cases h), fun h => by cases h⟩
  | .lib .., .text .. => by simp only [eq]; exact ⟨fun h => (by cases h), fun h => by cases h⟩
  | .lib .., .exe .. => by simp only [eq]; exact ⟨fun h => (by cases h), fun h => by cases h⟩
  | .exe .., .text .. => by simp only [eq]; exact ⟨fun h => (by cases h), fun h => by cases h⟩
  | .exe .., .lib .. => by simp only [eq]; exact ⟨fun h => (by cases h), fun h => by cases h⟩
theorem eqs_iff : (l m : List Obj) → (eqs l m = true ↔ Sames l m)
  | [], [] => by simp only [eqs, true_iff]; exact .nil
  | a :: l, b :: m => by
    simp only [eqs, Bool.and_eq_true, eq_iff a b, eqs_iff l m]
    constructor
    · rintro ⟨h1, h2⟩; exact .cons h1 h2
    · intro h; cases h; exact ⟨by assumption, by assumption⟩
  | [], _ :: _ => by simp only [eqs]; exact ⟨fun h => (by cases h), fun h => by cases h⟩
  | _ :: _, [] => by simp only [eqs]; exact ⟨fun h => (by cases h), fun h => by cases h⟩
end

mutual
theorem Same.refl : (a : Obj) → Same a a
  | .text .. => .text ..
  | .lib _ p l x => .lib _ (Sames.refl p) (Sames.refl l) (Sames.refl x)
  | .exe _ l => .exe _ (Sames.refl l)
theorem Sames.refl : (l : List Obj) → Sames l l
  | [] => .nil
  | a :: l => .cons (Same.refl a) (Sames.refl l)
end

mutual
theorem Same.symm : {a b : Obj} → Same a b → Same b a
  | _, _, .text .. => .text ..
  | _, _, .lib _ h1 h2 h3 => .lib _ h1.symm h2.symm h3.symm
  | _, _, .exe _ h => .exe _ h.symm
theorem Sames.symm : {l m : List Obj} → Sames l m → Sames m l
  | _, _, .nil => .nil
  | _, _, .cons h1 h2 => .cons h1.symm h2.symm
end

mutual
theorem Same.trans : {a b c : Obj} → Same a b → Same b c → Same a c
  | _, _, _, .text .., h => by cases h; exact .text ..
  | _, _, _, .lib _ h1 h2 h3, h => by
    cases h with
    | lib _ k1 k2 k3 => exact .lib _ (h1.trans k1) (h2.trans k2) (h3.trans k3)
  | _, _, _, .exe _ h1, h => by
    cases h with
    | exe _ k1 => exact .exe _ (h1.trans k1)
theorem Sames.trans : {l m n : List Obj} → Sames l m → Sames m n → Sames l n
  | _, _, _, .nil, h => by cases h; exact .nil
  | _, _, _, .cons h1 h2, h => by
    cases h with
    | cons k1 k2 => exact .cons (h1.trans k1) (h2.trans k2)
end

mutual
theorem Same.hash (ht : Text → Nat) (hl : List Nat → Nat) : {a b : Obj} → Same a b → hash ht hl a = hash ht hl b
  | _, _, .text .. => by simp only [Library.hash]
  | _, _, .lib _ h1 h2 h3 => by simp only [Library.hash, h1.hashes ht hl, h2.hashes ht hl, h3.hashes ht hl]
  | _, _, .exe _ h => by simp only [Library.hash, h.hashes ht hl]
theorem Sames.hashes (ht : Text → Nat) (hl : List Nat → Nat) : {l m : List Obj} → Sames l m →
    hashes ht hl l = hashes ht hl m
  | _, _, .nil => rfl
  | _, _, .cons h1 h2 => by simp only [Library.hashes, h1.hash ht hl, h2.hashes ht hl]
end

/-! ## C89 -/

/-- **C89**: `==` of texts, paths, libraries and executables says whether they are the same, in all they were built with; it
is an equivalence. -/
theorem C89_eq (a b c : Obj) :
    (eq a b = true ↔ Same a b) ∧ eq a a = true ∧ (eq a b = eq b a) ∧ (eq a b = true → eq b c = true → eq a c = true) := by
  refine ⟨eq_iff a b, (eq_iff a a).mpr (.refl a), ?_, ?_⟩
  · rw [Bool.eq_iff_iff, eq_iff, eq_iff]
    exact ⟨.symm, .symm⟩
  · rw [eq_iff, eq_iff, eq_iff]
    exact .trans

/-- **C89**: equal objects have equal hashes, whatever the hash functions of texts and tuples are; so they are found in
sets and dictionaries. -/
theorem C89_hash (ht : Text → Nat) (hl : List Nat → Nat) {a b : Obj} (h : eq a b = true) :
    hash ht hl a = hash ht hl b := ((eq_iff a b).mp h).hash ht hl

/-- **C89**: what is unequal by `!=` is not equal by `==`.

Partial: the converse is false (`C89_ne_violated`). -/
theorem C89_ne_partial {a b : Obj} (h : ne a b = true) : eq a b = false := by
  rw [← Bool.not_eq_true, eq_iff]
  intro hs
  cases hs <;> simp [ne, Obj.str] at h

/-- **C89** is false for `!=`: two libraries of one name that were built in different ways are neither equal nor
unequal, whatever the name and the difference are; and neither are a library and its path. -/
theorem C89_ne_violated (s : Text) {p l x q m y : List Obj} (h : ¬ (Sames p q ∧ Sames l m ∧ Sames x y)) (path : Bool) :
    (eq (.lib s p l x) (.lib s q m y) = false ∧ ne (.lib s p l x) (.lib s q m y) = false) ∧
    (eq (.lib s p l x) (.text path s) = false ∧ ne (.lib s p l x) (.text path s) = false) := by
  refine ⟨⟨?_, by simp [ne, Obj.str]⟩, by simp [eq], by simp [ne, Obj.str]⟩
  rw [← Bool.not_eq_true, eq_iff]
  intro hs
  cases hs
  exact h ⟨by assumption, by assumption, by assumption⟩

/-- a library that needs another one is not the same without it; with a list of the same elements it is the same -/
example : eq (.lib "liba.a".toList [] [.lib "libb.a".toList [] [] [.text false "m".toList]] []) (.lib "liba.a".toList [] [.lib "libb.a".toList [] [] []] []) = false ∧
    eq (.lib "liba.a".toList [] [.lib "libb.a".toList [] [] [.text false "m".toList]] []) (.lib "liba.a".toList [] [.lib "libb.a".toList [] [] [.text true "m".toList]] []) =
      true := by
  simp [eq, eqs]

/-- the hypothesis of `C89_ne_violated` is met -/
example : ¬ (Sames [] [] ∧ Sames [.text true "libb.a".toList] [] ∧ Sames [] []) := by
  rintro ⟨_, h, _⟩
  cases h

end Verif.Library
