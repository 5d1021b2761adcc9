import Verif.Record.Core
/-!
# C122: items of a record are attributes
-/
namespace Verif.Record
variable {V : Type}

/-- Specification: the value of `x` after operations: the last one about `x` counts. -/
def last (old : Option V) (x : Name) : List (Op V) → Option V
  | [] => old
  | .setattr y v :: os => last (if y = x then some v else old) x os
  | .setitem y v :: os => last (if y = x then some v else old) x os
  | .delitem y :: os => last (if y = x then none else old) x os
  | .delattr y :: os => last (if y = x then none else old) x os

/-- no attribute is deleted -/
def Kept (os : List (Op V)) : Prop := ∀ x, Op.delattr x ∉ os

theorem after_get (os : List (Op V)) (h : Kept os) (r : Dict Name V) (x : Name) :
    (after r os).get? x = last (r.get? x) x os := by
  induction os generalizing r with
  | nil => rfl
  | cons o os ih =>
    have ih := ih (fun y hy => h y (.tail _ hy))
    unfold after
    rw [ih]
    cases o with
    | setattr y v => simp [step, last]
    | setitem y v => simp [step, last]
    | delitem y =>
      simp only [step, last]
      cases hy : r.get? y with
      | some w => simp
      | none =>
        by_cases e : y = x
        · subst e; simp [hy]
        · simp [e]
    | delattr y => exact absurd (.head _) (h y)

/-- **C122**, for names that are not attributes of `dict` and without `del r.x`: after any operations, the attribute is the value that
was stored last, as an attribute or as an item, and there is no attribute if it was never stored or was deleted since. -/
theorem C122_partial (classAttrs : List Name) (r : Dict Name V) (os : List (Op V)) (h : Kept os) (x : Name) (hx : x ∉ classAttrs) :
    getattr classAttrs (after r os) x =
      match last (r.get? x) x os with
      | some v => .value v
      | none => .attributeError := by
  unfold getattr
  rw [if_neg hx, after_get os h]
  cases last (r.get? x) x os <;> rfl

/-- **C122**: the items are the values stored last, for all names. -/
theorem C122_items (r : Dict Name V) (os : List (Op V)) (h : Kept os) (x : Name) :
    (after r os).get? x = last (r.get? x) x os := after_get os h r x

/-- **C122** is false for the names of the methods of `dict`: what was stored is never found. -/
theorem C122_name_violated (classAttrs : List Name) (r : Dict Name V) (os : List (Op V)) (x : Name) (v : V) (hx : x ∈ classAttrs) :
    getattr classAttrs (after r (os ++ [.setattr x v])) x = .ofClass ∧ (after r (os ++ [.setattr x v])).get? x = some v := by
  refine ⟨by unfold getattr; rw [if_pos hx], ?_⟩
  have : ∀ r : Dict Name V, after r (os ++ [.setattr x v]) = (after r os).set x v := by
    induction os with
    | nil => intro r; rfl
    | cons o os ih => intro r; exact ih _
  rw [this]
  simp

/-- **C122** is false for `del r.x`: it raises `AttributeError` although there is such an attribute. -/
theorem C122_del_violated (classAttrs : List Name) (r : Dict Name V) (x : Name) (v : V) (hx : x ∉ classAttrs) :
    getattr classAttrs ((step r (.setattr x v)).getD r) x = .value v ∧ step ((step r (.setattr x v)).getD r) (.delattr x) = none := by
  refine ⟨?_, rfl⟩
  unfold getattr
  simp [hx, step]

/-- names in the class, and a sequence in which the last of several assignments and a deletion count -/
example : ("flags" : Name) ∉ ["items", "keys"] ∧
    Kept [Op.setattr "flags" 1, .setitem "flags" 2, .setattr "x" 3, .delitem "x"] ∧
    last (none : Option Nat) "flags" [.setattr "flags" 1, .setitem "flags" 2, .setattr "x" 3, .delitem "x"] = some 2 ∧
    last (none : Option Nat) "x" [.setattr "flags" 1, .setitem "flags" 2, .setattr "x" 3, .delitem "x"] = none := by
  refine ⟨by decide, ?_, by decide, by decide⟩
  intro x hx
  simp at hx

end Verif.Record
