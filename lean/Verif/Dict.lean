/-!
Python dictionaries (insertion ordered) as association lists, with the lemmas about lookup
that the rest of the model uses.  Only `get?`, `set`, `erase` and `keys` are used by models.
-/
namespace Verif

/-- A Python `dict`: an insertion-ordered association list. -/
abbrev Dict (K V : Type) := List (K × V)

namespace Dict
variable {K V : Type} [DecidableEq K]

/-- `d.get(k)` (`none` stands for the `KeyError` of `d[k]`). -/
def get? : Dict K V → K → Option V
  | [], _ => none
  | (k, v) :: d, x => if k = x then some v else get? d x

/-- `d[k] = v`: replace in place, or append at the end. -/
def set : Dict K V → K → V → Dict K V
  | [], k, v => [(k, v)]
  | (k', v') :: d, k, v => if k' = k then (k, v) :: d else (k', v') :: set d k v

/-- `d.pop(k, None)`. -/
def erase (d : Dict K V) (k : K) : Dict K V := d.filter (fun p => decide (p.1 ≠ k))

/-- `list(d)`. -/
def keys (d : Dict K V) : List K := d.map Prod.fst

@[simp] theorem get?_nil (x : K) : get? ([] : Dict K V) x = none := rfl

@[simp] theorem get?_set (d : Dict K V) (k x : K) (v : V) :
    get? (set d k v) x = if k = x then some v else get? d x := by
  induction d with
  | nil => simp [set, get?]
  | cons p d ih =>
    obtain ⟨k', v'⟩ := p
    simp only [set]
    split
    · rename_i h; subst h; simp only [get?]; split <;> rfl
    · rename_i h
      simp only [get?, ih]
      split
      · rename_i h2; subst h2
        rw [if_neg (fun h3 => h h3.symm)]
      · rfl

@[simp] theorem get?_erase (d : Dict K V) (k x : K) :
    get? (erase d k) x = if k = x then none else get? d x := by
  induction d with
  | nil => simp [erase, get?]
  | cons p d ih =>
    obtain ⟨k', v'⟩ := p
    simp only [erase, List.filter] at ih ⊢
    by_cases hk : k' = k
    · subst hk
      simp only [ne_eq, not_true_eq_false, decide_false, get?]
      rw [ih]; split <;> rfl
    · simp only [ne_eq, hk, not_false_eq_true, decide_true, get?]
      rw [ih]
      split
      · rename_i h2; subst h2; rw [if_neg (fun h => hk h.symm)]
      · rfl

theorem get?_eq_none_iff (d : Dict K V) (x : K) : get? d x = none ↔ x ∉ keys d := by
  induction d with
  | nil => simp [keys]
  | cons p d ih =>
    obtain ⟨k', v'⟩ := p
    simp only [keys, List.map_cons, List.mem_cons, not_or, get?] at ih ⊢
    split
    · rename_i h; subst h; simp
    · rename_i h
      rw [ih]
      constructor
      · exact fun h1 => ⟨fun h2 => h h2.symm, h1⟩
      · exact fun h1 => h1.2

theorem mem_of_get? {d : Dict K V} {x : K} {v : V} (h : get? d x = some v) : (x, v) ∈ d := by
  induction d with
  | nil => simp at h
  | cons p d ih =>
    obtain ⟨k', v'⟩ := p
    simp only [get?] at h
    split at h
    · rename_i hk; subst hk; simp at h; subst h; simp
    · exact List.mem_cons_of_mem _ (ih h)

theorem get?_isSome_of_mem {d : Dict K V} {x : K} {v : V} (h : (x, v) ∈ d) :
    (get? d x).isSome := by
  induction d with
  | nil => simp at h
  | cons p d ih =>
    obtain ⟨k', v'⟩ := p
    simp only [get?]
    split
    · simp
    · rename_i hk
      simp only [List.mem_cons, Prod.mk.injEq] at h
      rcases h with ⟨h1, _⟩ | h
      · exact absurd h1.symm hk
      · exact ih h

theorem keys_set_of_mem {d : Dict K V} {k : K} (v : V) (h : k ∈ keys d) :
    keys (set d k v) = keys d := by
  induction d with
  | nil => simp [keys] at h
  | cons p d ih =>
    obtain ⟨k', v'⟩ := p
    simp only [set]
    split
    · rename_i hk; subst hk; simp [keys]
    · rename_i hk
      simp only [keys, List.map_cons, List.mem_cons] at h ih ⊢
      rcases h with h | h
      · exact absurd h.symm hk
      · rw [ih h]

theorem keys_set_of_not_mem {d : Dict K V} {k : K} (v : V) (h : k ∉ keys d) :
    keys (set d k v) = keys d ++ [k] := by
  induction d with
  | nil => simp [keys, set]
  | cons p d ih =>
    obtain ⟨k', v'⟩ := p
    simp only [keys, List.map_cons, List.mem_cons, not_or] at h ih
    simp only [set]
    rw [if_neg (fun h1 => h.1 h1.symm)]
    simp only [keys, List.map_cons, List.cons_append]
    rw [ih h.2]

theorem nodup_set {d : Dict K V} (k : K) (v : V) (h : (keys d).Nodup) :
    (keys (set d k v)).Nodup := by
  by_cases hk : k ∈ keys d
  · rw [keys_set_of_mem v hk]; exact h
  · rw [keys_set_of_not_mem v hk, List.nodup_append]
    refine ⟨h, by simp, ?_⟩
    intro a ha b hb
    simp at hb; subst hb
    exact fun h1 => hk (h1 ▸ ha)

theorem keys_erase (d : Dict K V) (k : K) :
    keys (erase d k) = (keys d).filter (fun x => decide (x ≠ k)) := by
  simp only [keys, erase, List.filter_map]
  rfl

theorem nodup_erase {d : Dict K V} (k : K) (h : (keys d).Nodup) : (keys (erase d k)).Nodup := by
  rw [keys_erase]; exact h.filter _

end Dict
end Verif
