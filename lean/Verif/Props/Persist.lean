import Verif.Persist.Core
/-!
# Equality of persistent objects: properties

C57.
-/
namespace Verif.Persist

def Attrs.keys : Attrs → List Key
  | .nil => []
  | .cons k _ rest => k :: rest.keys

/-- membership of an attribute -/
def Attrs.Has : Attrs → Key → Val → Prop
  | .nil, _, _ => False
  | .cons k v rest, key, x => (k = key ∧ v = x) ∨ rest.Has key x

mutual
/-- All objects of a class have the same attributes, and objects with the same identity are the same. -/
def Uniform (heap : Nat → Val) (keys : Nat → Key → Prop) : Val → Prop
  | .atom _ => True
  | .obj id cls attrs => heap id = .obj id cls attrs ∧ attrs.keys.Nodup ∧ (∀ k, k ∈ attrs.keys ↔ keys cls k) ∧
      UniformAttrs heap keys attrs

def UniformAttrs (heap : Nat → Val) (keys : Nat → Key → Prop) : Attrs → Prop
  | .nil => True
  | .cons _ v rest => Uniform heap keys v ∧ UniformAttrs heap keys rest
end

theorem mem_keys {as : Attrs} {k : Key} : k ∈ as.keys ↔ ∃ v, as.Has k v := by
  match as with
  | .nil => simp [Attrs.keys, Attrs.Has]
  | .cons k' v rest =>
    simp only [Attrs.keys, Attrs.Has, List.mem_cons, mem_keys (as := rest)]
    constructor
    · rintro (h | ⟨x, h⟩)
      · exact ⟨v, .inl ⟨h.symm, rfl⟩⟩
      · exact ⟨x, .inr h⟩
    · rintro ⟨x, h | h⟩
      · exact .inl h.1.symm
      · exact .inr ⟨x, h⟩

theorem lookup_has {as : Attrs} (hn : as.keys.Nodup) {k : Key} {v : Val} : as.lookup k = some v ↔ as.Has k v := by
  match as with
  | .nil => simp [Attrs.lookup, Attrs.Has]
  | .cons k' v' rest =>
    simp only [Attrs.keys, List.nodup_cons] at hn
    simp only [Attrs.lookup, Attrs.Has]
    split
    · rename_i hk
      subst hk
      simp only [Option.some.injEq, true_and]
      constructor
      · exact .inl
      · rintro (h | h)
        · exact h
        · exact absurd (mem_keys.mpr ⟨v, h⟩) hn.1
    · rename_i hk
      simp only [hk, false_and, false_or]
      exact lookup_has hn.2

theorem uniform_has {heap : Nat → Val} {keys : Nat → Key → Prop} {as : Attrs} (h : UniformAttrs heap keys as) {k : Key}
    {v : Val} (hv : as.Has k v) : Uniform heap keys v := by
  match as with
  | .nil => exact hv.elim
  | .cons k' v' rest =>
    rw [UniformAttrs] at h
    rcases hv with ⟨_, rfl⟩ | hv
    · exact h.1
    · exact uniform_has h.2 hv

theorem eqAttrs_iff (ca : Nat → Key → Option Val) (as : Attrs) (cls : Nat) (bs : Attrs) :
    eqAttrs ca as cls bs = true ↔ ∀ k v, as.Has k v → ∃ w, getattr ca cls bs k = some w ∧ eq ca v w = true := by
  match as with
  | .nil => simp [eqAttrs, Attrs.Has]
  | .cons k v rest =>
    rw [eqAttrs, Bool.and_eq_true, eqAttrs_iff ca rest cls bs]
    constructor
    · rintro ⟨h1, h2⟩ k' v' (⟨rfl, rfl⟩ | h)
      · cases hg : getattr ca cls bs k with
        | none => rw [hg] at h1; simp at h1
        | some w => rw [hg] at h1; exact ⟨w, rfl, h1⟩
      · exact h2 k' v' h
    · intro h
      refine ⟨?_, fun k' v' h' => h k' v' (.inr h')⟩
      obtain ⟨w, h1, h2⟩ := h k v (.inl ⟨rfl, rfl⟩)
      rw [h1]
      exact h2

/-- **C57**: equality is reflexive. -/
theorem C57_refl (ca : Nat → Key → Option Val) (a : Val) : eq ca a a = true := by
  cases a with
  | atom n => simp [eq]
  | obj id cls attrs => simp [eq]

theorem has_size {as : Attrs} {k : Key} {v : Val} (h : as.Has k v) : sizeOf v < sizeOf as := by
  match as with
  | .nil => exact h.elim
  | .cons k' v' rest =>
    rcases h with ⟨_, rfl⟩ | h
    · simp only [Attrs.cons.sizeOf_spec]; omega
    · have := has_size h
      simp only [Attrs.cons.sizeOf_spec]; omega

/-- the attributes of an object of a class that all its objects have -/
theorem getattr_own {ca : Nat → Key → Option Val} {heap : Nat → Val} {keys : Nat → Key → Prop} {id cls : Nat} {bs : Attrs}
    (hb : Uniform heap keys (.obj id cls bs)) {k : Key} (hk : keys cls k) {w : Val} :
    getattr ca cls bs k = some w ↔ bs.Has k w := by
  rw [Uniform] at hb
  obtain ⟨_, hn, hkeys, _⟩ := hb
  obtain ⟨x, hx⟩ := mem_keys.mp ((hkeys k).mpr hk)
  have hl := (lookup_has hn).mpr hx
  unfold getattr
  rw [hl]
  simp only [Option.some.injEq]
  rw [← lookup_has hn, hl]
  simp

/-- equality of objects in terms of their attributes -/
theorem eq_obj {ca : Nat → Key → Option Val} {heap : Nat → Val} {keys : Nat → Key → Prop} {id id' cls cls' : Nat}
    {as bs : Attrs} (ha : Uniform heap keys (.obj id cls as)) (hb : Uniform heap keys (.obj id' cls' bs)) :
    eq ca (.obj id cls as) (.obj id' cls' bs) = true ↔
      cls = cls' ∧ ∀ k v w, as.Has k v → bs.Has k w → eq ca v w = true := by
  have ha' := ha
  have hb' := hb
  rw [Uniform] at ha' hb'
  obtain ⟨a1, a2, a3, a4⟩ := ha'
  obtain ⟨b1, b2, b3, b4⟩ := hb'
  rw [eq]
  simp only [Bool.or_eq_true, decide_eq_true_eq, Bool.and_eq_true, eqAttrs_iff]
  constructor
  · rintro (h | ⟨rfl, h⟩)
    · subst h
      rw [a1] at b1
      simp only [Val.obj.injEq, true_and] at b1
      obtain ⟨rfl, rfl⟩ := b1
      refine ⟨rfl, ?_⟩
      intro k v w h1 h2
      rw [← lookup_has a2] at h1 h2
      rw [h1] at h2
      simp only [Option.some.injEq] at h2
      subst h2
      exact C57_refl ca v
    · refine ⟨rfl, ?_⟩
      intro k v w h1 h2
      have hk : keys cls k := (a3 k).mp (mem_keys.mpr ⟨v, h1⟩)
      obtain ⟨w', h3, h4⟩ := h k v h1
      rw [getattr_own hb hk] at h3
      rw [← lookup_has b2] at h2 h3
      rw [h2] at h3
      simp only [Option.some.injEq] at h3
      exact h3 ▸ h4
  · rintro ⟨rfl, h⟩
    right
    refine ⟨rfl, ?_⟩
    intro k v h1
    have hk : keys cls k := (a3 k).mp (mem_keys.mpr ⟨v, h1⟩)
    obtain ⟨w, hw⟩ := mem_keys.mp ((b3 k).mpr hk)
    exact ⟨w, (getattr_own hb hk).mpr hw, h k v w h1 hw⟩

/-- **C57**: equality is symmetric.  Partial: all objects of a class have the same attributes. -/
theorem C57_symm_partial (ca : Nat → Key → Option Val) (heap : Nat → Val) (keys : Nat → Key → Prop) (a b : Val)
    (ha : Uniform heap keys a) (hb : Uniform heap keys b) (h : eq ca a b = true) : eq ca b a = true := by
  match a, b with
  | .atom m, .atom n => simp only [eq, decide_eq_true_eq] at h ⊢; exact h.symm
  | .atom _, .obj _ _ _ => simp [eq] at h
  | .obj _ _ _, .atom _ => simp [eq] at h
  | .obj id cls as, .obj id' cls' bs =>
    obtain ⟨h1, h2⟩ := (eq_obj ha hb).mp h
    refine (eq_obj hb ha).mpr ⟨h1.symm, ?_⟩
    intro k w v hw hv
    have hua : UniformAttrs heap keys as := by rw [Uniform] at ha; exact ha.2.2.2
    have hub : UniformAttrs heap keys bs := by rw [Uniform] at hb; exact hb.2.2.2
    have := has_size hv
    exact C57_symm_partial ca heap keys v w (uniform_has hua hv) (uniform_has hub hw) (h2 k v w hv hw)
termination_by sizeOf a
decreasing_by simp only [Val.obj.sizeOf_spec]; omega

/-- **C57**: equality is transitive.  Partial: all objects of a class have the same attributes. -/
theorem C57_trans_partial (ca : Nat → Key → Option Val) (heap : Nat → Val) (keys : Nat → Key → Prop) (a b c : Val)
    (ha : Uniform heap keys a) (hb : Uniform heap keys b) (hc : Uniform heap keys c) (h1 : eq ca a b = true)
    (h2 : eq ca b c = true) : eq ca a c = true := by
  match a, b, c with
  | .atom m, .atom n, .atom o => simp only [eq, decide_eq_true_eq] at *; exact h1.trans h2
  | .atom _, .obj _ _ _, _ => simp [eq] at h1
  | .obj _ _ _, .atom _, _ => simp [eq] at h1
  | .atom _, .atom _, .obj _ _ _ => simp [eq] at h2
  | .obj _ _ _, .obj _ _ _, .atom _ => simp [eq] at h2
  | .obj id cls as, .obj id' cls' bs, .obj id'' cls'' cs =>
    obtain ⟨e1, h3⟩ := (eq_obj ha hb).mp h1
    obtain ⟨e2, h4⟩ := (eq_obj hb hc).mp h2
    refine (eq_obj ha hc).mpr ⟨e1.trans e2, ?_⟩
    intro k v x hv hx
    have hua := ha
    have hub := hb
    have huc := hc
    rw [Uniform] at hua hub huc
    have hk : keys cls k := (hua.2.2.1 k).mp (mem_keys.mpr ⟨v, hv⟩)
    obtain ⟨w, hw⟩ := mem_keys.mp ((hub.2.2.1 k).mpr (e1 ▸ hk))
    have := has_size hv
    exact C57_trans_partial ca heap keys v w x (uniform_has hua.2.2.2 hv) (uniform_has hub.2.2.2 hw)
      (uniform_has huc.2.2.2 hx) (h3 k v w hv hw) (h4 k w x hw hx)
termination_by sizeOf a
decreasing_by simp only [Val.obj.sizeOf_spec]; omega

/-- two compilers with equal attributes, set in different order -/
def exA : Val := .obj 0 7 (.cons "exe" (.atom 1) (.cons "cc" (.obj 2 8 .nil) .nil))
def exB : Val := .obj 1 7 (.cons "cc" (.obj 3 8 .nil) (.cons "exe" (.atom 1) .nil))

example : Uniform (fun i => if i = 0 then exA else if i = 1 then exB else .obj i 8 .nil)
      (fun c k => c = 7 ∧ (k = "exe" ∨ k = "cc")) exA ∧
    Uniform (fun i => if i = 0 then exA else if i = 1 then exB else .obj i 8 .nil)
      (fun c k => c = 7 ∧ (k = "exe" ∨ k = "cc")) exB ∧ eq (fun _ _ => none) exA exB = true := by
  refine ⟨?_, ?_, ?_⟩
  · simp [exA, Uniform, UniformAttrs, Attrs.keys]
  · simp [exB, Uniform, UniformAttrs, Attrs.keys]
    intro k
    exact Or.comm
  · simp [exA, exB, eq, eqAttrs, getattr, Attrs.lookup]

/-- **C57** fails for symmetry: an object is equal to one that has more attributes, but not the other way round. -/
theorem C57_symm_violated : ∃ a b, eq (fun _ _ => none) a b = true ∧ eq (fun _ _ => none) b a = false :=
  ⟨.obj 0 7 (.cons "exe" (.atom 1) .nil), .obj 1 7 (.cons "exe" (.atom 1) (.cons "debug" (.atom 2) .nil)),
    by simp [eq, eqAttrs, getattr, Attrs.lookup], by simp [eq, eqAttrs, getattr, Attrs.lookup]⟩

/-- **C57** fails for transitivity: an attribute may be found in the class. -/
theorem C57_trans_violated : ∃ (ca : Nat → Key → Option Val) (a b c : Val), eq ca a b = true ∧ eq ca b c = true ∧
    eq ca a c = false :=
  ⟨fun _ k => if k = "debug" then some (.atom 0) else none,
    .obj 0 7 (.cons "debug" (.atom 0) .nil), .obj 1 7 .nil, .obj 2 7 (.cons "debug" (.atom 1) .nil),
    by simp [eq, eqAttrs, getattr, Attrs.lookup], by simp [eq, eqAttrs], by simp [eq, eqAttrs, getattr, Attrs.lookup]⟩

end Verif.Persist
