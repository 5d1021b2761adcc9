import Verif.Config.Get
/-!
# Looking up a result of a test by its name (C154)
-/
namespace Verif.Config.Get

/-! ## Specification -/

/-- the object has this attribute -/
def HasAttr (o : Obj) (k : Text) (v : Obj) : Prop :=
  ∃ i attrs, o = .some i attrs ∧ attrs.find? (·.1 = k) = Option.some (k, v)

/-- the attributes lead from one object to the other -/
inductive Leads : Obj → List Text → Obj → Prop where
  | nil (o) : Leads o [] o
  | cons {o k v ks o'} : HasAttr o k v → Leads v ks o' → Leads o (k :: ks) o'

/-- names with dots between them -/
def dotted : List Text → Text
  | [] => []
  | [k] => k
  | k :: ks => k ++ '.' :: dotted ks

/-! ## Proofs -/

theorem splitDot_name (k : Text) (h : '.' ∉ k) : splitDot k = [k] := by
  induction k with
  | nil => rfl
  | cons c k ih =>
    have h1 : c ≠ '.' := by rintro rfl; simp at h
    simp [splitDot, h1, ih (fun hm => h (by simp [hm]))]

theorem splitDot_append (k rest : Text) (h : '.' ∉ k) : splitDot (k ++ '.' :: rest) = k :: splitDot rest := by
  induction k with
  | nil => simp [splitDot]
  | cons c k ih =>
    have h1 : c ≠ '.' := by rintro rfl; simp at h
    simp [splitDot, h1, ih (fun hm => h (by simp [hm]))]

theorem splitDot_dotted (ks : List Text) (h : ∀ k ∈ ks, '.' ∉ k) (hne : ks ≠ []) : splitDot (dotted ks) = ks := by
  induction ks with
  | nil => exact absurd rfl hne
  | cons k ks ih =>
    cases ks with
    | nil => exact splitDot_name k (h k (by simp))
    | cons k' ks =>
      rw [dotted, splitDot_append k _ (h k (by simp)), ih (fun x hx => h x (by simp [hx])) (by simp)]
      simp

theorem attr_has (o : Obj) (k : Text) (i attrs) (h : attr o k = .some i attrs) : HasAttr o k (.some i attrs) := by
  unfold attr at h
  split at h
  · cases h
  · rename_i j as
    refine ⟨j, as, rfl, ?_⟩
    split at h
    · rename_i k' v hf
      have := List.find?_some hf
      simp only [decide_eq_true_eq] at this
      rw [hf, h, this]
    · cases h

theorem has_attr {o : Obj} {k : Text} {v : Obj} (h : HasAttr o k v) : attr o k = v := by
  obtain ⟨i, attrs, rfl, hf⟩ := h
  simp [attr, hf]

theorem leads_none {ks : List Text} {o : Obj} (h : Leads .none ks o) : ks = [] ∧ o = .none := by
  cases h with
  | nil => exact ⟨rfl, rfl⟩
  | cons ha _ =>
    obtain ⟨i, attrs, e, _⟩ := ha
    cases e

theorem walk_leads (d : Obj) (ks : List Text) (o : Obj) :
    (∀ i attrs, o ≠ .none → Leads o ks (.some i attrs) → walk d o ks = .some i attrs) ∧
    ((o ≠ .none → ∀ i attrs, ¬ Leads o ks (.some i attrs)) → o ≠ .none → walk d o ks = d) := by
  induction ks generalizing o with
  | nil =>
    constructor
    · intro i attrs _ h; cases h; rfl
    · intro h hn
      cases o with
      | none => exact absurd rfl hn
      | some i attrs => exact absurd (Leads.nil _) (h hn i attrs)
  | cons k ks ih =>
    constructor
    · intro i attrs hn h
      cases h with
      | @cons _ _ v _ _ ha hl =>
        have hv := has_attr ha
        rw [walk, hv]
        cases v with
        | none => cases (leads_none hl).2
        | some j as => exact (ih (.some j as)).1 i attrs (by simp) hl
    · intro h hn
      rw [walk]
      cases hv : attr o k with
      | none => rfl
      | some j as =>
        refine (ih (.some j as)).2 ?_ (by simp)
        intro _ i attrs hl
        exact h hn i attrs (.cons (attr_has o k j as hv) hl)

/-- **C154**, partial: `get` with names and dots between them returns the object that these attributes lead to, and the default if they
lead to none.  Partial: for results that are not `None` (`C154_none_violated`). -/
theorem C154_partial (self : Obj) (ks : List Text) (default : Obj) (hs : self ≠ .none) (hk : ∀ k ∈ ks, '.' ∉ k) (hne : ks ≠ []) :
    (∀ i attrs, Leads self ks (.some i attrs) → get self (dotted ks) default = .some i attrs) ∧
    ((∀ o, ¬ Leads self ks o) → get self (dotted ks) default = default) := by
  rw [get, splitDot_dotted ks hk hne]
  constructor
  · intro i attrs h
    exact (walk_leads default ks self).1 i attrs hs h
  · intro h
    exact (walk_leads default ks self).2 (fun _ i attrs => h _) hs

/-- **C154** is false for `None`: the attributes exist, and the default is returned instead of what they lead to. -/
theorem C154_none_violated (self : Obj) (ks : List Text) (default : Obj) (hs : self ≠ .none) (hk : ∀ k ∈ ks, '.' ∉ k) (hne : ks ≠ [])
    (h : Leads self ks .none) : get self (dotted ks) default = default := by
  rw [get, splitDot_dotted ks hk hne]
  refine (walk_leads default ks self).2 ?_ hs
  intro _ i attrs hl
  have det : ∀ (ks : List Text) (o a b : Obj), Leads o ks a → Leads o ks b → a = b := by
    intro ks
    induction ks with
    | nil => intro o a b h1 h2; cases h1; cases h2; rfl
    | cons k ks ih =>
      intro o a b h1 h2
      cases h1 with
      | cons p1 q1 =>
        cases h2 with
        | cons p2 q2 =>
          rw [← has_attr p1] at q1
          rw [← has_attr p2] at q2
          exact ih _ _ _ q1 q2
  cases det ks self _ _ h hl

/-! ## Examples -/

def exTest : Obj := .some 0 [("stdio_h".toList, .some 1 [("FILE".toList, .some 2 []), ("getline".toList, .none)])]

example : Leads exTest ["stdio_h".toList, "FILE".toList] (.some 2 []) ∧ Leads exTest ["stdio_h".toList, "getline".toList] .none ∧
    ¬ (∃ o, Leads exTest ["stdio_h".toList, "fork".toList] o) ∧ exTest ≠ .none := by
  refine ⟨.cons ⟨_, _, rfl, rfl⟩ (.cons ⟨_, _, rfl, rfl⟩ (.nil _)), .cons ⟨_, _, rfl, rfl⟩ (.cons ⟨_, _, rfl, rfl⟩ (.nil _)), ?_, ?_⟩
  · rintro ⟨o, h⟩
    cases h with
    | cons p q =>
      cases q with
      | cons p' _ =>
        have e := has_attr p
        obtain ⟨i, attrs, rfl, hf⟩ := p'
        simp only [exTest, attr] at e
        have : attrs = [("FILE".toList, .some 2 []), ("getline".toList, .none)] := by
          have h2 : (Obj.some 1 [("FILE".toList, .some 2 []), ("getline".toList, .none)]) = Obj.some i attrs := e
          injection h2 with _ h3
          exact h3.symm
        subst this
        exact absurd hf (by simp)
  · simp [exTest]

end Verif.Config.Get
