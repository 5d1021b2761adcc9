import Verif.Functools.Spec
/-!
# `bind_args` binds as Python does
-/
namespace Verif.Functools
section
variable {V α : Type}

/-! ## Dictionaries -/

theorem lookup_filter (d : Dict α) (p : Name → Bool) (k : Name) :
    (d.filter (fun x => p x.1)).lookup k = if p k then d.lookup k else none := by
  induction d with
  | nil => simp
  | cons x d ih =>
    obtain ⟨a, v⟩ := x
    by_cases hk : k = a
    · subst hk
      by_cases hp : p k = true
      · simp [List.filter_cons, hp]
      · simp only [Bool.not_eq_true] at hp
        simp [List.filter_cons, hp] at ih ⊢
        exact ih
    · have hb : (k == a) = false := by simpa using hk
      by_cases hp : p a = true
      · simp only [List.filter_cons, hp, if_true, List.lookup, hb]
        exact ih
      · simp only [Bool.not_eq_true] at hp
        simp only [List.filter_cons, hp, Bool.false_eq_true, if_false, List.lookup, hb]
        exact ih

theorem lookup_erase (d : Dict α) (k k' : Name) :
    (Dict.erase d k).lookup k' = if k' = k then none else d.lookup k' := by
  unfold Dict.erase
  have := lookup_filter d (fun x => decide (x ≠ k)) k'
  simp only [decide_eq_true_eq] at this
  rw [this]
  by_cases h : k' = k <;> simp [h]

theorem lookup_append (d e : Dict α) (k : Name) : (d ++ e).lookup k = (d.lookup k).or (e.lookup k) := by
  induction d with
  | nil => simp
  | cons x d ih =>
    obtain ⟨a, v⟩ := x
    by_cases hk : k = a
    · subst hk; simp
    · have hb : (k == a) = false := by simpa using hk
      simp only [List.cons_append, List.lookup, hb]
      exact ih

theorem lookup_map_set (d : Dict α) (k : Name) (v : α) (k' : Name) :
    (d.map (fun x => if x.1 = k then (k, v) else x)).lookup k' =
      if k' = k then (d.lookup k).map (fun _ => v) else d.lookup k' := by
  induction d with
  | nil => simp
  | cons x d ih =>
    obtain ⟨a, w⟩ := x
    by_cases hak : a = k
    · subst hak
      simp only [List.map_cons, if_true]
      by_cases h : k' = a
      · subst h; simp
      · have hb : (k' == a) = false := by simpa using h
        simp only [List.lookup, hb]
        rw [ih]
        simp [h]
    · simp only [List.map_cons, hak, if_false]
      by_cases h : k' = a
      · subst h; simp [hak]
      · have hb : (k' == a) = false := by simpa using h
        have hb' : (k == a) = false := by simpa using fun h => hak h.symm
        simp only [List.lookup, hb, hb']
        exact ih

theorem lookup_set (d : Dict α) (k : Name) (v : α) (k' : Name) :
    (Dict.set d k v).lookup k' = if k' = k then some v else d.lookup k' := by
  unfold Dict.set
  split
  · rename_i h
    rw [lookup_map_set]
    by_cases hk : k' = k
    · obtain ⟨w, hw⟩ := Option.isSome_iff_exists.mp h
      simp [hk, hw]
    · simp [hk]
  · rename_i h
    simp only [Bool.not_eq_true, Option.isSome_eq_false_iff, Option.isNone_iff_eq_none] at h
    rw [lookup_append]
    by_cases hk : k' = k
    · subst hk; simp [h]
    · have hb : (k' == k) = false := by simpa using hk
      simp [hk, List.lookup, hb]

theorem lookup_none {d : Dict α} {k : Name} : d.lookup k = none ↔ k ∉ d.map Prod.fst := by
  induction d with
  | nil => simp
  | cons x d ih =>
    obtain ⟨a, v⟩ := x
    by_cases hk : k = a
    · subst hk; simp
    · have hb : (k == a) = false := by simpa using hk
      simp only [List.lookup, hb, List.map_cons, List.mem_cons, hk, false_or]
      exact ih

theorem lookup_update (d e : Dict α) (he : Keys e) (k : Name) :
    (Dict.update d e).lookup k = (e.lookup k).or (d.lookup k) := by
  unfold Dict.update
  induction e generalizing d with
  | nil => simp
  | cons x e ih =>
    obtain ⟨a, v⟩ := x
    unfold Keys at he
    simp only [List.map_cons, List.nodup_cons] at he
    rw [List.foldl_cons, ih _ he.2, lookup_set]
    by_cases hk : k = a
    · subst hk
      rw [lookup_none.mpr he.1]
      simp
    · have hb : (k == a) = false := by simpa using hk
      simp [hk, List.lookup, hb]

theorem Keys.filter {d : Dict α} (h : Keys d) (p : Name × α → Bool) : Keys (d.filter p) := by
  unfold Keys at *
  exact h.sublist (List.filter_sublist.map _)

theorem Keys.erase {d : Dict α} (h : Keys d) (k : Name) : Keys (Dict.erase d k) := h.filter _

theorem lookup_foldl (l : List (Name × V)) (d : Dict (Value V)) (hl : Keys l) (k : Name) :
    (l.foldl (fun d x => Dict.set d x.1 (Value.one x.2)) d).lookup k =
      ((l.lookup k).map Value.one).or (d.lookup k) := by
  induction l generalizing d with
  | nil => simp
  | cons x l ih =>
    obtain ⟨a, v⟩ := x
    unfold Keys at hl
    simp only [List.map_cons, List.nodup_cons] at hl
    rw [List.foldl_cons, ih _ hl.2, lookup_set]
    by_cases hk : k = a
    · subst hk
      rw [lookup_none.mpr hl.1]
      simp
    · have hb : (k == a) = false := by simpa using hk
      simp [hk, List.lookup, hb]

theorem zip_fst_sublist (ps : List Name) (vs : List α) : ((ps.zip vs).map Prod.fst).Sublist ps := by
  induction ps generalizing vs with
  | nil => simp
  | cons p ps ih =>
    cases vs with
    | nil => simp
    | cons v vs => simpa using ih vs

theorem keys_zip (ps : List Name) (vs : List α) (h : ps.Nodup) : Keys (ps.zip vs) :=
  h.sublist (zip_fst_sublist ps vs)

theorem lookup_zip {ps : List Name} {vs : List α} (h : ps.Nodup) {i : Nat} {k : Name} (hk : ps[i]? = some k) :
    (ps.zip vs).lookup k = vs[i]? := by
  induction ps generalizing vs i with
  | nil => simp at hk
  | cons p ps ih =>
    simp only [List.nodup_cons] at h
    cases vs with
    | nil => simp
    | cons v vs =>
      cases i with
      | zero =>
        simp only [List.getElem?_cons_zero, Option.some.injEq] at hk
        subst hk
        simp
      | succ i =>
        simp only [List.getElem?_cons_succ] at hk ⊢
        have : k ≠ p := by
          rintro rfl
          exact h.1 (List.mem_of_getElem? hk)
        have hb : (k == p) = false := by simpa using this
        simp only [List.zip_cons_cons, List.lookup, hb]
        exact ih h.2 hk

theorem lookup_zip_none {ps : List Name} {vs : List α} {k : Name} (hk : k ∉ ps) : (ps.zip vs).lookup k = none := by
  rw [lookup_none]
  exact fun h => hk ((zip_fst_sublist ps vs).subset h)

/-- The default of the `i`-th parameter. -/
theorem defaultOf_eq {ps : List Name} {ds : List V} (h : ps.Nodup) {i : Nat} {k : Name} (hk : ps[i]? = some k) :
    defaultOf ps ds k =
      if ps.length - i ≤ ds.length then ds[ds.length - (ps.length - i)]? else none := by
  have hi : i < ps.length := by
    rcases Nat.lt_or_ge i ps.length with h | h
    · exact h
    · rw [List.getElem?_eq_none h] at hk; simp at hk
  unfold defaultOf
  have hr : ps.reverse[ps.length - 1 - i]? = some k := by
    rw [List.getElem?_reverse (by omega)]
    rw [show ps.length - 1 - (ps.length - 1 - i) = i by omega]
    exact hk
  rw [lookup_zip (List.pairwise_reverse.mpr (h.imp Ne.symm)) hr]
  split
  · rename_i hd
    rw [List.getElem?_reverse (by omega)]
    congr 1
    omega
  · rename_i hd
    rw [List.getElem?_eq_none]
    simp only [List.length_reverse]
    omega

/-! ## The loops -/

/-- The value of parameter `k` with number `i`. -/
def slot (s : Sig V) (as : List V) (kw : Dict V) (i : Nat) (k : Name) : Option V :=
  (as[i]?).or ((kw.lookup k).or (if s.fnArgs.length - i ≤ s.defaults.length then
    s.defaults[s.defaults.length - (s.fnArgs.length - i)]? else none))

theorem posLoop_ok (s : Sig V) (as : List V) : ∀ (ks : List Name) (i : Nat) (kw : Dict V) (b : List V) b' kw' n,
    ks.Nodup → Keys kw → posLoop s as ks i kw b = .ok (b', kw', n) →
    (n = i + ks.length ∧ Keys kw' ∧ (∀ k, kw'.lookup k = if k ∈ ks then none else kw.lookup k) ∧
      ∃ vs, b' = b ++ vs ∧ vs.length = ks.length ∧ ∀ j k, ks[j]? = some k →
        slot s as kw (i + j) k = vs[j]? ∧ (i + j < as.length → kw.lookup k = none)) ∨
    (∃ j k, ks[j]? = some k ∧ n = i + j ∧ slot s as kw n k = none ∧
      ¬ (s.fnArgs.length - n ≤ s.defaults.length)) := by
  intro ks
  induction ks with
  | nil =>
    intro i kw b b' kw' n _ hkw h
    simp only [posLoop, Except.ok.injEq, Prod.mk.injEq] at h
    obtain ⟨rfl, rfl, rfl⟩ := h
    exact .inl ⟨rfl, hkw, by simp, [], by simp, rfl, by simp⟩
  | cons key ks ih =>
    intro i kw b b' kw' n hnd hkw h
    simp only [List.nodup_cons] at hnd
    -- one round that binds `v` and goes on with `kw1`
    have go : ∀ (kw1 : Dict V) (v : V), Keys kw1 →
        (∀ k, kw1.lookup k = if k = key then none else kw.lookup k) →
        slot s as kw i key = some v → (i < as.length → kw.lookup key = none) →
        posLoop s as ks (i + 1) kw1 (b ++ [v]) = .ok (b', kw', n) →
        (n = i + (key :: ks).length ∧ Keys kw' ∧
          (∀ k, kw'.lookup k = if k ∈ key :: ks then none else kw.lookup k) ∧
          ∃ vs, b' = b ++ vs ∧ vs.length = (key :: ks).length ∧ ∀ j k, (key :: ks)[j]? = some k →
            slot s as kw (i + j) k = vs[j]? ∧ (i + j < as.length → kw.lookup k = none)) ∨
        (∃ j k, (key :: ks)[j]? = some k ∧ n = i + j ∧ slot s as kw n k = none ∧
          ¬ (s.fnArgs.length - n ≤ s.defaults.length)) := by
      intro kw1 v hk1 hlk hslot hno hrec
      have hsame : ∀ (j : Nat) (k : Name), ks[j]? = some k → kw1.lookup k = kw.lookup k := by
        intro j k hj
        rw [hlk, if_neg]
        rintro rfl
        exact hnd.1 (List.mem_of_getElem? hj)
      rcases ih (i + 1) kw1 (b ++ [v]) b' kw' n hnd.2 hk1 hrec with
        ⟨hn, hk', hl', vs, hb, hlen, hvs⟩ | ⟨j, k, hj, hn, hsl, hd⟩
      · refine .inl ⟨by rw [hn]; simp only [List.length_cons]; omega, hk', ?_, v :: vs, by simp [hb], by simp [hlen], ?_⟩
        · intro k
          rw [hl', hlk]
          by_cases h1 : k ∈ ks <;> by_cases h2 : k = key <;> simp [h1, h2]
        · intro j k hj
          cases j with
          | zero =>
            simp only [List.getElem?_cons_zero, Option.some.injEq] at hj
            subst hj
            exact ⟨hslot, hno⟩
          | succ j =>
            simp only [List.getElem?_cons_succ] at hj ⊢
            have := hvs j k hj
            rw [show i + 1 + j = i + (j + 1) by omega] at this
            unfold slot at this ⊢
            rw [hsame j k hj] at this
            exact this
      · refine .inr ⟨j + 1, k, by simpa using hj, by omega, ?_, hd⟩
        unfold slot at hsl ⊢
        rw [hsame j k hj] at hsl
        exact hsl
    simp only [posLoop] at h
    cases hl : kw.lookup key with
    | none =>
      have hlk : ∀ k, kw.lookup k = if k = key then none else kw.lookup k := by
        intro k
        by_cases hk : k = key
        · subst hk; simp [hl]
        · simp [hk]
      rw [hl] at h
      simp only at h
      cases ha : as[i]? with
      | some a =>
        rw [ha] at h
        exact go kw a hkw hlk (by simp [slot, ha]) (fun _ => hl) h
      | none =>
        rw [ha] at h
        simp only at h
        split at h
        · rename_i hd
          cases hdef : s.defaults[s.defaults.length - (s.fnArgs.length - i)]? with
          | none => rw [hdef] at h; simp at h
          | some d =>
            rw [hdef] at h
            exact go kw d hkw hlk (by simp [slot, ha, hl, hd, hdef]) (fun _ => hl) h
        · rename_i hd
          simp only [Except.ok.injEq, Prod.mk.injEq] at h
          obtain ⟨rfl, rfl, rfl⟩ := h
          exact .inr ⟨0, key, rfl, rfl, by simp [slot, ha, hl, hd], hd⟩
    | some v =>
      rw [hl] at h
      simp only at h
      split at h
      · simp at h
      · rename_i hi
        refine go (Dict.erase kw key) v (hkw.erase key) (lookup_erase kw key) ?_ (fun h => absurd h hi) h
        have : as[i]? = none := List.getElem?_eq_none (by omega)
        simp [slot, this, hl]

theorem posLoop_err (s : Sig V) (as : List V) : ∀ (ks : List Name) (i : Nat) (kw : Dict V) (b : List V) e,
    ks.Nodup → i + ks.length ≤ s.fnArgs.length → posLoop s as ks i kw b = .error e →
    e = .typeError ∧ ∃ j k, ks[j]? = some k ∧ i + j < as.length ∧ kw.lookup k ≠ none := by
  intro ks
  induction ks with
  | nil => intro i kw b e _ _ h; simp [posLoop] at h
  | cons key ks ih =>
    intro i kw b e hnd hlen h
    simp only [List.nodup_cons] at hnd
    simp only [List.length_cons] at hlen
    have go : ∀ (kw1 : Dict V) (v : V), (∀ k, k ≠ key → kw1.lookup k = kw.lookup k) →
        posLoop s as ks (i + 1) kw1 (b ++ [v]) = .error e →
        e = .typeError ∧ ∃ j k, (key :: ks)[j]? = some k ∧ i + j < as.length ∧ kw.lookup k ≠ none := by
      intro kw1 v hlk hrec
      obtain ⟨he, j, k, hj, hlt, hk⟩ := ih (i + 1) kw1 (b ++ [v]) e hnd.2 (by omega) hrec
      refine ⟨he, j + 1, k, by simpa using hj, by omega, ?_⟩
      rw [← hlk]
      · exact hk
      · rintro rfl
        exact hnd.1 (List.mem_of_getElem? hj)
    simp only [posLoop] at h
    cases hl : kw.lookup key with
    | none =>
      rw [hl] at h
      simp only at h
      cases ha : as[i]? with
      | some a => rw [ha] at h; exact go kw a (fun _ _ => rfl) h
      | none =>
        rw [ha] at h
        simp only at h
        split at h
        · rename_i hd
          cases hdef : s.defaults[s.defaults.length - (s.fnArgs.length - i)]? with
          | none =>
            rw [List.getElem?_eq_none_iff] at hdef
            omega
          | some d => rw [hdef] at h; exact go kw d (fun _ _ => rfl) h
        · simp at h
    | some v =>
      rw [hl] at h
      simp only at h
      split at h
      · rename_i hi
        simp only [Except.error.injEq] at h
        exact ⟨h.symm, 0, key, rfl, hi, by simp [hl]⟩
      · exact go (Dict.erase kw key) v (fun k hk => by rw [lookup_erase, if_neg hk]) h

theorem kwLoop_ok (s : Sig V) : ∀ (ks : List Name) (kw bk : Dict V) bk' kw',
    ks.Nodup → Keys kw → kwLoop s ks kw bk = .ok (bk', kw') →
    Keys kw' ∧ (∀ k, kw'.lookup k = if k ∈ ks then none else kw.lookup k) ∧
    (∀ k ∈ ks, ∃ v, (kw.lookup k).or (s.kwdefaults.lookup k) = some v ∧ bk'.lookup k = some v) ∧
    (∀ k, k ∉ ks → bk'.lookup k = bk.lookup k) := by
  intro ks
  induction ks with
  | nil =>
    intro kw bk bk' kw' _ hkw h
    simp only [kwLoop, Except.ok.injEq, Prod.mk.injEq] at h
    obtain ⟨rfl, rfl⟩ := h
    exact ⟨hkw, by simp, by simp, by simp⟩
  | cons key ks ih =>
    intro kw bk bk' kw' hnd hkw h
    simp only [List.nodup_cons] at hnd
    have go : ∀ (kw1 : Dict V) (v : V), Keys kw1 →
        (∀ k, kw1.lookup k = if k = key then none else kw.lookup k) →
        (kw.lookup key).or (s.kwdefaults.lookup key) = some v →
        kwLoop s ks kw1 (Dict.set bk key v) = .ok (bk', kw') →
        Keys kw' ∧ (∀ k, kw'.lookup k = if k ∈ key :: ks then none else kw.lookup k) ∧
        (∀ k ∈ key :: ks, ∃ v, (kw.lookup k).or (s.kwdefaults.lookup k) = some v ∧ bk'.lookup k = some v) ∧
        (∀ k, k ∉ key :: ks → bk'.lookup k = bk.lookup k) := by
      intro kw1 v hk1 hlk hv hrec
      obtain ⟨h1, h2, h3, h4⟩ := ih kw1 _ bk' kw' hnd.2 hk1 hrec
      refine ⟨h1, ?_, ?_, ?_⟩
      · intro k
        rw [h2, hlk]
        by_cases h1 : k ∈ ks <;> by_cases h2 : k = key <;> simp [h1, h2]
      · intro k hk
        rcases List.mem_cons.mp hk with rfl | hk
        · exact ⟨v, hv, by rw [h4 _ hnd.1, lookup_set, if_pos rfl]⟩
        · have := h3 k hk
          have hne : k ≠ key := fun he => hnd.1 (he ▸ hk)
          rw [hlk, if_neg hne] at this
          exact this
      · intro k hk
        simp only [List.mem_cons, not_or] at hk
        rw [h4 k hk.2, lookup_set, if_neg hk.1]
    simp only [kwLoop] at h
    cases hl : kw.lookup key with
    | some v =>
      rw [hl] at h
      exact go (Dict.erase kw key) v (hkw.erase _) (lookup_erase kw key) (by simp [hl]) h
    | none =>
      rw [hl] at h
      simp only at h
      cases hd : s.kwdefaults.lookup key with
      | none => rw [hd] at h; simp at h
      | some d =>
        rw [hd] at h
        refine go kw d hkw ?_ (by simp [hl, hd]) h
        intro k
        by_cases hk : k = key
        · subst hk; simp [hl]
        · simp [hk]

theorem kwLoop_err (s : Sig V) : ∀ (ks : List Name) (kw bk : Dict V) e,
    ks.Nodup → kwLoop s ks kw bk = .error e →
    e = .typeError ∧ ∃ k ∈ ks, (kw.lookup k).or (s.kwdefaults.lookup k) = none := by
  intro ks
  induction ks with
  | nil => intro kw bk e _ h; simp [kwLoop] at h
  | cons key ks ih =>
    intro kw bk e hnd h
    simp only [List.nodup_cons] at hnd
    have go : ∀ (kw1 : Dict V) (bk1 : Dict V), (∀ k, k ≠ key → kw1.lookup k = kw.lookup k) →
        kwLoop s ks kw1 bk1 = .error e →
        e = .typeError ∧ ∃ k ∈ key :: ks, (kw.lookup k).or (s.kwdefaults.lookup k) = none := by
      intro kw1 bk1 hlk hrec
      obtain ⟨he, k, hk, hn⟩ := ih kw1 _ e hnd.2 hrec
      refine ⟨he, k, .tail _ hk, ?_⟩
      rw [← hlk]
      · exact hn
      · rintro rfl; exact hnd.1 hk
    simp only [kwLoop] at h
    cases hl : kw.lookup key with
    | some v =>
      rw [hl] at h
      exact go _ _ (fun k hk => by rw [lookup_erase, if_neg hk]) h
    | none =>
      rw [hl] at h
      simp only at h
      cases hd : s.kwdefaults.lookup key with
      | none =>
        rw [hd] at h
        simp only [Except.error.injEq] at h
        exact ⟨h.symm, key, .head _, by simp [hl, hd]⟩
      | some d => rw [hd] at h; exact go _ _ (fun _ _ => rfl) h

theorem restLoop_ok (s : Sig V) : ∀ (kw bk : Dict V) bk', Keys kw → restLoop s kw bk = .ok bk' →
    (∀ k, kw.lookup k ≠ none → k ∈ s.fnArgs ∨ k = inner) ∧
    ∀ k, bk'.lookup k = (kw.lookup k).or (bk.lookup k) := by
  intro kw
  induction kw with
  | nil => intro bk bk' _ h; simp only [restLoop, Except.ok.injEq] at h; subst h; simp
  | cons x kw ih =>
    obtain ⟨a, v⟩ := x
    intro bk bk' hkw h
    unfold Keys at hkw
    simp only [List.map_cons, List.nodup_cons] at hkw
    simp only [restLoop] at h
    split at h
    · simp at h
    · rename_i hc
      obtain ⟨h1, h2⟩ := ih _ bk' hkw.2 h
      constructor
      · intro k hk
        by_cases hka : k = a
        · subst hka
          by_cases h' : k ∈ s.fnArgs
          · exact .inl h'
          · exact .inr (Classical.byContradiction fun h'' => hc ⟨h', h''⟩)
        · have hb : (k == a) = false := by simpa using hka
          simp only [List.lookup, hb] at hk
          exact h1 k hk
      · intro k
        rw [h2, lookup_set]
        by_cases hka : k = a
        · subst hka
          rw [lookup_none.mpr hkw.1]
          simp
        · have hb : (k == a) = false := by simpa using hka
          simp [hka, List.lookup, hb]

theorem restLoop_err (s : Sig V) : ∀ (kw bk : Dict V) e, restLoop s kw bk = .error e →
    e = .typeError ∧ ∃ k, kw.lookup k ≠ none ∧ k ∉ s.fnArgs ∧ k ≠ inner := by
  intro kw
  induction kw with
  | nil => intro bk e h; simp [restLoop] at h
  | cons x kw ih =>
    obtain ⟨a, v⟩ := x
    intro bk e h
    simp only [restLoop] at h
    split at h
    · rename_i hc
      simp only [Except.error.injEq] at h
      exact ⟨h.symm, a, by simp, hc.1, hc.2⟩
    · obtain ⟨he, k, h1, h2⟩ := ih _ e h
      refine ⟨he, k, ?_, h2⟩
      by_cases hka : k = a
      · subst hka; simp
      · have hb : (k == a) = false := by simpa using hka
        simpa [List.lookup, hb] using h1

theorem popLoop_ok : ∀ (ks : List Name) (kw : Dict V) (bound : Dict (Value V)), ks.Nodup →
    (∀ k ∈ ks, kw.lookup k ≠ none) → ∃ kw' bound', popLoop ks kw bound = .ok (kw', bound') ∧
    (∀ k, kw'.lookup k = if k ∈ ks then none else kw.lookup k) ∧
    (∀ k, bound'.lookup k = if k ∈ ks then (kw.lookup k).map Value.one else bound.lookup k) := by
  intro ks
  induction ks with
  | nil => intro kw bound _ _; exact ⟨kw, bound, rfl, by simp, by simp⟩
  | cons key ks ih =>
    intro kw bound hnd hall
    simp only [List.nodup_cons] at hnd
    obtain ⟨v, hv⟩ := Option.ne_none_iff_exists'.mp (hall key (.head _))
    have hne : ∀ k ∈ ks, k ≠ key := by rintro k hk rfl; exact hnd.1 hk
    obtain ⟨kw', bound', h1, h2, h3⟩ := ih (Dict.erase kw key) (Dict.set bound key (.one v)) hnd.2
      (fun k hk => by rw [lookup_erase, if_neg (hne k hk)]; exact hall k (.tail _ hk))
    refine ⟨kw', bound', by simp only [popLoop, hv]; exact h1, ?_, ?_⟩
    · intro k
      rw [h2, lookup_erase]
      by_cases h1 : k ∈ ks <;> by_cases h2 : k = key <;> simp [h1, h2]
    · intro k
      rw [h3, lookup_erase, lookup_set]
      by_cases hin : k ∈ ks
      · simp [hin, hne k hin]
      · by_cases h2 : k = key
        · subst h2
          rw [if_neg hin, if_pos rfl, if_pos (.head _), hv]
          rfl
        · simp [hin, h2]

/-- What the two rounds of `dropInner` do. -/
theorem dropInner_ok (ops : Ops V) (bound : Dict (Value V)) (kind : Name)
    (h : bound.lookup kind = none ∨ ∃ d, bound.lookup kind = some (.dict d)) :
    ∃ b, dropInner ops kind bound = .ok b ∧ ∀ k, b.lookup k =
      if k = kind then (bound.lookup k).map (fun v => match v with
        | .dict d => .dict (Dict.erase d inner)
        | v => v)
      else bound.lookup k := by
  rcases h with h | ⟨d, h⟩
  · refine ⟨bound, by simp [dropInner, h], ?_⟩
    intro k
    by_cases hk : k = kind
    · subst hk; simp [h]
    · simp [hk]
  · refine ⟨_, by simp only [dropInner, h]; rfl, ?_⟩
    intro k
    rw [lookup_set]
    by_cases hk : k = kind
    · subst hk; simp [h]
    · simp [hk]

/-! ## `normalize_args` -/

theorem WF.parts {s : Sig V} (h : WF s) : s.fnArgs.Nodup ∧ s.kwonly.Nodup ∧ (∀ k ∈ s.fnArgs, k ∉ s.kwonly) ∧
    (∀ n, s.varargs = some n → n ∉ s.fnArgs ∧ n ∉ s.kwonly) ∧
    (∀ n, s.varkw = some n → n ∉ s.fnArgs ∧ n ∉ s.kwonly ∧ s.varargs ≠ some n) := by
  have hd := h.distinct
  unfold Sig.names at hd
  rw [List.nodup_append, List.nodup_append, List.nodup_append] at hd
  obtain ⟨⟨⟨h1, h2, h3⟩, _, h4⟩, _, h5⟩ := hd
  refine ⟨h1, h2, fun k hk hk' => h3 k hk k hk' rfl, ?_, ?_⟩
  · intro n hn
    have hm : n ∈ s.varargs.toList := by simp [hn]
    exact ⟨fun hk => h4 n (List.mem_append_left _ hk) n hm rfl, fun hk => h4 n (List.mem_append_right _ hk) n hm rfl⟩
  · intro n hn
    have hm : n ∈ s.varkw.toList := by simp [hn]
    refine ⟨fun hk => h5 n ?_ n hm rfl, fun hk => h5 n ?_ n hm rfl, fun hk => h5 n ?_ n hm rfl⟩
    · exact List.mem_append_left _ (List.mem_append_left _ hk)
    · exact List.mem_append_left _ (List.mem_append_right _ hk)
    · exact List.mem_append_right _ (by simp [hk])

theorem WF.inner_ne {s : Sig V} (h : WF s) : inner ∉ s.fnArgs ∧ inner ∉ s.kwonly := by
  have := h.noInner
  unfold Sig.names at this
  simp only [List.mem_append, not_or] at this
  exact ⟨this.1.1.1, this.1.1.2⟩

/-- What `normalize_args` returns. -/
structure Normal (s : Sig V) (as : List V) (kws : Dict V) (b : List V) (bk : Dict V) : Prop where
  known : ∀ k, kws.lookup k ≠ none → k ∈ s.fnArgs ∨ k ∈ s.kwonly ∨ s.varkw ≠ none ∨ k = inner
  notTwice : ∀ (i : Nat) k, s.fnArgs[i]? = some k → i < as.length → kws.lookup k = none
  slots : ∀ (i : Nat) k, s.fnArgs[i]? = some k → slot s as kws i k = b[i]? ∧ b[i]? ≠ none
  rest : s.varargs ≠ none → b.drop s.fnArgs.length = as.drop s.fnArgs.length
  kwonly : ∀ k ∈ s.kwonly, ∃ v, (kws.lookup k).or (s.kwdefaults.lookup k) = some v ∧ bk.lookup k = some v
  other : ∀ k, k ∉ s.kwonly → bk.lookup k = if k ∈ s.fnArgs then none else kws.lookup k

theorem normalize_ok {s : Sig V} (hwf : WF s) {as : List V} {kws : Dict V} (hk : Keys kws) {b bk}
    (h : normalizeArgs s as kws = .ok (b, bk)) : Normal s as kws b bk := by
  obtain ⟨hn1, hn2, hdis, _, _⟩ := hwf.parts
  unfold normalizeArgs at h
  split at h
  · rename_i hemp
    split at h
    · simp at h
    · rename_i hne
      simp only [ne_eq, not_or, Decidable.not_not] at hne
      simp only [Except.ok.injEq, Prod.mk.injEq] at h
      obtain ⟨rfl, rfl⟩ := h
      obtain ⟨rfl, rfl⟩ := hne
      exact ⟨by simp, by simp, by simp [hemp.1], by simp, by simp [hemp.2.1], by simp⟩
  · split at h
    · simp at h
    · cases hp : posLoop s as s.fnArgs 0 kws [] with
      | error e => rw [hp] at h; simp [bind, Except.bind] at h
      | ok r =>
        obtain ⟨b0, kw0, n⟩ := r
        rw [hp] at h
        simp only [bind, Except.bind] at h
        split at h
        · simp at h
        · rename_i hshort
          rcases posLoop_ok s as s.fnArgs 0 kws [] b0 kw0 n hn1 hk hp with
            ⟨hn, hk0, hl0, vs, hb, hlen, hvs⟩ | ⟨j, k, hj, hn, hsl, hd⟩
          · simp only [Nat.zero_add] at hn hvs
            simp only [List.nil_append] at hb
            subst hb hn
            cases hq : kwLoop s s.kwonly kw0 [] with
            | error e => rw [hq] at h; simp at h
            | ok r =>
              obtain ⟨bk1, kw1⟩ := r
              rw [hq] at h
              obtain ⟨hk1, hl1, hv1, ho1⟩ := kwLoop_ok s s.kwonly kw0 [] bk1 kw1 hn2 hk0 hq
              -- the positional part of the result
              have hslots : ∀ tl : List V, ∀ (i : Nat) k, s.fnArgs[i]? = some k →
                  slot s as kws i k = (b0 ++ tl)[i]? ∧ (b0 ++ tl)[i]? ≠ none := by
                intro tl i k hik
                have hi : i < b0.length := by
                  rw [hlen]
                  exact (List.getElem?_eq_some_iff.mp hik).1
                rw [List.getElem?_append_left hi, (hvs i k hik).1]
                exact ⟨rfl, by simp [hi]⟩
              have hkwonly : ∀ k ∈ s.kwonly, ∃ v,
                  (kws.lookup k).or (s.kwdefaults.lookup k) = some v ∧ bk1.lookup k = some v := by
                intro k hkk
                have := hv1 k hkk
                rwa [hl0, if_neg (fun h => hdis k h hkk)] at this
              -- the rest of the keywords
              have fin : ∀ bk' : Dict V, (∀ k, bk'.lookup k = (kw1.lookup k).or (bk1.lookup k)) →
                  (∀ k, kw1.lookup k ≠ none → s.varkw ≠ none ∨ k = inner) →
                  Normal s as kws (if s.varargs ≠ none ∧ s.fnArgs.length < as.length then
                    b0 ++ as.drop s.fnArgs.length else b0) bk' := by
                intro bk' hbk hkn
                refine ⟨?_, fun i k hik hi => (hvs i k hik).2 hi, ?_, ?_, ?_, ?_⟩
                · intro k hkk
                  by_cases h1 : k ∈ s.fnArgs
                  · exact .inl h1
                  · by_cases h2 : k ∈ s.kwonly
                    · exact .inr (.inl h2)
                    · have : kw1.lookup k ≠ none := by rw [hl1, if_neg h2, hl0, if_neg h1]; exact hkk
                      exact .inr (.inr (hkn k this))
                · intro i k hik
                  split
                  · exact hslots _ i k hik
                  · have := hslots [] i k hik
                    simpa using this
                · intro hva
                  split
                  · rw [← hlen, List.drop_left]
                  · rename_i hc
                    rw [← hlen, List.drop_length, List.drop_eq_nil_of_le]
                    have : ¬ s.fnArgs.length < as.length := fun hlt => hc ⟨hva, hlt⟩
                    omega
                · intro k hkk
                  rw [hbk, hl1, if_pos hkk]
                  exact hkwonly k hkk
                · intro k hkk
                  rw [hbk, hl1, if_neg hkk, hl0, ho1 k hkk]
                  simp
              cases hvk : s.varkw with
              | some m =>
                rw [hvk] at h
                simp only [Except.ok.injEq, Prod.mk.injEq] at h
                obtain ⟨rfl, rfl⟩ := h
                exact fin _ (fun k => lookup_update bk1 kw1 hk1 k) (fun k _ => .inl (by simp [hvk]))
              | none =>
                rw [hvk] at h
                simp only at h
                cases hr : restLoop s kw1 bk1 with
                | error e => rw [hr] at h; simp at h
                | ok bk2 =>
                  rw [hr] at h
                  simp only [Except.ok.injEq, Prod.mk.injEq] at h
                  obtain ⟨rfl, rfl⟩ := h
                  obtain ⟨hr1, hr2⟩ := restLoop_ok s kw1 bk1 bk2 hk1 hr
                  refine fin _ hr2 ?_
                  intro k hkk
                  rcases hr1 k hkk with h1 | h1
                  · exfalso
                    apply hkk
                    rw [hl1]
                    split
                    · rfl
                    · rw [hl0, if_pos h1]
                  · exact .inr h1
          · omega

theorem slot_spec {s : Sig V} (h : s.fnArgs.Nodup) {as : List V} {kws : Dict V} {i : Nat} {k : Name}
    (hk : s.fnArgs[i]? = some k) : slot s as kws i k =
      ((s.fnArgs.zip as).lookup k).or ((kws.lookup k).or (defaultOf s.fnArgs s.defaults k)) := by
  rw [lookup_zip h hk, defaultOf_eq h hk]
  rfl

theorem normalize_err {s : Sig V} (hwf : WF s) {as : List V} {kws : Dict V} (hk : Keys kws)
    (hi : kws.lookup inner ≠ none → s.names ≠ []) {e} (h : normalizeArgs s as kws = .error e) :
    e = .typeError ∧ ¬ ∃ env, BindsTo s.fnArgs s as (Dict.erase kws inner) env := by
  obtain ⟨hn1, hn2, hdis, _, _⟩ := hwf.parts
  obtain ⟨hi1, hi2⟩ := hwf.inner_ne
  have hne : ∀ k, k ∈ s.fnArgs ∨ k ∈ s.kwonly → k ≠ inner := by
    rintro k (h | h) rfl
    · exact hi1 h
    · exact hi2 h
  unfold normalizeArgs at h
  split at h
  · rename_i hemp
    split at h
    · rename_i hc
      simp only [Except.error.injEq] at h
      refine ⟨h.symm, ?_⟩
      rintro ⟨env, hb⟩
      rcases hc with hc | hc
      · rcases hb.notTooMany with h1 | h1
        · rw [hemp.1] at h1
          exact hc (List.eq_nil_of_length_eq_zero (by simpa using h1))
        · exact h1 hemp.2.2.1
      · cases kws with
        | nil => exact hc rfl
        | cons x kws =>
          obtain ⟨k, v⟩ := x
          have hkk : List.lookup k ((k, v) :: kws) ≠ none := by simp
          have hki : k ≠ inner := by
            rintro rfl
            apply hi hkk
            simp [Sig.names, hemp]
          rcases hb.known k (by rw [lookup_erase, if_neg hki]; exact hkk) with h1 | h1 | h1
          · rw [hemp.1] at h1; simp at h1
          · rw [hemp.2.1] at h1; simp at h1
          · exact h1 hemp.2.2.2
    · simp at h
  · split at h
    · rename_i hc
      simp only [Except.error.injEq] at h
      refine ⟨h.symm, ?_⟩
      rintro ⟨env, hb⟩
      rcases hb.notTooMany with h1 | h1
      · omega
      · exact h1 hc.2
    · cases hp : posLoop s as s.fnArgs 0 kws [] with
      | error e' =>
        rw [hp] at h
        simp only [bind, Except.bind, Except.error.injEq] at h
        subst h
        obtain ⟨he, j, k, hj, hlt, hkk⟩ := posLoop_err s as s.fnArgs 0 kws [] _ hn1 (by simp) hp
        refine ⟨he, ?_⟩
        rintro ⟨env, hb⟩
        have hm := List.mem_of_getElem? hj
        have := hb.notTwice k (by
          have : (s.fnArgs.take as.length)[j]? = some k := by
            rw [List.getElem?_take, if_pos (by omega)]; exact hj
          exact List.mem_of_getElem? this)
        rw [lookup_erase, if_neg (hne k (.inl hm))] at this
        exact hkk this
      | ok r =>
        obtain ⟨b0, kw0, n⟩ := r
        rw [hp] at h
        simp only [bind, Except.bind] at h
        rcases posLoop_ok s as s.fnArgs 0 kws [] b0 kw0 n hn1 hk hp with
          ⟨hn, hk0, hl0, vs, hb, hlen, hvs⟩ | ⟨j, k, hj, hn, hsl, hd⟩
        · split at h
          · omega
          · cases hq : kwLoop s s.kwonly kw0 [] with
            | error e' =>
              rw [hq] at h
              simp only [Except.error.injEq] at h
              subst h
              obtain ⟨he, k, hkk, hnn⟩ := kwLoop_err s s.kwonly kw0 [] _ hn2 hq
              refine ⟨he, ?_⟩
              rintro ⟨env, hb⟩
              obtain ⟨v, hv, _⟩ := hb.keyword k hkk
              rw [lookup_erase, if_neg (hne k (.inr hkk))] at hv
              rw [hl0, if_neg (fun h => hdis k h hkk), hv] at hnn
              simp at hnn
            | ok r =>
              obtain ⟨bk1, kw1⟩ := r
              rw [hq] at h
              obtain ⟨hk1, hl1, hv1, ho1⟩ := kwLoop_ok s s.kwonly kw0 [] bk1 kw1 hn2 hk0 hq
              cases hvk : s.varkw with
              | some m => rw [hvk] at h; simp at h
              | none =>
                rw [hvk] at h
                simp only at h
                cases hr : restLoop s kw1 bk1 with
                | ok bk2 => rw [hr] at h; simp at h
                | error e' =>
                  rw [hr] at h
                  simp only [Except.error.injEq] at h
                  subst h
                  obtain ⟨he, k, hkk, hnf, hni⟩ := restLoop_err s kw1 bk1 _ hr
                  refine ⟨he, ?_⟩
                  rintro ⟨env, hb⟩
                  have hnk : k ∉ s.kwonly := by
                    intro hm
                    rw [hl1, if_pos hm] at hkk
                    exact hkk rfl
                  rw [hl1, if_neg hnk, hl0, if_neg hnf] at hkk
                  rcases hb.known k (by rw [lookup_erase, if_neg hni]; exact hkk) with h1 | h1 | h1
                  · exact hnf h1
                  · exact hnk h1
                  · exact h1 hvk
        · simp only [Nat.zero_add] at hn
          subst hn
          have hlt := (List.getElem?_eq_some_iff.mp hj).1
          split at h
          · simp only [Except.error.injEq] at h
            refine ⟨h.symm, ?_⟩
            rintro ⟨env, hb⟩
            have hm := List.mem_of_getElem? hj
            obtain ⟨v, hv, _⟩ := hb.positional k hm
            rw [lookup_erase, if_neg (hne k (.inl hm)), ← slot_spec hn1 hj, hsl] at hv
            simp at hv
          · omega

/-! ## `bind_args` -/

/-- the proviso on the key that fbuild adds -/
def InnerOk (s : Sig V) (kws : Dict V) : Prop :=
  kws.lookup inner ≠ none →
    s.names ≠ [] ∧ (s.varkw = none ∨ s.varkw = some "kw" ∨ s.varkw = some "kwargs")

theorem bind_normal (ops : Ops V) {s : Sig V} (hwf : WF s) (hpl : Plain s) {as : List V} {kws : Dict V}
    (hI : InnerOk s kws) {a : List V} {bk : Dict V} (hn : normalizeArgs s as kws = .ok (a, bk))
    (hN : Normal s as kws a bk) : ∃ b, bindArgs ops s as kws = .ok b ∧
      ((as.length ≤ s.fnArgs.length ∨ s.varargs ≠ none) →
        BindsTo s.fnArgs s as (Dict.erase kws inner) (sem b)) := by
  obtain ⟨hn1, hn2, hdis, hva, hvk⟩ := hwf.parts
  obtain ⟨hi1, hi2⟩ := hwf.inner_ne
  have hne : ∀ k, k ∈ s.fnArgs ∨ k ∈ s.kwonly → k ≠ inner := by
    rintro k (h | h) rfl
    · exact hi1 h
    · exact hi2 h
  unfold bindArgs
  rw [hn]
  simp only [bind, Except.bind]
  generalize hB0 : (s.fnArgs.zip a).foldl (fun d x => Dict.set d x.1 (Value.one x.2)) [] = B0
  have h0 : ∀ k, B0.lookup k = ((s.fnArgs.zip a).lookup k).map Value.one := by
    intro k
    rw [← hB0, lookup_foldl _ _ (keys_zip _ _ hn1)]
    simp
  generalize hB1 : setOpt B0 s.varargs (.tuple (a.drop s.fnArgs.length)) = B1
  have h1 : ∀ k, B1.lookup k = if s.varargs = some k then some (.tuple (a.drop s.fnArgs.length))
      else B0.lookup k := by
    intro k
    rw [← hB1]
    cases hv : s.varargs with
    | none => simp [setOpt]
    | some n =>
      simp only [setOpt, Option.some.injEq]
      rw [lookup_set]
      by_cases hkn : k = n
      · simp [hkn]
      · rw [if_neg hkn, if_neg (fun h => hkn h.symm)]
  obtain ⟨kw', B2, hpop, hkw', h2⟩ := popLoop_ok s.kwonly bk B1 hn2 (fun k hk => by
    obtain ⟨v, _, hv⟩ := hN.kwonly k hk
    simp [hv])
  rw [hpop]
  simp only
  generalize hB3 : setOpt B2 s.varkw (.dict kw') = B3
  have h3 : ∀ k, B3.lookup k = if s.varkw = some k then some (.dict kw') else B2.lookup k := by
    intro k
    rw [← hB3]
    cases hv : s.varkw with
    | none => simp [setOpt]
    | some n =>
      simp only [setOpt, Option.some.injEq]
      rw [lookup_set]
      by_cases hkn : k = n
      · simp [hkn]
      · rw [if_neg hkn, if_neg (fun h => hkn h.symm)]
  -- names that are no parameters
  have hout : ∀ n, n ∉ s.fnArgs → n ∉ s.kwonly → s.varargs ≠ some n → s.varkw ≠ some n → B3.lookup n = none := by
    intro n e1 e2 e3 e4
    rw [h3, if_neg e4, h2, if_neg e2, h1, if_neg e3, h0, lookup_zip_none e1]
    rfl
  have hkind : ∀ kind, kind = "kw" ∨ kind = "kwargs" →
      B3.lookup kind = none ∨ ∃ d, B3.lookup kind = some (.dict d) := by
    intro kind hkind
    by_cases hv : s.varkw = some kind
    · exact .inr ⟨kw', by rw [h3, if_pos hv]⟩
    · left
      have hnot : kind ∉ s.fnArgs ++ s.kwonly ++ s.varargs.toList := by
        intro hm
        have := hpl kind hm
        rcases hkind with h | h
        · exact this.1 h
        · exact this.2 h
      simp only [List.mem_append, not_or] at hnot
      exact hout kind hnot.1.1 hnot.1.2 (fun h => hnot.2 (by simp [h])) hv
  obtain ⟨B4, hd4, h4⟩ := dropInner_ok ops B3 "kw" (hkind _ (.inl rfl))
  obtain ⟨B5, hd5, h5⟩ := dropInner_ok ops B4 "kwargs" (by
    rw [h4, if_neg (by decide)]
    exact hkind _ (.inr rfl))
  rw [hd4]
  refine ⟨B5, hd5, ?_⟩
  intro hmany
  -- parameters other than `**kwargs`
  have hsame : ∀ k, s.varkw ≠ some k → B5.lookup k = B3.lookup k := by
    intro k hv
    have hk0 : (k = "kw" ∨ k = "kwargs") → B3.lookup k = none := by
      intro hkk
      rcases hkind k hkk with h | ⟨d, h⟩
      · exact h
      · have hnot : k ∉ s.fnArgs ++ s.kwonly ++ s.varargs.toList := by
          intro hm
          have := hpl k hm
          rcases hkk with h | h
          · exact this.1 h
          · exact this.2 h
        simp only [List.mem_append, not_or] at hnot
        exact hout k hnot.1.1 hnot.1.2 (fun h => hnot.2 (by simp [h])) hv
    rw [h5]
    by_cases e1 : k = "kwargs"
    · rw [if_pos e1, h4, if_neg (by rw [e1]; decide), hk0 (.inr e1)]
      rfl
    · rw [if_neg e1, h4]
      by_cases e2 : k = "kw"
      · rw [if_pos e2, hk0 (.inl e2)]
        rfl
      · rw [if_neg e2]
  refine ⟨hmany, ?_, ?_, ?_, ?_, ?_, ?_, ?_⟩
  · intro k hk
    rw [lookup_erase] at hk
    by_cases hki : k = inner
    · rw [if_pos hki] at hk; exact absurd rfl hk
    · rw [if_neg hki] at hk
      rcases hN.known k hk with h | h | h | h
      · exact .inl h
      · exact .inr (.inl h)
      · exact .inr (.inr h)
      · exact absurd h hki
  · intro k hk
    obtain ⟨i, hi⟩ := List.mem_iff_getElem?.mp hk
    rw [List.getElem?_take] at hi
    split at hi
    · rename_i hlt
      rw [lookup_erase]
      split
      · rfl
      · exact hN.notTwice i k hi hlt
    · simp at hi
  · intro k hk
    obtain ⟨i, hi⟩ := List.mem_iff_getElem?.mp hk
    obtain ⟨hs1, hs2⟩ := hN.slots i k hi
    obtain ⟨v, hv⟩ := Option.ne_none_iff_exists'.mp hs2
    refine ⟨v, ?_, ?_⟩
    · rw [lookup_erase, if_neg (hne k (.inl hk)), ← slot_spec hn1 hi, hs1, hv]
    · have hvk' : s.varkw ≠ some k := fun h => (hvk k h).1 hk
      unfold sem
      rw [hsame k hvk', h3, if_neg hvk', h2, if_neg (hdis k hk), h1, if_neg (fun h => (hva k h).1 hk), h0,
        lookup_zip hn1 hi, hv]
      rfl
  · intro k hk
    obtain ⟨v, hv1, hv2⟩ := hN.kwonly k hk
    refine ⟨v, ?_, ?_⟩
    · rw [lookup_erase, if_neg (hne k (.inr hk)), hv1]
    · have hvk' : s.varkw ≠ some k := fun h => (hvk k h).2.1 hk
      unfold sem
      rw [hsame k hvk', h3, if_neg hvk', h2, if_pos hk, hv2]
      rfl
  · intro n hn'
    have hvk' : s.varkw ≠ some n := fun h => (hvk n h).2.2 hn'
    unfold sem
    rw [hsame n hvk', h3, if_neg hvk', h2, if_neg (hva n hn').2, h1, if_pos hn']
    simp only [Option.map_some, Value.bound]
    rw [hN.rest (by simp [hn'])]
  · intro n hn'
    -- the dictionary without the key of fbuild
    have hd : ∀ k, kw'.lookup k = if k ∈ s.fnArgs ∨ k ∈ s.kwonly then none else kws.lookup k := by
      intro k
      rw [hkw']
      by_cases e1 : k ∈ s.kwonly
      · simp [e1]
      · rw [if_neg e1, hN.other k e1]
        by_cases e2 : k ∈ s.fnArgs <;> simp [e1, e2]
    have hlk : ∃ d, B5.lookup n = some (.dict d) ∧
        ∀ k, d.lookup k = if k = inner then none else kw'.lookup k := by
      have hB3n : B3.lookup n = some (.dict kw') := by rw [h3, if_pos hn']
      by_cases e1 : n = "kwargs"
      · refine ⟨Dict.erase kw' inner, ?_, lookup_erase kw' inner⟩
        rw [h5, if_pos e1, h4, if_neg (by rw [e1]; decide), hB3n]
        rfl
      · by_cases e2 : n = "kw"
        · refine ⟨Dict.erase kw' inner, ?_, lookup_erase kw' inner⟩
          rw [h5, if_neg e1, h4, if_pos e2, hB3n]
          rfl
        · refine ⟨kw', by rw [h5, if_neg e1, h4, if_neg e2, hB3n], ?_⟩
          intro k
          by_cases hki : k = inner
          · subst hki
            rw [if_pos rfl, hd, if_neg (by simp [hi1, hi2])]
            apply Classical.byContradiction
            intro hc
            rcases (hI hc).2 with h | h | h
            · rw [h] at hn'; simp at hn'
            · rw [h] at hn'; simp only [Option.some.injEq] at hn'; exact e2 hn'.symm
            · rw [h] at hn'; simp only [Option.some.injEq] at hn'; exact e1 hn'.symm
          · rw [if_neg hki]
    obtain ⟨d, hd1, hd2⟩ := hlk
    unfold sem
    rw [hd1]
    simp only [Option.map_some, Value.bound]
    congr 2
    funext k
    rw [hd2, hd, lookup_erase]
    by_cases e1 : k = inner <;> by_cases e2 : k ∈ s.fnArgs ∨ k ∈ s.kwonly <;> simp [e1, e2]
  · intro n e1 e2 e3 e4
    unfold sem
    rw [hsame n e4, hout n e1 e2 e3 e4]
    rfl

/-- `bind_args` on a valid call -/
theorem bind_ok (ops : Ops V) {s : Sig V} (hwf : WF s) (hpl : Plain s) {as : List V} {kws : Dict V} (hk : Keys kws)
    (hI : InnerOk s kws) {b} (h : bindArgs ops s as kws = .ok b)
    (hmany : as.length ≤ s.fnArgs.length ∨ s.varargs ≠ none) :
    BindsTo s.fnArgs s as (Dict.erase kws inner) (sem b) := by
  cases hn : normalizeArgs s as kws with
  | error e =>
    unfold bindArgs at h
    rw [hn] at h
    simp [bind, Except.bind] at h
  | ok r =>
    obtain ⟨a, bk⟩ := r
    obtain ⟨b', hb', hB⟩ := bind_normal ops hwf hpl hI hn (normalize_ok hwf hk hn)
    rw [h] at hb'
    simp only [Except.ok.injEq] at hb'
    subst hb'
    exact hB hmany

/-- `bind_args` on a call that is not valid -/
theorem bind_err (ops : Ops V) {s : Sig V} (hwf : WF s) (hpl : Plain s) {as : List V} {kws : Dict V} (hk : Keys kws)
    (hI : InnerOk s kws) {e} (h : bindArgs ops s as kws = .error e) :
    e = .typeError ∧ ¬ ∃ env, BindsTo s.fnArgs s as (Dict.erase kws inner) env := by
  cases hn : normalizeArgs s as kws with
  | error e' =>
    unfold bindArgs at h
    rw [hn] at h
    simp only [bind, Except.bind, Except.error.injEq] at h
    subst h
    exact normalize_err hwf hk (fun hh => (hI hh).1) hn
  | ok r =>
    obtain ⟨a, bk⟩ := r
    obtain ⟨b', hb', hB⟩ := bind_normal ops hwf hpl hI hn (normalize_ok hwf hk hn)
    rw [h] at hb'
    simp at hb'

/-- Python has no choice. -/
theorem BindsTo.unique {ps : List Name} {s : Sig V} {as : List V} {kws : Dict V} {env env'}
    (h : BindsTo ps s as kws env) (h' : BindsTo ps s as kws env') : env = env' := by
  funext n
  by_cases e1 : n ∈ ps
  · obtain ⟨v, hv, he⟩ := h.positional n e1
    obtain ⟨v', hv', he'⟩ := h'.positional n e1
    rw [hv] at hv'
    rw [he, he', Option.some.inj hv']
  · by_cases e2 : n ∈ s.kwonly
    · obtain ⟨v, hv, he⟩ := h.keyword n e2
      obtain ⟨v', hv', he'⟩ := h'.keyword n e2
      rw [hv] at hv'
      rw [he, he', Option.some.inj hv']
    · by_cases e3 : s.varargs = some n
      · rw [h.star n e3, h'.star n e3]
      · by_cases e4 : s.varkw = some n
        · rw [h.starStar n e4, h'.starStar n e4]
        · rw [h.onlyParameters n e1 e2 e3 e4, h'.onlyParameters n e1 e2 e3 e4]

end
end Verif.Functools
