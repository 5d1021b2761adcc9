import Verif.DB.CacheLemmas2
/-! Lemmas about the cache backend: deleting a function, storing a call. -/
namespace Verif.DB
open CDB
set_option linter.unusedSectionVars false

variable {B R : Type} [DecidableEq B]

theorem keys_dropFun (cf : Dict FileName (Dict FunName (Dict Nat Digest))) (f : FunName) :
    List.Sublist (dropFun cf f).keys cf.keys := by
  unfold dropFun Dict.keys
  have h : List.Sublist ((cf.map (fun p => (p.1, Dict.erase p.2 f))).filter (fun p => !p.2.isEmpty))
      (cf.map (fun p => (p.1, Dict.erase p.2 f))) := List.filter_sublist
  have h2 := h.map Prod.fst
  rw [List.map_map] at h2
  exact h2

theorem get?_dropFun (cf : Dict FileName (Dict FunName (Dict Nat Digest))) (f : FunName)
    (hn : cf.keys.Nodup) (x : FileName) :
    (dropFun cf f).get? x = match cf.get? x with
      | none => none
      | some m => if (m.erase f).isEmpty then none else some (m.erase f) := by
  induction cf with
  | nil => rfl
  | cons p cf ih =>
    obtain ⟨y, m⟩ := p
    simp only [Dict.keys, List.map_cons, List.nodup_cons] at hn
    have ih' := ih hn.2
    have hsub := keys_dropFun cf f
    unfold dropFun at ih' hsub ⊢
    simp only [List.map_cons, List.filter_cons, Dict.get?]
    by_cases hy : y = x
    · subst hy
      simp only [if_true]
      by_cases he : (Dict.erase m f).isEmpty
      · simp only [he, Bool.not_true, if_true, Bool.false_eq_true, if_false]
        rw [Dict.get?_eq_none_iff]
        exact fun h => hn.1 (hsub.subset h)
      · simp [he, Dict.get?]
    · simp only [hy, if_false]
      by_cases he : (Dict.erase m f).isEmpty
      · simp only [he, Bool.not_true, Bool.false_eq_true, if_false]; exact ih'
      · simp only [he, Bool.not_false, if_true, Dict.get?, hy, if_false]; exact ih'

/-- What `delete_function` does on the cache tables. -/
structure DropFun (f : FunName) (db db' : CDB B R) : Prop where
  functions : ∀ g, db'.functions.get? g = if f = g then none else db.functions.get? g
  calls : ∀ g, db'.functionCalls.get? g = if f = g then none else db.functionCalls.get? g
  files : db'.files = db.files
  esrcs : ∀ c, findExt db'.externalSrcs c = if f = c.1 then [] else findExt db.externalSrcs c
  edsts : ∀ c, findExt db'.externalDsts c = if f = c.1 then [] else findExt db.externalDsts c
  cf : ∀ x g j, db'.callFile x g j = if f = g then none else db.callFile x g j
  nd : db'.callFiles.keys.Nodup

theorem deleteFunction_drop (f : FunName) (db : CDB B R) (hn : db.callFiles.keys.Nodup) :
    DropFun f db (deleteFunction f db).2 where
  functions g := by simp [deleteFunction]
  calls g := by simp [deleteFunction]
  files := rfl
  esrcs c := by
    simp only [deleteFunction, findExt, Dict.get?_erase]
    by_cases h : f = c.1 <;> simp [h]
  edsts c := by
    simp only [deleteFunction, findExt, Dict.get?_erase]
    by_cases h : f = c.1 <;> simp [h]
  cf x g j := by
    simp only [deleteFunction, callFile]
    rw [get?_dropFun _ _ hn]
    cases hx : db.callFiles.get? x with
    | none => simp
    | some m =>
      simp only
      by_cases he : (m.erase f).isEmpty
      · simp only [he, if_true]
        by_cases hf : f = g
        · simp [hf]
        · simp only [hf, if_false]
          have : (m.erase f).get? g = none := by
            have : m.erase f = [] := by simpa using he
            rw [this]; rfl
          rw [Dict.get?_erase, if_neg hf] at this
          rw [this]
      · simp only [he, Bool.false_eq_true, if_false, Dict.get?_erase]
        by_cases hf : f = g <;> simp [hf]
  nd := (keys_dropFun db.callFiles f).nodup hn

/-- What storing a call does on the cache tables, once the function is recorded. -/
structure Stored (env : Env) (f : FunName) (b : B) (r : R)
    (digs : List (FileName × FileName × Digest)) (ext extDsts : List FileName) (ok : Bool)
    (i : Nat) (db db' : CDB B R) : Prop where
  functions : db'.functions = db.functions
  calls_ne : ∀ g, g ≠ f → db'.functionCalls.get? g = db.functionCalls.get? g
  calls : ∃ datas, db'.functionCalls.get? f = some datas ∧ datas[i]? = some (b, r) ∧
    (∀ j, j ≠ i → datas[j]? = ((db.functionCalls.get? f).getD [])[j]?) ∧
    ((db.functionCalls.get? f).getD []).length ≤ datas.length
  esrcs : ∀ c, findExt db'.externalSrcs c = if (f, i) = c then ext else findExt db.externalSrcs c
  edsts : ∀ c, findExt db'.externalDsts c =
    if (f, i) = c then extDsts else findExt db.externalDsts c
  cf_ne : ∀ x g j, (g, j) ≠ (f, i) →
    db'.callFile x g j = db.callFile x g j ∨ db'.callFile x g j = none
  cf : ∀ x d, db'.callFile x f i = some d →
    (ok = true ∧ x ∈ ext ∧ ∃ c, env.fs.content x = some c ∧ d = env.md5 c) ∨
    ((ok = true → x ∉ ext) ∧
      ((∃ t ∈ digs, t.1 = x ∧ d = t.2.2) ∨ ((∀ t ∈ digs, t.1 ≠ x) ∧ db.callFile x f i = some d)))
  nd : db.callFiles.keys.Nodup → db'.callFiles.keys.Nodup

/-- storing a call: the part of `cache` after `save_function` -/
def storeCall (env : Env) (f : FunName) (cid : Option (FunName × Nat)) (b : B) (r : R)
    (digs : List (FileName × FileName × Digest)) (ext extDsts : List FileName) (db : CDB B R) :
    Except Err Unit × CDB B R :=
  match saveCall cid f b r db with
  | (.error e, s2) => (.error e, s2)
  | (.ok c, s2) =>
    match saveCallFiles (storage B R) c digs s2 with
    | (.error e, s3) => (.error e, s3)
    | (.ok (), s3) => saveExternal env ext extDsts c s3

theorem storeCall_cases (env : Env) (f : FunName) (cid : Option (FunName × Nat)) (b : B) (r : R)
    (digs : List (FileName × FileName × Digest)) (ext extDsts : List FileName) (db : CDB B R)
    (vers : FileName → Nat → Option Content)
    (hf : FilesOK vers env.md5 db) (hv : Faithful vers env.fs)
    (hc : ∀ g i, cid = some (g, i) → ∃ datas, db.functionCalls.get? f = some datas ∧
      i < datas.length) :
    ∃ i db' ok, (storeCall env f cid b r digs ext extDsts db).2 = db' ∧
      ((storeCall env f cid b r digs ext extDsts db).1 = .ok () ↔ ok = true) ∧
      Stored env f b r digs ext extDsts ok i db db' ∧ FilesOK vers env.md5 db' ∧
      (∀ g j, cid = some (g, j) → i = j) ∧
      (cid = none → i = ((db.functionCalls.get? f).getD []).length) ∧
      (ok = true → ∀ x ∈ ext, ∃ c, env.fs.content x = some c ∧
        db'.callFile x f i = some (env.md5 c)) ∧
      (∀ x, x ∉ ext → (∃ t ∈ digs, t.1 = x ∧ db'.callFile x f i = some t.2.2) ∨
        ((∀ t ∈ digs, t.1 ≠ x) ∧ db'.callFile x f i = db.callFile x f i)) ∧
      (ok = false → ∃ x ∈ ext, env.fs.content x = none) := by
  obtain ⟨i, db1, hs, h1, h2, h3, h4, h5, h6, h7, h8⟩ : ∃ i db1,
      saveCall cid f b r db = (.ok (f, i), db1) ∧ db1.functions = db.functions ∧
      (∀ g, g ≠ f → db1.functionCalls.get? g = db.functionCalls.get? g) ∧
      (∃ datas, db1.functionCalls.get? f = some datas ∧ datas[i]? = some (b, r) ∧
        (∀ j, j ≠ i → datas[j]? = ((db.functionCalls.get? f).getD [])[j]?) ∧
        ((db.functionCalls.get? f).getD []).length ≤ datas.length) ∧
      db1.files = db.files ∧ db1.callFiles = db.callFiles ∧
      (db1.externalSrcs = db.externalSrcs ∧ db1.externalDsts = db.externalDsts) ∧
      (∀ g j, cid = some (g, j) → i = j) ∧
      (cid = none → i = ((db.functionCalls.get? f).getD []).length) := by
    unfold saveCall
    cases hd : db.functionCalls.get? f with
    | none =>
      have hcn : cid = none := by
        cases cid with
        | none => rfl
        | some c =>
          obtain ⟨datas, h, _⟩ := hc c.1 c.2 rfl
          rw [hd] at h; cases h
      subst hcn
      refine ⟨0, _, rfl, rfl, ?_, ⟨[(b, r)], by simp, by simp, ?_, by simp⟩, rfl, rfl, ⟨rfl, rfl⟩,
        by simp, by simp⟩
      · intro g hg; simp only [Dict.get?_set, if_neg (Ne.symm hg)]
      · intro j hj
        cases j with
        | zero => exact absurd rfl hj
        | succ j => simp
    | some datas =>
      cases cid with
      | none =>
        refine ⟨datas.length, _, rfl, rfl, ?_,
          ⟨datas ++ [(b, r)], by simp, by simp, ?_, by simp⟩, rfl, rfl, ⟨rfl, rfl⟩, by simp, by simp⟩
        · intro g hg; simp only [Dict.get?_set, if_neg (Ne.symm hg)]
        · intro j hj
          simp only [Option.getD_some]
          rcases Nat.lt_trichotomy j datas.length with h | h | h
          · rw [List.getElem?_append_left h]
          · exact absurd h hj
          · rw [List.getElem?_append_right (by omega), List.getElem?_eq_none (by simp; omega),
              List.getElem?_eq_none (by omega)]
      | some c =>
        obtain ⟨g0, i⟩ := c
        obtain ⟨datas', hd', hi⟩ := hc g0 i rfl
        rw [hd] at hd'; cases hd'
        simp only [hi, if_true]
        refine ⟨i, _, rfl, rfl, ?_, ⟨datas.set i (b, r), by simp, by simp [hi], ?_, by simp⟩,
          rfl, rfl, ⟨rfl, rfl⟩, ?_, by simp⟩
        · intro g hg; simp only [Dict.get?_set, if_neg (Ne.symm hg)]
        · intro j hj
          simp only [List.getElem?_set, if_neg (Ne.symm hj), Option.getD_some]
        · intro g j h; simp at h; exact h.2
  obtain ⟨db2, k, k1, k2, k3, k4, k5, k6, k7, k8⟩ := saveCallFiles_cases f i digs db1
  have hf2 : FilesOK vers env.md5 db2 := by
    intro x m d h; rw [k3, h4] at h; exact hf x m d h
  obtain ⟨res, db3, l, l1, l2, l3, l4, l5, l6, l7, l8, l9, l10, l11⟩ :=
    saveExternal_cases env ext extDsts f i db2 vers hf2 hv
  have hst : storeCall env f cid b r digs ext extDsts db = (res, db3) := by
    unfold storeCall; simp only [hs, k, l]
  rw [hst]
  have hok : (res = .ok () ↔ (match res with | .ok _ => true | .error _ => false) = true) := by
    cases res <;> simp
  refine ⟨i, db3, _, rfl, hok, ?_, l3, h7, h8, ?_, ?_, ?_⟩
  · refine ⟨by rw [l1, k1, h1], ?_, ?_, ?_, ?_, ?_, ?_, ?_⟩
    · intro g hg; rw [l2, k2, h2 g hg]
    · rw [l2, k2]; exact h3
    · intro c; rw [l4, k4, h6.1]
    · intro c; rw [l5, k5, h6.2]
    · intro x g j hne
      have e1 : db1.callFile x g j = db.callFile x g j := callFile_congr h5 x g j
      rcases l6 x g j hne with h | h
      · left; rw [h, k6 x g j hne, e1]
      · exact Or.inr h
    · intro x d hd
      have e1 : db1.callFile x f i = db.callFile x f i := callFile_congr h5 x f i
      rcases l7 x d hd with ⟨h, hx, hcx⟩ | ⟨h, hx⟩
      · left; exact ⟨hok.1 h, hx, hcx⟩
      · right
        refine ⟨fun hk => hx (hok.2 hk), ?_⟩
        rcases k7 x with ⟨t, ht, htx, hv'⟩ | ⟨hn, hv'⟩
        · left; rw [hv'] at h; cases h; exact ⟨t, ht, htx, rfl⟩
        · right; rw [hv', e1] at h; exact ⟨hn, h⟩
    · intro hn; exact l11 (k8 (by rw [h5]; exact hn))
  · intro hk; exact l8 (hok.2 hk)
  · intro x hx
    have e1 : db1.callFile x f i = db.callFile x f i := callFile_congr h5 x f i
    rw [l10 x f i hx, ← e1]
    exact k7 x
  · intro hk
    cases res with
    | ok u => simp at hk
    | error e => exact l9 ⟨e, rfl⟩

end Verif.DB
