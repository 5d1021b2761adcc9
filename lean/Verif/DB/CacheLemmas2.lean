import Verif.DB.CacheLemmas
/-! More lemmas about the cache backend: searching calls, storing results. -/
namespace Verif.DB
open CDB
set_option linter.unusedSectionVars false

variable {B R : Type} [DecidableEq B]

theorem findCallFrom_some {b : B} {datas : List (B × R)} {k i : Nat} {r : R}
    (h : findCallFrom b datas k = some (i, r)) :
    ∃ j, i = k + j ∧ datas[j]? = some (b, r) := by
  induction datas generalizing k with
  | nil => simp [findCallFrom] at h
  | cons p rest ih =>
    obtain ⟨b', r'⟩ := p
    unfold findCallFrom at h
    split at h
    · rename_i hb; subst hb
      simp only [Option.some.injEq, Prod.mk.injEq] at h
      exact ⟨0, by omega, by simp [h.2]⟩
    · obtain ⟨j, hj, hd⟩ := ih h
      exact ⟨j + 1, by omega, by simpa using hd⟩

theorem findCallFrom_none {b : B} {datas : List (B × R)} {k : Nat}
    (h : findCallFrom b datas k = none) (j : Nat) (r : R) : datas[j]? ≠ some (b, r) := by
  induction datas generalizing k j with
  | nil => simp
  | cons p rest ih =>
    obtain ⟨b', r'⟩ := p
    unfold findCallFrom at h
    split at h
    · cases h
    · rename_i hb
      cases j with
      | zero => simp; intro h1; exact absurd h1.symm hb
      | succ j => simpa using ih h j

theorem findCallFrom_isSome {b : B} {datas : List (B × R)} {k j : Nat} {r : R}
    (h : datas[j]? = some (b, r)) : (findCallFrom b datas k).isSome := by
  cases h1 : findCallFrom b datas k with
  | none => exact absurd h (findCallFrom_none h1 j r)
  | some _ => rfl

/-- there is a stored call of `f` with arguments `b` -/
def HasSlot (db : CDB B R) (f : FunName) (b : B) : Prop :=
  ∃ (datas : List (B × R)) (i : Nat) (r : R), db.functionCalls.get? f = some datas ∧ datas[i]? = some (b, r)

theorem findCall_some {f : FunName} {b : B} {db : CDB B R} {g : FunName} {i : Nat} {r : R}
    (h : findCall f b db = some ((g, i), r)) :
    g = f ∧ ∃ datas, db.functionCalls.get? f = some datas ∧ datas[i]? = some (b, r) := by
  unfold findCall at h
  split at h
  · cases h
  · rename_i datas hd
    simp only [Option.map_eq_some_iff] at h
    obtain ⟨⟨j, r'⟩, h1, h2⟩ := h
    simp only [Prod.mk.injEq] at h2
    obtain ⟨⟨rfl, rfl⟩, rfl⟩ := h2
    obtain ⟨k, hk, hk2⟩ := findCallFrom_some h1
    refine ⟨rfl, datas, hd, ?_⟩
    rw [hk]; simpa using hk2

theorem findCall_none {f : FunName} {b : B} {db : CDB B R}
    (h : findCall f b db = none) : ¬ HasSlot db f b := by
  rintro ⟨datas, i, r, hd, hi⟩
  unfold findCall at h
  rw [hd] at h
  simp only [Option.map_eq_none_iff] at h
  exact findCallFrom_none h i r hi

theorem checkFunction_cache {env : Env} {db : CDB B R} {n : Nat} {f : FunName} {dirty : Bool}
    {fid : Option FunName}
    (h : checkFunction (storage B R) env db n f = .ok (dirty, fid)) :
    ∃ digest, env.funDigest f = some digest ∧
      ((dirty = true ∧ fid = none ∧ db.functions.get? f = none) ∨
       (dirty = true ∧ fid = some f ∧ (db.functions.get? f).isSome) ∨
       (dirty = false ∧ fid = some f ∧ ∃ deps, db.functions.get? f = some (digest, deps))) := by
  cases n with
  | zero => simp [checkFunction] at h
  | succ n =>
    unfold checkFunction at h
    cases hd : env.funDigest f with
    | none => rw [hd] at h; cases h
    | some digest =>
      rw [hd] at h
      refine ⟨digest, rfl, ?_⟩
      simp only [storage, CDB.findFunction] at h
      cases hf : db.functions.get? f with
      | none =>
        rw [hf] at h
        simp only [Option.map_none] at h
        simp only [Except.ok.injEq, Prod.mk.injEq] at h
        left; exact ⟨h.1.symm, h.2.symm, rfl⟩
      | some p =>
        obtain ⟨old, deps⟩ := p
        rw [hf] at h
        simp only [Option.map_some] at h
        split at h
        · simp only [Except.ok.injEq, Prod.mk.injEq] at h
          right; left; exact ⟨h.1.symm, h.2.symm, rfl⟩
        · rename_i hne
          split at h
          · cases h
          · rename_i b hb
            simp only [Except.ok.injEq, Prod.mk.injEq] at h
            cases dirty with
            | true => right; left; exact ⟨rfl, h.2.symm, rfl⟩
            | false =>
              right; right
              simp only [ne_eq, Decidable.not_not] at hne
              exact ⟨rfl, h.2.symm, deps, by rw [hne]⟩

/-- What `prepare` computes on the cache tables. -/
theorem prepare_cases (env : Env) (f : FunName) (b : B) (srcs : List FileName) (db : CDB B R)
    (vers : FileName → Nat → Option Content)
    (hf : FilesOK vers env.md5 db) (hv : Faithful vers env.fs) :
    (∃ e db', prepare (storage B R) env f b srcs db = (.error e, db') ∧ Touch db db' ∧
      FilesOK vers env.md5 db') ∨
    (∃ p db', prepare (storage B R) env f b srcs db = (.ok p, db') ∧ Touch db db' ∧
      FilesOK vers env.md5 db' ∧
      checkFunction (storage B R) env db env.recursionLimit f = .ok (p.funDirty, p.funId) ∧
      (∀ t ∈ p.callFileDigests, t.1 = t.2.1 ∧ t.2.1 ∈ srcs ∧
        ∃ c, env.fs.content t.2.1 = some c ∧ t.2.2 = env.md5 c) ∧
      (∀ x ∈ srcs, ∃ c, env.fs.content x = some c ∧ ((x, x, env.md5 c) ∈ p.callFileDigests ∨
        ∃ i r, p.found = some ((f, i), r) ∧ db.callFile x f i = some (env.md5 c))) ∧
      (p.funDirty = true → p.found = none) ∧
      (p.found = none → p.funDirty = false → ¬ HasSlot db f b) ∧
      (∀ g i r, p.found = some ((g, i), r) → g = f ∧ p.funDirty = false ∧
        (∃ datas, db.functionCalls.get? f = some datas ∧ datas[i]? = some (b, r)) ∧
        p.externalSrcs = findExt db.externalSrcs (f, i) ∧
        p.externalDsts = findExt db.externalDsts (f, i) ∧
        (p.externalDigests = [] → ∀ x ∈ findExt db.externalSrcs (f, i), ∀ c,
          env.fs.content x = some c → db.callFile x f i = some (env.md5 c)))) := by
  unfold prepare
  cases hcf : checkFunction (storage B R) env db env.recursionLimit f with
  | error e => left; exact ⟨e, db, rfl, Touch.refl db, hf⟩
  | ok q =>
    obtain ⟨dirty, fid⟩ := q
    simp only
    obtain ⟨digest, hdig, hcase⟩ := checkFunction_cache hcf
    generalize hfound : lookupCall (storage B R) dirty fid b db = found
    unfold lookupCall at hfound
    have hfd : dirty = true → found = none := by
      intro h; subst h; simpa using hfound.symm
    have hfn : found = none → dirty = false → ¬ HasSlot db f b := by
      intro h1 h2; subst h1 h2
      rcases hcase with h | h | ⟨_, h2, _⟩
      · simp at h
      · simp at h
      · subst h2; simp only at hfound; exact findCall_none hfound
    have hfs : ∀ g i r, found = some ((g, i), r) → g = f ∧ dirty = false ∧
        ∃ datas, db.functionCalls.get? f = some datas ∧ datas[i]? = some (b, r) := by
      intro g i r h; subst h
      cases dirty with
      | true => simp at hfound
      | false =>
        rcases hcase with h | h | ⟨_, h2, _⟩
        · simp at h
        · simp at h
        · subst h2; simp only at hfound
          obtain ⟨h1, h3⟩ := findCall_some hfound
          exact ⟨h1, rfl, h3⟩
    rcases checkCallFiles_cases env (found.map Prod.fst) srcs db vers hf hv with
      ⟨e, db', h, _, ht, hf'⟩ | ⟨L, db1, h, ht, hf1, hL, hx⟩
    · left; rw [h]; exact ⟨e, db', rfl, ht, hf'⟩
    · right
      rw [h]
      have hx' : ∀ x ∈ srcs, ∃ c, env.fs.content x = some c ∧ ((x, x, env.md5 c) ∈ L ∨
        ∃ i r, found = some ((f, i), r) ∧ db.callFile x f i = some (env.md5 c)) := by
        intro x hxs
        obtain ⟨⟨c, hc⟩, h2⟩ := hx x hxs
        refine ⟨c, hc, ?_⟩
        rcases h2 with h2 | ⟨g, i, c', h2, h3, h4⟩
        · left; simpa [hc] using h2
        · right
          rw [hc] at h3; cases h3
          simp only [Option.map_eq_some_iff] at h2
          obtain ⟨⟨p, r⟩, hp, rfl⟩ := h2
          obtain ⟨rfl, _⟩ := hfs _ _ _ hp
          exact ⟨i, r, hp, h4⟩
      cases found with
      | none =>
        refine ⟨_, db1, rfl, ht, hf1, rfl, hL, hx', hfd, hfn, ?_⟩
        intro g i r h; cases h
      | some q =>
        obtain ⟨⟨g, i⟩, r⟩ := q
        obtain ⟨rfl, hd2, hd3⟩ := hfs g i r rfl
        simp only [Option.map_some, storage]
        obtain ⟨E, db2, h2, ht2, hf2, hE⟩ := checkExternal_cases env g i
          (findExt db1.externalSrcs (g, i)) db1 vers hf1 hv
        simp only [storage] at h2
        refine ⟨⟨dirty, fid, some ((g, i), r), L, findExt db1.externalSrcs (g, i),
          findExt db1.externalDsts (g, i), E⟩, db2, by rw [h2], ht.trans ht2, hf2, rfl, hL, hx', hfd,
          hfn, ?_⟩
        · intro g' i' r' h'
          simp only [Option.some.injEq, Prod.mk.injEq] at h'
          obtain ⟨⟨rfl, rfl⟩, rfl⟩ := h'
          refine ⟨rfl, hd2, hd3, by simp only [ht.esrcs], by simp only [ht.edsts], ?_⟩
          intro hE0 x hxm c hc
          rw [← ht.esrcs] at hxm
          exact ht.cf_some (hE hE0 x hxm c hc)

theorem callFile_saveCallFile (f : FunName) (i : Nat) (y : FileName) (d : Digest) (db : CDB B R)
    (x : FileName) (g : FunName) (j : Nat) :
    (saveCallFile (f, i) y d db).2.callFile x g j =
      if y = x ∧ f = g ∧ i = j then some d else db.callFile x g j := by
  simp only [saveCallFile, callFile, Dict.get?_set]
  by_cases hy : y = x
  · subst hy
    simp only [if_true, Dict.get?_set]
    by_cases hf : f = g
    · subst hf
      simp only [if_true, Dict.get?_set]
      by_cases hi : i = j
      · subst hi; simp
      · simp only [hi, if_false, and_false]
        cases db.callFiles.get? y with
        | none => simp
        | some m =>
          simp only [Option.getD_some]
          cases m.get? f with
          | none => simp
          | some m' => simp
    · simp only [hf, if_false, false_and, and_false]
      cases db.callFiles.get? y with
      | none => simp
      | some m => simp
  · simp [hy]

/-- What `save_call_files` does on the cache tables. -/
theorem saveCallFiles_cases (f : FunName) (i : Nat) (L : List (FileName × FileName × Digest))
    (db : CDB B R) :
    ∃ db', saveCallFiles (storage B R) (f, i) L db = (.ok (), db') ∧
      db'.functions = db.functions ∧ db'.functionCalls = db.functionCalls ∧
      db'.files = db.files ∧ db'.externalSrcs = db.externalSrcs ∧
      db'.externalDsts = db.externalDsts ∧
      (∀ x g j, (g, j) ≠ (f, i) → db'.callFile x g j = db.callFile x g j) ∧
      (∀ x, (∃ t ∈ L, t.1 = x ∧ db'.callFile x f i = some t.2.2) ∨
        ((∀ t ∈ L, t.1 ≠ x) ∧ db'.callFile x f i = db.callFile x f i)) ∧
      (db.callFiles.keys.Nodup → db'.callFiles.keys.Nodup) := by
  induction L generalizing db with
  | nil => exact ⟨db, rfl, rfl, rfl, rfl, rfl, rfl, fun _ _ _ _ => rfl, fun _ => Or.inr ⟨by simp, rfl⟩, id⟩
  | cons t L ih =>
    obtain ⟨fid, y, d⟩ := t
    unfold saveCallFiles
    obtain ⟨db', h, h1, h2, h3, h4, h5, h6, h7, h8⟩ := ih (saveCallFile (f, i) fid d db).2
    refine ⟨db', ?_, ?_, ?_, ?_, ?_, ?_, ?_, ?_, fun hn => h8 (Dict.nodup_set _ _ hn)⟩
    · exact h
    · rw [h1]; rfl
    · rw [h2]; rfl
    · rw [h3]; rfl
    · rw [h4]; rfl
    · rw [h5]; rfl
    · intro x g j hne
      rw [h6 x g j hne, callFile_saveCallFile, if_neg]
      rintro ⟨_, rfl, rfl⟩; exact hne rfl
    · intro x
      rcases h7 x with ⟨t, ht, htx, hv⟩ | ⟨hn, hv⟩
      · left; exact ⟨t, by simp [ht], htx, hv⟩
      · rw [callFile_saveCallFile] at hv
        by_cases hx : fid = x
        · left; exact ⟨(fid, y, d), by simp, hx, by rw [hv]; simp [hx]⟩
        · right
          refine ⟨?_, by rw [hv]; simp [hx]⟩
          intro t ht
          rw [List.mem_cons] at ht
          rcases ht with rfl | ht
          · exact hx
          · exact hn t ht

/-- What the loop of `save_external_files` does on the cache tables. -/
theorem addAll_cases (env : Env) (xs : List FileName) (db : CDB B R)
    (vers : FileName → Nat → Option Content)
    (hf : FilesOK vers env.md5 db) (hv : Faithful vers env.fs) :
    (∃ e db', addAll env xs db = (.error e, db') ∧ Touch db db' ∧ FilesOK vers env.md5 db' ∧
      (∃ x ∈ xs, env.fs.content x = none) ∧
      (∀ y f i, y ∉ xs → db'.callFile y f i = db.callFile y f i)) ∨
    (∃ L db', addAll env xs db = (.ok L, db') ∧ Touch db db' ∧ FilesOK vers env.md5 db' ∧
      (∀ x ∈ xs, ∃ t ∈ L, t.1 = x) ∧
      (∀ t ∈ L, t.1 ∈ xs ∧ ∃ c, env.fs.content t.1 = some c ∧ t.2.2 = env.md5 c) ∧
      (∀ y f i, y ∉ xs → db'.callFile y f i = db.callFile y f i)) := by
  induction xs generalizing db with
  | nil => right; exact ⟨[], db, rfl, Touch.refl db, hf, by simp, by simp, fun _ _ _ _ => rfl⟩
  | cons x xs ih =>
    unfold addAll
    rcases addFile_cases env x db vers hf hv with ⟨e, h, hc⟩ | ⟨dirty, c, db', h, hc, ht, hf', hoth, _, _⟩
    · left; rw [h]; exact ⟨e, db, rfl, Touch.refl db, hf, ⟨x, by simp, hc⟩, fun _ _ _ _ => rfl⟩
    · rw [h]
      rcases ih db' hf' with ⟨e, db2, h2, ht2, hf2, ⟨y, hy, hcy⟩, ho2⟩ |
        ⟨L, db2, h2, ht2, hf2, h3, h4, ho2⟩
      · left; simp only [h2]
        refine ⟨e, db2, rfl, ht.trans ht2, hf2, ⟨y, by simp [hy], hcy⟩, ?_⟩
        intro z f i hz
        simp only [List.mem_cons, not_or] at hz
        rw [ho2 z f i hz.2, hoth z f i hz.1]
      · right; simp only [h2]
        refine ⟨_, db2, rfl, ht.trans ht2, hf2, ?_, ?_, fun z f i hz => by
          simp only [List.mem_cons, not_or] at hz
          rw [ho2 z f i hz.2, hoth z f i hz.1]⟩
        · intro y hy
          rw [List.mem_cons] at hy
          rcases hy with rfl | hy
          · exact ⟨(y, y, env.md5 c), by simp, rfl⟩
          · obtain ⟨t, ht, h5⟩ := h3 y hy
            exact ⟨t, by simp [ht], h5⟩
        · intro t htm
          rw [List.mem_cons] at htm
          rcases htm with rfl | htm
          · exact ⟨by simp, c, hc, rfl⟩
          · obtain ⟨h5, h6⟩ := h4 t htm
            exact ⟨by simp [h5], h6⟩

theorem findExt_setExt (t : Dict FunName (Dict Nat (List FileName))) (c c' : FunName × Nat)
    (xs : List FileName) :
    findExt (setExt t c xs) c' = if c = c' then xs else findExt t c' := by
  obtain ⟨f, i⟩ := c
  obtain ⟨g, j⟩ := c'
  simp only [findExt, setExt, Dict.get?_set]
  by_cases hf : f = g
  · subst hf
    simp only [if_true, Dict.get?_set]
    by_cases hi : i = j
    · subst hi; simp
    · simp only [hi, if_false, Prod.mk.injEq, and_false]
      cases t.get? f with
      | none => simp
      | some m => simp
  · simp [hf]

/-- What `save_external_files` does on the cache tables. -/
theorem saveExternal_cases (env : Env) (ext extDsts : List FileName) (f : FunName) (i : Nat)
    (db : CDB B R) (vers : FileName → Nat → Option Content)
    (hf : FilesOK vers env.md5 db) (hv : Faithful vers env.fs) :
    ∃ res db', saveExternal env ext extDsts (f, i) db = (res, db') ∧
      db'.functions = db.functions ∧ db'.functionCalls = db.functionCalls ∧
      FilesOK vers env.md5 db' ∧
      (∀ c, findExt db'.externalSrcs c = if (f, i) = c then ext else findExt db.externalSrcs c) ∧
      (∀ c, findExt db'.externalDsts c = if (f, i) = c then extDsts else findExt db.externalDsts c) ∧
      (∀ x g j, (g, j) ≠ (f, i) →
        db'.callFile x g j = db.callFile x g j ∨ db'.callFile x g j = none) ∧
      (∀ x d, db'.callFile x f i = some d →
        (res = .ok () ∧ x ∈ ext ∧ ∃ c, env.fs.content x = some c ∧ d = env.md5 c) ∨
        (db.callFile x f i = some d ∧ (res = .ok () → x ∉ ext))) ∧
      (res = .ok () → ∀ x ∈ ext, ∃ c, env.fs.content x = some c ∧
        db'.callFile x f i = some (env.md5 c)) ∧
      ((∃ e, res = .error e) → ∃ x ∈ ext, env.fs.content x = none) ∧
      (∀ x g j, x ∉ ext → db'.callFile x g j = db.callFile x g j) ∧
      (db.callFiles.keys.Nodup → db'.callFiles.keys.Nodup) := by
  unfold saveExternal
  generalize hdb1 : ({ db with
    externalSrcs := setExt db.externalSrcs (f, i) ext
    externalDsts := setExt db.externalDsts (f, i) extDsts } : CDB B R) = db1
  have hf1 : FilesOK vers env.md5 db1 := by subst hdb1; exact hf
  have hcf1 : ∀ x g j, db1.callFile x g j = db.callFile x g j := by
    intro x g j; subst hdb1; rfl
  have he1 : ∀ c, findExt db1.externalSrcs c = if (f, i) = c then ext else findExt db.externalSrcs c := by
    intro c; subst hdb1; exact findExt_setExt _ _ _ _
  have he2 : ∀ c, findExt db1.externalDsts c = if (f, i) = c then extDsts else findExt db.externalDsts c := by
    intro c; subst hdb1; exact findExt_setExt _ _ _ _
  have hfu : db1.functions = db.functions := by subst hdb1; rfl
  have hnd1 : db.callFiles.keys.Nodup → db1.callFiles.keys.Nodup := by subst hdb1; exact id
  have hca : db1.functionCalls = db.functionCalls := by subst hdb1; rfl
  simp only
  rcases addAll_cases env ext db1 vers hf1 hv with
    ⟨e, db2, h2, ht, hf2, hmiss, ho⟩ | ⟨L, db2, h2, ht, hf2, hall, hL, ho⟩
  · rw [h2]
    refine ⟨_, db2, rfl, ht.functions.trans hfu, ht.calls.trans hca, hf2, ?_, ?_, ?_, ?_, ?_, ?_,
      fun x g j hx => (ho x g j hx).trans (hcf1 x g j), fun hn => ht.nd (hnd1 hn)⟩
    · intro c; rw [ht.esrcs]; exact he1 c
    · intro c; rw [ht.edsts]; exact he2 c
    · intro x g j _
      rcases ht.cf x g j with h | h
      · left; rw [h, hcf1]
      · right; exact h
    · intro x d hd
      right
      exact ⟨by rw [← hcf1]; exact ht.cf_some hd, by simp⟩
    · simp
    · exact fun _ => hmiss
  · rw [h2]
    obtain ⟨db3, h3, hs1, hs2, hs3, hs4, hs5, hs6, hs7, hs8⟩ := saveCallFiles_cases f i L db2
    refine ⟨_, db3, h3, ?_, ?_, ?_, ?_, ?_, ?_, ?_, ?_, ?_, ?_, fun hn => hs8 (ht.nd (hnd1 hn))⟩
    · rw [hs1]; exact ht.functions.trans hfu
    · rw [hs2]; exact ht.calls.trans hca
    · intro x m d h; rw [hs3] at h; exact hf2 x m d h
    · intro c; rw [hs4, ht.esrcs]; exact he1 c
    · intro c; rw [hs5, ht.edsts]; exact he2 c
    · intro x g j hne
      rw [hs6 x g j hne]
      rcases ht.cf x g j with h | h
      · left; rw [h, hcf1]
      · right; exact h
    · intro x d hd
      rcases hs7 x with ⟨t, htm, htx, hv'⟩ | ⟨hn, hv'⟩
      · left
        obtain ⟨h5, c, h6, h7⟩ := hL t htm
        rw [hd] at hv'; cases hv'
        subst htx
        exact ⟨rfl, h5, c, h6, h7⟩
      · right
        rw [hv'] at hd
        refine ⟨by rw [← hcf1]; exact ht.cf_some hd, fun _ hx => ?_⟩
        obtain ⟨t, htm, htx⟩ := hall x hx
        exact hn t htm htx
    · intro _ x hx
      rcases hs7 x with ⟨t, htm, htx, hv'⟩ | ⟨hn, _⟩
      · obtain ⟨h5, c, h6, h7⟩ := hL t htm
        subst htx
        exact ⟨c, h6, by rw [hv', h7]⟩
      · obtain ⟨t, htm, htx⟩ := hall x hx
        exact absurd htx (hn t htm)
    · rintro ⟨e, he⟩; cases he
    · intro x g j hx
      rw [← hcf1 x g j, ← ho x g j hx]
      by_cases hne : (g, j) = (f, i)
      · obtain ⟨rfl, rfl⟩ := Prod.mk.inj hne
        rcases hs7 x with ⟨t, htm, htx, _⟩ | ⟨_, hv'⟩
        · exact absurd (htx ▸ (hL t htm).1) hx
        · exact hv'
      · exact hs6 x g j hne

end Verif.DB
