import Verif.DB.CheckFun
/-! Lemmas for the null build property: which entries survive which operations. -/
namespace Verif.DB
open CDB
set_option linter.unusedSectionVars false

variable {B R : Type} [DecidableEq B] {sg : Sig B R} {vers : FileName → Nat → Option Content}
  {env : Env} {db db' db2 : CDB B R}

/-- the recorded digest of `x` is that of its present content -/
def Fresh (env : Env) (db : CDB B R) (x : FileName) : Prop :=
  ∃ c m, env.fs.content x = some c ∧ db.files.get? x = some (m, env.md5 c)

/-- files whose record is fresh stay fresh, and nothing recorded for them is dropped, for
functions satisfying `ok` -/
def Stay (env : Env) (ok : FunName → Prop) (db db' : CDB B R) : Prop :=
  ∀ x, Fresh env db x → Fresh env db' x ∧
    ∀ g j, ok g → (db.callFile x g j).isSome → (db'.callFile x g j).isSome

variable {ok : FunName → Prop}

theorem Stay.refl (db : CDB B R) : Stay env ok db db := fun _ h => ⟨h, fun _ _ _ h => h⟩

theorem Stay.trans (h1 : Stay env ok db db') (h2 : Stay env ok db' db2) : Stay env ok db db2 := by
  intro x hx
  obtain ⟨h3, h4⟩ := h1 x hx
  obtain ⟨h5, h6⟩ := h2 x h3
  exact ⟨h5, fun g j hg h => h6 g j hg (h4 g j hg h)⟩

theorem Fresh.congr {x : FileName} (h : Fresh env db x) (hf : db'.files = db.files) :
    Fresh env db' x := by
  obtain ⟨c, m, h1, h2⟩ := h; exact ⟨c, m, h1, by rw [hf]; exact h2⟩

theorem addFile_stay (y : FileName) (db : CDB B R) :
    Stay env ok db (addFile (storage B R) env y db).2 := by
  intro x hx
  obtain ⟨c, m, hc, hm⟩ := hx
  unfold addFile
  cases hy : env.fs y with
  | none => exact ⟨⟨c, m, hc, hm⟩, fun _ _ _ h => h⟩
  | some f =>
    simp only [storage, CDB.findFile]
    have other : y ≠ x → ∀ m' d' , Fresh env (CDB.saveFile none y m' d'
        (CDB.deleteFile y db).2).2 x ∧ ∀ g j, ok g → (db.callFile x g j).isSome →
          ((CDB.saveFile none y m' d' (CDB.deleteFile y db).2).2.callFile x g j).isSome := by
      intro hne m' d'
      refine ⟨⟨c, m, hc, ?_⟩, fun g j _ h => ?_⟩
      · simp only [CDB.saveFile, CDB.deleteFile, Dict.get?_set, Dict.get?_erase, if_neg hne]
        exact hm
      · simp only [CDB.saveFile, CDB.deleteFile]
        rw [callFile_erase (db := db) y rfl, if_neg hne]; exact h
    cases hk : db.files.get? y with
    | none =>
      simp only
      have hne : y ≠ x := by rintro rfl; rw [hm] at hk; cases hk
      cases f.content with
      | none => exact ⟨⟨c, m, hc, hm⟩, fun _ _ _ h => h⟩
      | some cy => exact other hne _ _
    | some md =>
      obtain ⟨m', d'⟩ := md
      simp only
      split
      · exact ⟨⟨c, m, hc, hm⟩, fun _ _ _ h => h⟩
      · cases hcy : f.content with
        | none => exact ⟨⟨c, m, hc, hm⟩, fun _ _ _ h => h⟩
        | some cy =>
          simp only
          split
          · refine ⟨?_, fun _ _ _ h => h⟩
            by_cases hyx : y = x
            · subst hyx
              have : c = cy := by
                obtain ⟨f', h1, h2⟩ := FS.content_some.1 hc
                rw [hy] at h1; cases h1; rw [hcy] at h2; cases h2; rfl
              subst this
              exact ⟨c, f.mtime, hc, by simp [CDB.saveFile]⟩
            · exact ⟨c, m, hc, by simp [CDB.saveFile, hyx, hm]⟩
          · rename_i hd
            refine other ?_ _ _
            rintro rfl
            obtain ⟨f', h1, h2⟩ := FS.content_some.1 hc
            rw [hy] at h1; cases h1; rw [hcy] at h2; cases h2
            rw [hk] at hm; cases hm
            exact hd rfl

theorem addFile_fresh {y : FileName} {db db' : CDB B R} {q : Bool × FileName × Digest}
    (hf : FilesOK vers env.md5 db) (hv : Faithful vers env.fs)
    (h : addFile (storage B R) env y db = (.ok q, db')) : Fresh env db' y := by
  unfold addFile at h
  cases hy : env.fs y with
  | none => rw [hy] at h; simp at h
  | some f =>
    rw [hy] at h
    simp only [storage, CDB.findFile] at h
    have hcont : ∀ c, f.content = some c → env.fs.content y = some c := fun c hc =>
      FS.content_some.2 ⟨f, hy, hc⟩
    cases hk : db.files.get? y with
    | none =>
      rw [hk] at h
      simp only at h
      cases hc : f.content with
      | none => rw [hc] at h; simp at h
      | some c =>
        rw [hc] at h
        simp only [Prod.mk.injEq] at h
        obtain ⟨_, rfl⟩ := h
        exact ⟨c, f.mtime, hcont c hc, by simp [CDB.saveFile]⟩
    | some md =>
      obtain ⟨m, d⟩ := md
      rw [hk] at h
      simp only at h
      split at h
      · rename_i hs
        simp only [Prod.mk.injEq] at h
        obtain ⟨_, rfl⟩ := h
        obtain ⟨c0, h1, h2⟩ := hf y m d hk
        have h3 := hv y f hy
        rw [hs.1, h1] at h3
        exact ⟨c0, m, hcont c0 h3.symm, by rw [hk, h2]⟩
      · cases hc : f.content with
        | none => rw [hc] at h; simp at h
        | some c =>
          rw [hc] at h
          simp only at h
          split at h
          · simp only [Prod.mk.injEq] at h
            obtain ⟨_, rfl⟩ := h
            exact ⟨c, f.mtime, hcont c hc, by simp [CDB.saveFile]⟩
          · simp only [Prod.mk.injEq] at h
            obtain ⟨_, rfl⟩ := h
            exact ⟨c, f.mtime, hcont c hc, by simp [CDB.saveFile]⟩

theorem checkCallFile_snd (env : Env) (cid : Option (FunName × Nat)) (x : FileName)
    (db : CDB B R) : (checkCallFile (storage B R) env cid x db).2 =
      (addFile (storage B R) env x db).2 := by
  unfold checkCallFile
  generalize addFile (storage B R) env x db = X
  obtain ⟨y, db1⟩ := X
  cases y with
  | error e => rfl
  | ok t =>
    obtain ⟨a, b, c⟩ := t
    simp only
    cases cid with
    | none => rfl
    | some c' =>
      simp only
      split
      · split <;> rfl
      · rfl

theorem checkCallFiles_stay (cid : Option (FunName × Nat)) (xs : List FileName) (db : CDB B R) :
    Stay env ok db (checkCallFiles (storage B R) env cid xs db).2 := by
  induction xs generalizing db with
  | nil => exact .refl db
  | cons x xs ih =>
    unfold checkCallFiles
    have h1 : Stay env ok db (checkCallFile (storage B R) env cid x db).2 := by
      rw [checkCallFile_snd]; exact addFile_stay x db
    generalize checkCallFile (storage B R) env cid x db = X at h1
    obtain ⟨y, db1⟩ := X
    cases y with
    | error e => exact h1
    | ok t =>
      obtain ⟨a, b, c⟩ := t
      simp only
      have h2 := ih db1
      generalize checkCallFiles (storage B R) env cid xs db1 = Y at h2
      obtain ⟨z, db2⟩ := Y
      cases z <;> exact h1.trans h2

theorem checkExternal_stay (cid : FunName × Nat) (xs : List FileName) (db : CDB B R) :
    Stay env ok db (checkExternalLoop (storage B R) env cid xs db).2 := by
  induction xs generalizing db with
  | nil => exact .refl db
  | cons x xs ih =>
    unfold checkExternalLoop
    have h1 : Stay env ok db (checkCallFile (storage B R) env (some cid) x db).2 := by
      rw [checkCallFile_snd]; exact addFile_stay x db
    generalize checkCallFile (storage B R) env (some cid) x db = X at h1
    obtain ⟨y, db1⟩ := X
    cases y with
    | error e => exact h1.trans (ih db1)
    | ok t => obtain ⟨a, b, c⟩ := t; exact h1.trans (ih db1)

theorem prepare_stay (f : FunName) (b : B) (srcs : List FileName) (db : CDB B R) :
    Stay env ok db (prepare (storage B R) env f b srcs db).2 := by
  unfold prepare
  cases checkFunction (storage B R) env db env.recursionLimit f with
  | error e => exact .refl db
  | ok q =>
    obtain ⟨dirty, fid⟩ := q
    simp only
    generalize lookupCall (storage B R) dirty fid b db = found
    have h1 : Stay env ok db _ := checkCallFiles_stay (found.map Prod.fst) srcs db
    generalize checkCallFiles (storage B R) env (found.map Prod.fst) srcs db = X at h1
    obtain ⟨y, db1⟩ := X
    cases y with
    | error e => exact h1
    | ok L =>
      simp only
      cases found with
      | none => exact h1
      | some c => exact h1.trans (checkExternal_stay _ _ _)

theorem addAll_stay (xs : List FileName) (db : CDB B R) :
    Stay env ok db (addAll env xs db).2 := by
  induction xs generalizing db with
  | nil => exact .refl db
  | cons x xs ih =>
    unfold addAll
    have h1 : Stay env ok db _ := addFile_stay x db
    generalize addFile (storage B R) env x db = X at h1
    obtain ⟨y, db1⟩ := X
    cases y with
    | error e => exact h1
    | ok t =>
      obtain ⟨a, b, c⟩ := t
      simp only
      have h2 := ih db1
      generalize addAll env xs db1 = Y at h2
      obtain ⟨z, db2⟩ := Y
      cases z <;> exact h1.trans h2

theorem addAll_fresh {xs : List FileName} {db db' : CDB B R}
    {L : List (FileName × FileName × Digest)}
    (hf : FilesOK vers env.md5 db) (hv : Faithful vers env.fs)
    (h : addAll env xs db = (.ok L, db')) : ∀ x ∈ xs, Fresh env db' x := by
  induction xs generalizing db L with
  | nil => simp
  | cons x xs ih =>
    unfold addAll at h
    rcases addFile_cases env x db vers hf hv with ⟨e, h1, _⟩ | ⟨dirty, c, db1, h1, _, _, hf1, _⟩
    · rw [h1] at h; simp at h
    · rw [h1] at h
      simp only at h
      have hfr := addFile_fresh hf hv h1
      cases hr : addAll env xs db1 with
      | mk z db2 =>
        rw [hr] at h
        cases z with
        | error e => simp at h
        | ok rest =>
          simp only [Prod.mk.injEq] at h
          obtain ⟨_, rfl⟩ := h
          have hst : Stay env (fun _ => True) db1 (addAll env xs db1).2 := addAll_stay xs db1
          rw [hr] at hst
          intro y hy
          rcases List.mem_cons.1 hy with rfl | hy
          · exact (hst _ hfr).1
          · exact ih hf1 hr y hy

theorem saveCallFiles_stay (f : FunName) (i : Nat) (L : List (FileName × FileName × Digest))
    (db : CDB B R) : Stay env ok db (saveCallFiles (storage B R) (f, i) L db).2 := by
  induction L generalizing db with
  | nil => exact .refl db
  | cons t L ih =>
    obtain ⟨a, b, d⟩ := t
    have h1 : Stay env ok db (saveCallFile (f, i) a d db).2 := by
      intro x hx
      refine ⟨hx.congr rfl, fun g j _ h => ?_⟩
      rw [callFile_saveCallFile]; split
      · rfl
      · exact h
    exact h1.trans (ih _)

theorem saveExternal_stay (f : FunName) (i : Nat) (ext extDsts : List FileName) (db : CDB B R) :
    Stay env ok db (saveExternal env ext extDsts (f, i) db).2 := by
  unfold saveExternal
  simp only
  have h0 : Stay env ok db ({ db with
      externalSrcs := setExt db.externalSrcs (f, i) ext
      externalDsts := setExt db.externalDsts (f, i) extDsts } : CDB B R) :=
    fun x hx => ⟨hx.congr rfl, fun _ _ _ h => h⟩
  have h1 : Stay env ok _ _ := addAll_stay ext ({ db with
      externalSrcs := setExt db.externalSrcs (f, i) ext
      externalDsts := setExt db.externalDsts (f, i) extDsts } : CDB B R)
  generalize addAll env ext { db with
      externalSrcs := setExt db.externalSrcs (f, i) ext
      externalDsts := setExt db.externalDsts (f, i) extDsts } = X at h1
  obtain ⟨y, db1⟩ := X
  cases y with
  | error e => exact h0.trans h1
  | ok L => exact (h0.trans h1).trans (saveCallFiles_stay f i L db1)

theorem saveExternal_fresh {f : FunName} {i : Nat} {ext extDsts : List FileName}
    {db db' : CDB B R} (hf : FilesOK vers env.md5 db) (hv : Faithful vers env.fs)
    (h : saveExternal env ext extDsts (f, i) db = (.ok (), db')) :
    ∀ x ∈ ext, Fresh env db' x := by
  unfold saveExternal at h
  simp only at h
  have h1 := fun L db' h => addAll_fresh (L := L) (db' := db') (xs := ext) (db := ({ db with
      externalSrcs := setExt db.externalSrcs (f, i) ext
      externalDsts := setExt db.externalDsts (f, i) extDsts } : CDB B R)) (vers := vers) hf hv h
  generalize addAll env ext { db with
      externalSrcs := setExt db.externalSrcs (f, i) ext
      externalDsts := setExt db.externalDsts (f, i) extDsts } = X at h h1
  obtain ⟨y, db1⟩ := X
  cases y with
  | error e => simp at h
  | ok L =>
    simp only at h
    have h2 := h1 L db1 rfl
    have h3 : Stay env (fun _ => True) db1 _ := saveCallFiles_stay f i L db1
    rw [h] at h3
    exact fun x hx => (h3 x (h2 x hx)).1

/-- the function a call id belongs to is the function called -/
theorem saveCall_fst {cid : Option (FunName × Nat)} {f : FunName} {b : B} {r : R} {db : CDB B R}
    {c : FunName × Nat} {db' : CDB B R} (h : saveCall cid f b r db = (.ok c, db')) : c.1 = f := by
  unfold saveCall at h
  split at h
  · cases h; rfl
  · split at h
    · cases h; rfl
    · split at h
      · cases h; rfl
      · cases h

theorem saveCall_files (cid : Option (FunName × Nat)) (f : FunName) (b : B) (r : R) (db : CDB B R) :
    (saveCall cid f b r db).2.files = db.files ∧
      (saveCall cid f b r db).2.callFiles = db.callFiles := by
  unfold saveCall
  split
  · exact ⟨rfl, rfl⟩
  · split
    · exact ⟨rfl, rfl⟩
    · split <;> exact ⟨rfl, rfl⟩

theorem storeCall_stay (f : FunName) (cid : Option (FunName × Nat)) (b : B) (r : R)
    (digs : List (FileName × FileName × Digest)) (ext extDsts : List FileName) (db : CDB B R) :
    Stay env ok db (storeCall env f cid b r digs ext extDsts db).2 := by
  unfold storeCall
  have h1 := saveCall_files cid f b r db
  have h0 : Stay env ok db (saveCall cid f b r db).2 := fun x hx =>
    ⟨hx.congr h1.1, fun g j _ h => by rw [callFile_congr h1.2]; exact h⟩
  have h2 := fun c db' => saveCall_fst (cid := cid) (f := f) (b := b) (r := r) (db := db)
    (c := c) (db' := db')
  generalize saveCall cid f b r db = X at h0 h2
  obtain ⟨x, db1⟩ := X
  cases x with
  | error e => exact h0
  | ok c =>
    obtain ⟨f', i⟩ := c
    have : f' = f := h2 _ _ rfl
    subst this
    simp only
    obtain ⟨db2, k, _⟩ := saveCallFiles_cases f' i digs db1
    have h3 : Stay env ok db1 _ := saveCallFiles_stay f' i digs db1
    rw [k] at h3 ⊢
    exact (h0.trans h3).trans (saveExternal_stay f' i ext extDsts db2)

theorem storeCall_fresh {f : FunName} {cid : Option (FunName × Nat)} {b : B} {r : R}
    {digs : List (FileName × FileName × Digest)} {ext extDsts : List FileName} {db db' : CDB B R}
    (hf : FilesOK vers env.md5 db) (hv : Faithful vers env.fs)
    (h : storeCall env f cid b r digs ext extDsts db = (.ok (), db')) :
    ∀ x ∈ ext, Fresh env db' x := by
  unfold storeCall at h
  have h1 := saveCall_files cid f b r db
  have h2 := fun c db' => saveCall_fst (cid := cid) (f := f) (b := b) (r := r) (db := db)
    (c := c) (db' := db')
  generalize saveCall cid f b r db = X at h h1 h2
  obtain ⟨x, db1⟩ := X
  cases x with
  | error e => simp at h
  | ok c =>
    obtain ⟨f', i⟩ := c
    simp only at h
    obtain ⟨db2, k, _, _, k3, _⟩ := saveCallFiles_cases f' i digs db1
    rw [k] at h
    simp only at h
    refine saveExternal_fresh (vers := vers) ?_ hv h
    intro y m d hy
    rw [k3] at hy
    simp only at h1
    rw [h1.1] at hy
    exact hf y m d hy

theorem recordFun_stay (dirty : Bool) (funId : Option FunName) (f : FunName) (code : Digest)
    (deps : List FunName) (db : CDB B R) (hn : db.callFiles.keys.Nodup)
    (hok : ∀ g, ok g → dirty = false ∨ g ≠ f) :
    Stay env ok db (recordFun dirty funId f code deps db) := by
  intro x hx
  unfold recordFun
  cases dirty with
  | false => exact ⟨hx, fun _ _ _ h => h⟩
  | true =>
    simp only [if_true]
    split
    · refine ⟨hx.congr rfl, fun g j hg h => ?_⟩
      have := (deleteFunction_drop f db hn).cf x g j
      have hne : f ≠ g := by
        rcases hok g hg with h | h
        · cases h
        · exact h.symm
      rw [if_neg hne] at this
      have h2 : ∀ (dd : CDB B R) (fs : Dict FunName (Digest × List FunName)),
        ({ dd with functions := fs } : CDB B R).callFile x g j = dd.callFile x g j := fun _ _ => rfl
      rw [h2, this]; exact h
    · exact ⟨hx.congr rfl, fun _ _ _ h => h⟩

/-! ### the first phase -/

theorem checkCallFiles_fresh {cid : Option (FunName × Nat)} {xs : List FileName}
    {db db' : CDB B R} {L : List (FileName × FileName × Digest)}
    (hf : FilesOK vers env.md5 db) (hv : Faithful vers env.fs)
    (h : checkCallFiles (storage B R) env cid xs db = (.ok L, db')) :
    ∀ x ∈ xs, Fresh env db' x ∧ ((∃ t ∈ L, t.1 = x) ∨
      ∃ f i, cid = some (f, i) ∧ (db'.callFile x f i).isSome) := by
  induction xs generalizing db L with
  | nil => simp
  | cons x xs ih =>
    unfold checkCallFiles at h
    rcases checkCallFile_cases env cid x db vers hf hv with
      ⟨e, h1, _⟩ | ⟨dirty, c, db1, h1, hc, _, hf1, _, hcl, _⟩
    · rw [h1] at h; simp at h
    · rw [h1] at h
      simp only at h
      have hfr : Fresh env db1 x := by
        rcases addFile_cases env x db vers hf hv with ⟨e, k1, _⟩ | ⟨d', c', db2, k1, _⟩
        · have h2 := checkCallFile_snd env cid x db
          unfold checkCallFile at h1
          rw [k1] at h1; simp at h1
        · have h2 := checkCallFile_snd env cid x db
          rw [h1, k1] at h2
          simp only at h2
          subst h2
          exact addFile_fresh hf hv k1
      have hst : Stay env (fun _ => True) db1 _ := checkCallFiles_stay cid xs db1
      cases hr : checkCallFiles (storage B R) env cid xs db1 with
      | mk z db2 =>
        rw [hr] at h hst
        cases z with
        | error e => simp at h
        | ok rest =>
          simp only [Prod.mk.injEq, Except.ok.injEq] at h
          obtain ⟨rfl, rfl⟩ := h
          intro y hy
          by_cases hyx : y = x
          · subst hyx
            refine ⟨(hst _ hfr).1, ?_⟩
            cases dirty with
            | true => left; exact ⟨(y, y, env.md5 c), by simp, rfl⟩
            | false =>
              right
              obtain ⟨f, i, h3, _, h4⟩ := hcl rfl
              exact ⟨f, i, h3, (hst _ hfr).2 f i trivial (by rw [h4]; rfl)⟩
          · have hy' : y ∈ xs := by
              rcases List.mem_cons.1 hy with h | h
              · exact absurd h hyx
              · exact h
            obtain ⟨h3, h4⟩ := ih hf1 hr y hy'
            refine ⟨h3, ?_⟩
            rcases h4 with ⟨t, ht, htx⟩ | h4
            · left
              refine ⟨t, ?_, htx⟩
              split
              · exact List.mem_cons_of_mem _ ht
              · exact ht
            · exact Or.inr h4

theorem prepare_fresh {f : FunName} {b : B} {srcs : List FileName} {db db' : CDB B R}
    {p : Prep FunName (FunName × Nat) FileName R}
    (hf : FilesOK vers env.md5 db) (hv : Faithful vers env.fs)
    (h : prepare (storage B R) env f b srcs db = (.ok p, db')) :
    ∀ x ∈ srcs, Fresh env db' x ∧ ((∃ t ∈ p.callFileDigests, t.1 = x) ∨
      ∃ g i r, p.found = some ((g, i), r) ∧ (db'.callFile x g i).isSome) := by
  unfold prepare at h
  cases hcf : checkFunction (storage B R) env db env.recursionLimit f with
  | error e => rw [hcf] at h; simp at h
  | ok q =>
    obtain ⟨dirty, fid⟩ := q
    rw [hcf] at h
    simp only at h
    generalize lookupCall (storage B R) dirty fid b db = found at h
    cases hc : checkCallFiles (storage B R) env (found.map Prod.fst) srcs db with
    | mk y db1 =>
      rw [hc] at h
      cases y with
      | error e => simp at h
      | ok L =>
        have h1 := checkCallFiles_fresh (vers := vers) hf hv hc
        simp only at h
        cases found with
        | none =>
          simp only [Option.map_none, Prod.mk.injEq, Except.ok.injEq] at h
          obtain ⟨rfl, rfl⟩ := h
          intro x hx
          obtain ⟨h2, h3⟩ := h1 x hx
          refine ⟨h2, Or.inl ?_⟩
          rcases h3 with h3 | ⟨f', i, h3, _⟩
          · exact h3
          · simp at h3
        | some c =>
          obtain ⟨⟨g, i⟩, r⟩ := c
          simp only [Option.map_some, Prod.mk.injEq, Except.ok.injEq] at h
          obtain ⟨rfl, rfl⟩ := h
          intro x hx
          obtain ⟨h2, h3⟩ := h1 x hx
          obtain ⟨h4, h5⟩ := checkExternal_stay (ok := fun _ => True) (env := env) (g, i)
            ((storage B R).findExternalSrcs (g, i) db1) db1 x h2
          refine ⟨h4, ?_⟩
          rcases h3 with h3 | ⟨f', i', h3, h6⟩
          · exact Or.inl h3
          · simp only [Option.map_some, Option.some.injEq, Prod.mk.injEq] at h3
            obtain ⟨rfl, rfl⟩ := h3
            exact Or.inr ⟨g, i, r, rfl, h5 g i trivial h6⟩

/-- the declared sources of a call in flight are as they were when it was prepared, and their
digests will be stored -/
def Ready (sg : Sig B R) (s : Sys B R) (p : Pending B R) : Prop :=
  ∀ x ∈ sg.srcs p.fn p.code p.bound, Fresh s.env s.db x ∧
    ((∃ t ∈ p.prep.callFileDigests, t.1 = x) ∨
      ∃ g i r, p.prep.found = some ((g, i), r) ∧
        (¬ DirtySince p s.log → (s.db.callFile x g i).isSome))

theorem Fresh.withEnv {x : FileName} {env' : Env} (h : Fresh env db x) (hm : env'.md5 = env.md5)
    (hc : env'.fs.content x = env.fs.content x) : Fresh env' db x := by
  obtain ⟨c, m, h1, h2⟩ := h
  exact ⟨c, m, by rw [hc, h1], by rw [hm]; exact h2⟩

theorem step_md5 (sg : Sig B R) (s : Sys B R) (ev : Event B R) :
    (step sg s ev).2.env.md5 = s.env.md5 ∧
    (step sg s ev).2.env.recursionLimit = s.env.recursionLimit := by
  cases ev with
  | prepare id f b =>
    simp only [step, stepPrepare]
    cases s.env.funDigest f with
    | none => exact ⟨rfl, rfl⟩
    | some c =>
      simp only
      generalize prepare _ _ _ _ _ _ = X
      obtain ⟨x, db⟩ := X
      cases x with
      | error e => exact ⟨rfl, rfl⟩
      | ok p => simp only; split <;> exact ⟨rfl, rfl⟩
  | complete id r deps ext extDsts =>
    simp only [step, stepComplete]
    cases s.inflight.get? id with
    | none => exact ⟨rfl, rfl⟩
    | some p =>
      simp only
      split <;> exact ⟨rfl, rfl⟩
  | fail id => exact ⟨rfl, rfl⟩
  | edit x st => exact ⟨rfl, rfl⟩
  | tick n => exact ⟨rfl, rfl⟩
  | restart ds => exact ⟨rfl, rfl⟩
  | crash ds => exact ⟨rfl, rfl⟩
  | deleteFunction f => simp only [step]; split <;> exact ⟨rfl, rfl⟩
  | deleteFile x => simp only [step]; split <;> exact ⟨rfl, rfl⟩

theorem DirtySince.cons {p : Pending B R} {e : Exec B R} {log : List (Exec B R)}
    (hs : p.start ≤ log.length) (h : DirtySince p log) : DirtySince p (e :: log) := by
  obtain ⟨e', h1, h2⟩ := h
  refine ⟨e', ?_, h2⟩
  rw [List.length_cons, Nat.sub_add_comm hs, List.take_succ_cons]
  exact List.mem_cons_of_mem _ h1

/-- an event that does not change the contents of the sources keeps a call ready -/
theorem Ready.step {crashes : Bool} {s : Sys B R} (hr : Reach sg vers crashes s) (ev : Event B R)
    (ha : Allowed vers s ev) {id : Nat} {p : Pending B R} (hp : s.inflight.get? id = some p)
    (he : ev.ends id = false) (h : Ready sg s p)
    (hc : ∀ x ∈ sg.srcs p.fn p.code p.bound,
      (Verif.DB.step sg s ev).2.env.fs.content x = s.env.fs.content x) :
    Ready sg (Verif.DB.step sg s ev).2 p := by
  have hI := reach_inv hr
  have hne : s.inflight.isEmpty = false := by
    cases hi : s.inflight with
    | nil => rw [hi] at hp; simp at hp
    | cons a l => rfl
  cases ev with
  | prepare id' f b =>
    intro x hx
    obtain ⟨h1, h2⟩ := h x hx
    simp only [Verif.DB.step, stepPrepare]
    cases s.env.funDigest f with
    | none => exact ⟨h1, h2⟩
    | some code =>
      simp only
      have hst := fun ok : FunName → Prop => prepare_stay (env := s.env) (ok := ok) f b (sg.srcs f code b) s.db
      generalize prepare (storage B R) s.env f b (sg.srcs f code b) s.db = X at hst
      obtain ⟨y, db⟩ := X
      obtain ⟨h3, h4⟩ := hst (fun _ => True) x h1
      have h5 : (∃ t ∈ p.prep.callFileDigests, t.1 = x) ∨
        ∃ g i r, p.prep.found = some ((g, i), r) ∧
        (¬ DirtySince p s.log → (db.callFile x g i).isSome) := by
        rcases h2 with h2 | ⟨g, i, r, h2, h5⟩
        · exact Or.inl h2
        · exact Or.inr ⟨g, i, r, h2, fun hd => h4 g i trivial (h5 hd)⟩
      cases y with
      | error e => exact ⟨h3, h5⟩
      | ok q => simp only; split <;> exact ⟨h3, h5⟩
  | complete id' r deps ext extDsts =>
    have hid : id' ≠ id := by simpa [Event.ends] using he
    intro x hx
    obtain ⟨h1, h2⟩ := h x hx
    simp only [Verif.DB.step, stepComplete]
    cases hq : s.inflight.get? id' with
    | none => exact ⟨h1, h2⟩
    | some q =>
      simp only
      have hP := hI.pending id' q hq
      have hPp := hI.pending id p hp
      rw [cache_eq s.env ext extDsts q.prep.funDirty q.prep.funId q.fn q.code deps
            (q.prep.found.map Prod.fst) q.bound r q.prep.callFileDigests s.db
            (fun hd => (hP.clean hd).1)]
      have hst := fun (ok : FunName → Prop) (hok : ∀ g, ok g → q.prep.funDirty = false ∨ g ≠ q.fn) =>
        (recordFun_stay (env := s.env) (ok := ok) q.prep.funDirty q.prep.funId q.fn q.code deps
          s.db hI.db.nd hok).trans (storeCall_stay q.fn (q.prep.found.map Prod.fst) q.bound r
            q.prep.callFileDigests ext extDsts _)
      generalize storeCall s.env q.fn (q.prep.found.map Prod.fst) q.bound r
            q.prep.callFileDigests ext extDsts
            (recordFun q.prep.funDirty q.prep.funId q.fn q.code deps s.db) = X at hst
      obtain ⟨y, db⟩ := X
      obtain ⟨h3, h4⟩ := hst (fun g => q.prep.funDirty = false ∨ g ≠ q.fn) (fun _ h => h) x h1
      have h5 : ∀ e : Exec B R, e.fn = q.fn → e.dirty = q.prep.funDirty →
        (∃ t ∈ p.prep.callFileDigests, t.1 = x) ∨
        ∃ g i r, p.prep.found = some ((g, i), r) ∧
        (¬ DirtySince p (e :: s.log) → (db.callFile x g i).isSome) := by
        intro e e1 e2
        rcases h2 with h2 | ⟨g, i, r, h2, h5⟩
        · exact Or.inl h2
        · refine Or.inr ⟨g, i, r, h2, fun hd => ?_⟩
          refine h4 g i ?_ (h5 (fun hx => hd (hx.cons hPp.start)))
          obtain ⟨rfl, _⟩ := hPp.old g i r h2
          cases hdq : q.prep.funDirty with
          | false => exact Or.inl rfl
          | true =>
            right
            intro hpq
            refine hd ⟨e, ?_, by rw [e1, hpq], by rw [e2, hdq]⟩
            rw [List.length_cons, Nat.sub_add_comm hPp.start, List.take_succ_cons]
            exact List.mem_cons_self ..
      cases y with
      | error e => exact ⟨h3, h5 _ rfl rfl⟩
      | ok q => exact ⟨h3, h5 _ rfl rfl⟩
  | fail id' => exact h
  | edit y st =>
    intro x hx
    obtain ⟨h1, h2⟩ := h x hx
    exact ⟨h1.withEnv rfl (hc x hx), h2⟩
  | tick n => exact h
  | restart ds => simp [Event.ends] at he
  | crash ds => simp [Event.ends] at he
  | deleteFunction f => simp only [Verif.DB.step, hne]; exact h
  | deleteFile f => simp only [Verif.DB.step, hne]; exact h

theorem Ready.start {crashes : Bool} {s : Sys B R} (hr : Reach sg vers crashes s) (id : Nat)
    (f : FunName) (b : B) (hrun : (Verif.DB.step sg s (.prepare id f b)).1 = .run) :
    ∃ p, (Verif.DB.step sg s (.prepare id f b)).2.inflight.get? id = some p ∧
      Ready sg (Verif.DB.step sg s (.prepare id f b)).2 p := by
  have hI := reach_inv hr
  simp only [Verif.DB.step, stepPrepare] at hrun ⊢
  cases hcode : s.env.funDigest f with
  | none => rw [hcode] at hrun; simp at hrun
  | some code =>
    rw [hcode] at hrun
    simp only at hrun ⊢
    have hpf := fun p db' => prepare_fresh (vers := vers) (p := p) (db' := db')
      (f := f) (b := b) (srcs := sg.srcs f code b) hI.db.files hI.faithful
    generalize prepare (storage B R) s.env f b (sg.srcs f code b) s.db = X at hrun hpf
    obtain ⟨y, db⟩ := X
    cases y with
    | error e => simp at hrun
    | ok q =>
      simp only at hrun ⊢
      split at hrun
      · simp at hrun
      · rename_i hn
        refine ⟨⟨f, code, b, q, s.env.fs, s.log.length⟩, by simp, ?_⟩
        intro x hx
        obtain ⟨h1, h2⟩ := hpf q db rfl x hx
        refine ⟨h1, ?_⟩
        rcases h2 with h2 | ⟨g, i, r, h2, h3⟩
        · exact Or.inl h2
        · exact Or.inr ⟨g, i, r, h2, fun _ => h3⟩

/-- a running call whose sources did not change since its start is ready -/
theorem History.ready {crashes : Bool} {tr : Trace B R} {s : Sys B R}
    (h : History sg vers crashes tr s) {id : Nat} {f : FunName} {b : B} {s0 : Sys B R}
    {mid older : Trace B R} {code : Digest}
    (he : tr = mid ++ (s0, .prepare id f b) :: older)
    (hrun : (Verif.DB.step sg s0 (.prepare id f b)).1 = .run)
    (hmid : ∀ q ∈ mid, q.2.ends id = false) (hcode : s0.env.funDigest f = some code)
    (hsame : ∀ q ∈ mid, ∀ x ∈ sg.srcs f code b, q.1.env.fs.content x = s0.env.fs.content x)
    (hnow : ∀ x ∈ sg.srcs f code b, s.env.fs.content x = s0.env.fs.content x) :
    ∃ p, s.inflight.get? id = some p ∧ p.fn = f ∧ p.bound = b ∧ p.code = code ∧
      p.fs0 = s0.env.fs ∧ Ready sg s p := by
  induction h generalizing mid with
  | init env h => simp at he
  | step ev hs ha hc ih =>
    rename_i tr' s'
    cases mid with
    | nil =>
      simp only [List.nil_append, List.cons.injEq, Prod.mk.injEq] at he
      obtain ⟨⟨rfl, rfl⟩, rfl⟩ := he
      obtain ⟨p, h1, h2, h3, h4, h5⟩ := prepare_run_inflight sg s' id f b hrun
      obtain ⟨p', k1, k2⟩ := Ready.start hs.reach id f b hrun
      rw [h1] at k1; cases k1
      rw [hcode] at h5; cases h5
      exact ⟨p, h1, h2, h3, rfl, h4, k2⟩
    | cons q mid =>
      simp only [List.cons_append, List.cons.injEq] at he
      obtain ⟨rfl, he⟩ := he
      have hs' := hsame (s', ev) (List.mem_cons_self ..)
      obtain ⟨p, h1, h2, h3, h4, h5, h6⟩ := ih he
        (fun q hq => hmid q (List.mem_cons_of_mem _ hq))
        (fun q hq => hsame q (List.mem_cons_of_mem _ hq)) hs'
      refine ⟨p, step_keeps_inflight sg s' ev id p h1 (hmid (s', ev) (List.mem_cons_self ..)),
        h2, h3, h4, h5, ?_⟩
      refine h6.step hs.reach ev ha h1 (hmid (s', ev) (List.mem_cons_self ..)) ?_
      intro x hx
      rw [h2, h3, h4] at hx
      rw [hnow x hx, hs' x hx]

/-! ### after the call -/

theorem findCallFrom_at {b : B} {datas : List (B × R)} {i k : Nat} {r : R}
    (h : datas[i]? = some (b, r)) (hd : ∀ j r', datas[j]? = some (b, r') → j = i) :
    findCallFrom b datas k = some (k + i, r) := by
  induction datas generalizing i k with
  | nil => simp at h
  | cons q datas ih =>
    obtain ⟨b', r'⟩ := q
    unfold findCallFrom
    cases i with
    | zero => simp at h; simp [h.1, h.2]
    | succ i =>
      have hne : b ≠ b' := by
        rintro rfl
        have := hd 0 r' (by simp)
        omega
      rw [if_neg hne]
      have := ih (k := k + 1) (i := i) (by simpa using h) (by
        intro j r'' hj
        have := hd (j + 1) r'' (by simpa using hj)
        omega)
      rw [this]
      congr 2
      omega

end Verif.DB
