import Verif.DB.History
/-! Lemmas about the cache backend tables: what each operation can change. -/
namespace Verif.DB
open CDB
set_option linter.unusedSectionVars false

variable {B R : Type} [DecidableEq B]

/-- content of a readable file -/
def FS.content (fs : FS) (x : FileName) : Option Content := (fs x).bind (·.content)

theorem FS.content_some {fs : FS} {x : FileName} {c : Content} :
    FS.content fs x = some c ↔ ∃ f, fs x = some f ∧ f.content = some c := by
  unfold FS.content
  cases h : fs x <;> simp

/-- every recorded (mtime, digest) is that of the version of the file with that mtime -/
def FilesOK (vers : FileName → Nat → Option Content) (md5 : Content → Digest) (db : CDB B R) :
    Prop :=
  ∀ x m d, db.files.get? x = some (m, d) → ∃ c, vers x m = some c ∧ md5 c = d

/-- the mtime identifies the content -/
def Faithful (vers : FileName → Nat → Option Content) (fs : FS) : Prop :=
  ∀ x f, fs x = some f → vers x f.mtime = f.content

/-- `db'` is `db` up to the files table and dropped call files -/
structure Touch (db db' : CDB B R) : Prop where
  functions : db'.functions = db.functions
  calls : db'.functionCalls = db.functionCalls
  esrcs : db'.externalSrcs = db.externalSrcs
  edsts : db'.externalDsts = db.externalDsts
  cf : ∀ x f i, db'.callFile x f i = db.callFile x f i ∨ db'.callFile x f i = none
  nd : db.callFiles.keys.Nodup → db'.callFiles.keys.Nodup

theorem Touch.refl (db : CDB B R) : Touch db db :=
  ⟨rfl, rfl, rfl, rfl, fun _ _ _ => Or.inl rfl, id⟩

theorem Touch.trans {a b c : CDB B R} (h1 : Touch a b) (h2 : Touch b c) : Touch a c where
  functions := h2.functions.trans h1.functions
  calls := h2.calls.trans h1.calls
  esrcs := h2.esrcs.trans h1.esrcs
  edsts := h2.edsts.trans h1.edsts
  cf x f i := by
    rcases h2.cf x f i with h | h
    · rw [h]; exact h1.cf x f i
    · exact Or.inr h
  nd h := h2.nd (h1.nd h)

theorem Touch.cf_some {a b : CDB B R} (h : Touch a b) {x f i d} (hd : b.callFile x f i = some d) :
    a.callFile x f i = some d := by
  rcases h.cf x f i with h1 | h1
  · rw [← h1]; exact hd
  · rw [h1] at hd; cases hd

theorem callFile_congr {a b : CDB B R} (h : a.callFiles = b.callFiles) (x f i) :
    a.callFile x f i = b.callFile x f i := by
  unfold callFile; rw [h]

theorem callFile_erase {db db' : CDB B R} (y : FileName)
    (h : db'.callFiles = db.callFiles.erase y) (x : FileName) (f : FunName) (i : Nat) :
    db'.callFile x f i = if y = x then none else db.callFile x f i := by
  unfold callFile
  rw [h]
  simp only [Dict.get?_erase]
  by_cases hy : y = x
  · simp [hy]
  · simp [hy]

/-- What `add_file` does on the cache tables. -/
theorem addFile_cases (env : Env) (x : FileName) (db : CDB B R)
    (vers : FileName → Nat → Option Content)
    (hf : FilesOK vers env.md5 db) (hv : Faithful vers env.fs) :
    (∃ e, addFile (storage B R) env x db = (.error e, db) ∧ env.fs.content x = none) ∨
    (∃ dirty c db', addFile (storage B R) env x db = (.ok (dirty, x, env.md5 c), db') ∧
      env.fs.content x = some c ∧ Touch db db' ∧ FilesOK vers env.md5 db' ∧
      (∀ y f i, y ≠ x → db'.callFile y f i = db.callFile y f i) ∧
      (dirty = false → ∀ y f i, db'.callFile y f i = db.callFile y f i) ∧
      (dirty = true → ∀ f i, db'.callFile x f i = none)) := by
  unfold addFile
  cases hx : env.fs x with
  | none => exact Or.inl ⟨_, rfl, by simp [FS.content, hx]⟩
  | some f =>
    have hv' := hv x f hx
    simp only [storage, CDB.findFile]
    cases hk : db.files.get? x with
    | none =>
      simp only
      cases hc : f.content with
      | none => exact Or.inl ⟨_, rfl, by simp [FS.content, hx, hc]⟩
      | some c =>
        right
        refine ⟨true, c, _, rfl, by simp [FS.content, hx, hc], ?_, ?_, ?_, by simp, ?_⟩
        · refine ⟨rfl, rfl, rfl, rfl, fun y g i => ?_, Dict.nodup_erase _⟩
          simp only [Option.isSome_some, if_true, CDB.deleteFile, CDB.saveFile]
          rw [callFile_erase (db := db) x rfl]
          split <;> simp
        · intro y m d
          simp only [Option.isSome_some, if_true, CDB.deleteFile, CDB.saveFile, Dict.get?_set,
            Dict.get?_erase]
          split
          · rename_i h; subst h
            intro h; simp at h; obtain ⟨rfl, rfl⟩ := h
            exact ⟨c, by rw [hv', hc], rfl⟩
          · intro h; exact hf y m d h
        · intro y g i hy
          simp only [Option.isSome_some, if_true, CDB.deleteFile, CDB.saveFile]
          rw [callFile_erase (db := db) x rfl, if_neg (fun h => hy h.symm)]
        · intro _ g i
          simp only [Option.isSome_some, if_true, CDB.deleteFile, CDB.saveFile]
          rw [callFile_erase (db := db) x rfl, if_pos rfl]
    | some md =>
      obtain ⟨m, d⟩ := md
      simp only
      obtain ⟨c0, hc0, hd0⟩ := hf x m d hk
      by_cases hs : f.mtime = m ∧ env.now > f.mtime + oneSecond
      · rw [if_pos hs]
        right
        have : f.content = some c0 := by rw [← hv', hs.1, hc0]
        refine ⟨false, c0, db, by rw [hd0], by simp [FS.content, hx, this], Touch.refl db, hf,
          by simp, by simp, by simp⟩
      · rw [if_neg hs]
        cases hc : f.content with
        | none => exact Or.inl ⟨_, rfl, by simp [FS.content, hx, hc]⟩
        | some c =>
          right
          simp only
          by_cases hd : env.md5 c = d
          · rw [if_pos hd]
            refine ⟨false, c, _, rfl, by simp [FS.content, hx, hc], ?_, ?_, ?_, ?_, by simp⟩
            · exact ⟨rfl, rfl, rfl, rfl, fun _ _ _ => Or.inl rfl, id⟩
            · intro y m' d'
              simp only [CDB.saveFile, Dict.get?_set]
              split
              · rename_i h; subst h
                intro h; simp at h; obtain ⟨rfl, rfl⟩ := h
                exact ⟨c, by rw [hv', hc], rfl⟩
              · intro h; exact hf y m' d' h
            · intro y g i _; rfl
            · intro _ y g i; rfl
          · rw [if_neg hd]
            refine ⟨true, c, _, rfl, by simp [FS.content, hx, hc], ?_, ?_, ?_, by simp, ?_⟩
            · refine ⟨rfl, rfl, rfl, rfl, fun y g i => ?_, Dict.nodup_erase _⟩
              simp only [CDB.deleteFile, CDB.saveFile]
              rw [callFile_erase (db := db) x rfl]
              split <;> simp
            · intro y m' d'
              simp only [CDB.deleteFile, CDB.saveFile, Dict.get?_set, Dict.get?_erase]
              split
              · rename_i h; subst h
                intro h; simp at h; obtain ⟨rfl, rfl⟩ := h
                exact ⟨c, by rw [hv', hc], rfl⟩
              · intro h; exact hf y m' d' h
            · intro y g i hy
              simp only [CDB.deleteFile, CDB.saveFile]
              rw [callFile_erase (db := db) x rfl, if_neg (fun h => hy h.symm)]
            · intro _ g i
              simp only [CDB.deleteFile, CDB.saveFile]
              rw [callFile_erase (db := db) x rfl, if_pos rfl]

/-- What `check_call_file` does on the cache tables. -/
theorem checkCallFile_cases (env : Env) (cid : Option (FunName × Nat)) (x : FileName)
    (db : CDB B R) (vers : FileName → Nat → Option Content)
    (hf : FilesOK vers env.md5 db) (hv : Faithful vers env.fs) :
    (∃ e, checkCallFile (storage B R) env cid x db = (.error e, db) ∧ env.fs.content x = none) ∨
    (∃ dirty c db', checkCallFile (storage B R) env cid x db = (.ok (dirty, x, env.md5 c), db') ∧
      env.fs.content x = some c ∧ Touch db db' ∧ FilesOK vers env.md5 db' ∧
      (∀ y f i, y ≠ x → db'.callFile y f i = db.callFile y f i) ∧
      (dirty = false → ∃ f i, cid = some (f, i) ∧ db.callFile x f i = some (env.md5 c) ∧
        db'.callFile x f i = some (env.md5 c)) ∧
      (dirty = true → (cid = none ∨ ∃ f i, cid = some (f, i) ∧
        db.callFile x f i ≠ some (env.md5 c) ∨ ∀ f i, db'.callFile x f i = none))) := by
  unfold checkCallFile
  rcases addFile_cases env x db vers hf hv with ⟨e, h, hc⟩ | ⟨dirty, c, db', h, hc, ht, hf', ho, hcl, hdi⟩
  · left; exact ⟨e, by rw [h], hc⟩
  · right
    rw [h]
    cases cid with
    | none =>
      exact ⟨true, c, db', rfl, hc, ht, hf', ho, by simp, fun _ => Or.inl rfl⟩
    | some p =>
      obtain ⟨f, i⟩ := p
      simp only [storage, CDB.findCallFile]
      cases ho' : db'.callFile x f i with
      | none =>
        simp only
        refine ⟨true, c, db', rfl, hc, ht, hf', ho, by simp, fun _ => ?_⟩
        right
        cases dirty with
        | false =>
          refine ⟨f, i, Or.inl ⟨rfl, ?_⟩⟩
          rw [← hcl rfl x f i, ho']; simp
        | true => exact ⟨f, i, Or.inr (hdi rfl)⟩
      | some old =>
        simp only
        by_cases hold : env.md5 c = old
        · rw [if_pos hold]
          subst hold
          refine ⟨dirty, c, db', rfl, hc, ht, hf', ho, fun _ => ⟨f, i, rfl, ht.cf_some ho', ho'⟩,
            fun hd => ?_⟩
          exact absurd (hdi hd f i) (by rw [ho']; simp)
        · rw [if_neg hold]
          refine ⟨true, c, db', rfl, hc, ht, hf', ho, by simp, fun _ => Or.inr ⟨f, i, Or.inl ⟨rfl, ?_⟩⟩⟩
          rw [ht.cf_some ho']
          simp only [ne_eq, Option.some.injEq]
          exact fun h => hold h.symm

/-- What `check_call_files` does on the cache tables. -/
theorem checkCallFiles_cases (env : Env) (cid : Option (FunName × Nat)) (xs : List FileName)
    (db : CDB B R) (vers : FileName → Nat → Option Content)
    (hf : FilesOK vers env.md5 db) (hv : Faithful vers env.fs) :
    (∃ e db', checkCallFiles (storage B R) env cid xs db = (.error e, db') ∧
      (∃ x ∈ xs, env.fs.content x = none) ∧ Touch db db' ∧ FilesOK vers env.md5 db') ∨
    (∃ L db', checkCallFiles (storage B R) env cid xs db = (.ok L, db') ∧
      Touch db db' ∧ FilesOK vers env.md5 db' ∧
      (∀ t ∈ L, t.1 = t.2.1 ∧ t.2.1 ∈ xs ∧
        ∃ c, env.fs.content t.2.1 = some c ∧ t.2.2 = env.md5 c) ∧
      (∀ x ∈ xs, (∃ c, env.fs.content x = some c) ∧ ((x, x, ((env.fs.content x).map env.md5).getD "") ∈ L ∨
        ∃ f i c, cid = some (f, i) ∧ env.fs.content x = some c ∧
          db.callFile x f i = some (env.md5 c)))) := by
  induction xs generalizing db with
  | nil => right; exact ⟨[], db, rfl, Touch.refl db, hf, by simp, by simp⟩
  | cons x xs ih =>
    unfold checkCallFiles
    rcases checkCallFile_cases env cid x db vers hf hv with
      ⟨e, h, hc⟩ | ⟨dirty, c, db', h, hc, ht, hf', ho, hcl, _⟩
    · left; rw [h]; exact ⟨e, db, rfl, ⟨x, by simp, hc⟩, Touch.refl db, hf⟩
    · rw [h]
      rcases ih db' hf' with ⟨e, db2, h2, ⟨y, hy, hcy⟩, ht2, hf2⟩ | ⟨L, db2, h2, ht2, hf2, hL, hx⟩
      · left; simp only [h2]
        exact ⟨e, db2, rfl, ⟨y, by simp [hy], hcy⟩, ht.trans ht2, hf2⟩
      · right
        simp only [h2]
        refine ⟨_, db2, rfl, ht.trans ht2, hf2, ?_, ?_⟩
        · intro t hmem
          have hcase : t = (x, x, env.md5 c) ∨ t ∈ L := by
            cases dirty
            · right; simpa using hmem
            · simpa using hmem
          rcases hcase with rfl | hm
          · exact ⟨rfl, by simp, c, hc, rfl⟩
          · obtain ⟨h1, h3, h4⟩ := hL t hm
            exact ⟨h1, by simp [h3], h4⟩
        · intro y hy
          rw [List.mem_cons] at hy
          by_cases hyx : y = x
          · subst hyx
            refine ⟨⟨c, hc⟩, ?_⟩
            cases dirty with
            | true => left; simp [hc]
            | false =>
              right
              obtain ⟨f, i, hcid, hcf, _⟩ := hcl rfl
              exact ⟨f, i, c, hcid, hc, hcf⟩
          · have hy' : y ∈ xs := by
              rcases hy with h | h
              · exact absurd h hyx
              · exact h
            obtain ⟨hcy, h3⟩ := hx y hy'
            refine ⟨hcy, ?_⟩
            rcases h3 with h3 | ⟨f, i, c', h3, h4, h5⟩
            · left; split
              · exact List.mem_cons_of_mem _ h3
              · exact h3
            · right
              exact ⟨f, i, c', h3, h4, ht.cf_some h5⟩

/-- What the external file check does on the cache tables. -/
theorem checkExternal_cases (env : Env) (f : FunName) (i : Nat) (xs : List FileName)
    (db : CDB B R) (vers : FileName → Nat → Option Content)
    (hf : FilesOK vers env.md5 db) (hv : Faithful vers env.fs) :
    ∃ L db', checkExternalLoop (storage B R) env (f, i) xs db = (L, db') ∧
      Touch db db' ∧ FilesOK vers env.md5 db' ∧
      (L = [] → ∀ x ∈ xs, ∀ c, env.fs.content x = some c → db.callFile x f i = some (env.md5 c)) := by
  induction xs generalizing db with
  | nil => exact ⟨[], db, rfl, Touch.refl db, hf, by simp⟩
  | cons x xs ih =>
    unfold checkExternalLoop
    rcases checkCallFile_cases env (some (f, i)) x db vers hf hv with
      ⟨e, h, hc⟩ | ⟨dirty, c, db', h, hc, ht, hf', ho, hcl, _⟩
    · rw [h]
      obtain ⟨L, db2, h2, ht2, hf2, h3⟩ := ih db hf
      refine ⟨L, db2, h2, ht2, hf2, fun hL y hy c' hc' => ?_⟩
      rw [List.mem_cons] at hy
      rcases hy with rfl | hy
      · rw [hc] at hc'; cases hc'
      · exact h3 hL y hy c' hc'
    · rw [h]
      obtain ⟨L, db2, h2, ht2, hf2, h3⟩ := ih db' hf'
      simp only [h2]
      refine ⟨_, db2, rfl, ht.trans ht2, hf2, fun hL y hy c' hc' => ?_⟩
      cases dirty with
      | true => simp at hL
      | false =>
        simp only [Bool.false_eq_true, if_false] at hL
        rw [List.mem_cons] at hy
        by_cases hyx : y = x
        · subst hyx
          obtain ⟨f', i', he, hcf, _⟩ := hcl rfl
          simp only [Option.some.injEq, Prod.mk.injEq] at he
          obtain ⟨rfl, rfl⟩ := he
          rw [hc] at hc'; cases hc'; exact hcf
        · have hy' : y ∈ xs := by
            rcases hy with h | h
            · exact absurd h hyx
            · exact h
          rw [← ho y f i hyx]
          exact h3 hL y hy' c' hc'

end Verif.DB
