import Verif.DB.HistoryProofs
import Verif.DB.HitLemmas
/-! Digests that are recorded with a call and agree with the table of files: what keeps them, what removes them. -/
namespace Verif.DB
open CDB
set_option linter.unusedSectionVars false

variable {B R : Type} [DecidableEq B]

/-- the digest of `y` recorded with call `j` of `g` is the digest in the table of files -/
def Live (db : CDB B R) (y : FileName) (g : FunName) (j : Nat) (d : Digest) : Prop :=
  db.callFile y g j = some d ∧ ∃ t, db.files.get? y = some (t, d)

/-- the table of files has the digest of the present content of `y` -/
def Noted (env : Env) (db : CDB B R) (y : FileName) : Prop :=
  ∃ t c, env.fs.content y = some c ∧ db.files.get? y = some (t, env.md5 c)

structure Noting (env : Env) (db db' : CDB B R) : Prop where
  wane : ∀ y g j d, Live db' y g j d → Live db y g j d
  noted : ∀ y, Noted env db y → Noted env db' y ∧ ∀ g j, db'.callFile y g j = db.callFile y g j

theorem Noting.refl (env : Env) (db : CDB B R) : Noting env db db :=
  ⟨fun _ _ _ _ h => h, fun _ h => ⟨h, fun _ _ => rfl⟩⟩

theorem Noting.trans {env : Env} {a b c : CDB B R} (h1 : Noting env a b) (h2 : Noting env b c) : Noting env a c where
  wane y g j d h := h1.wane y g j d (h2.wane y g j d h)
  noted y h := by
    obtain ⟨k1, k2⟩ := h1.noted y h
    obtain ⟨k3, k4⟩ := h2.noted y k1
    exact ⟨k3, fun g j => (k4 g j).trans (k2 g j)⟩

theorem addFile_noting (env : Env) (x : FileName) (db : CDB B R) (vers : FileName → Nat → Option Content)
    (hf : FilesOK vers env.md5 db) (hv : Faithful vers env.fs) :
    Noting env db (addFile (storage B R) env x db).2 ∧
      ∀ q, (addFile (storage B R) env x db).1 = .ok q → Noted env (addFile (storage B R) env x db).2 x := by
  unfold addFile
  cases hx : env.fs x with
  | none => exact ⟨Noting.refl env db, by simp⟩
  | some f =>
    have hv' := hv x f hx
    simp only [storage, CDB.findFile]
    cases hk : db.files.get? x with
    | none =>
      simp only
      cases hc : f.content with
      | none => exact ⟨Noting.refl env db, by simp⟩
      | some c =>
        simp only [Option.isSome_some, if_true, CDB.deleteFile, CDB.saveFile]
        refine ⟨⟨?_, ?_⟩, ?_⟩
        · rintro y g j d ⟨h1, t, h2⟩
          rw [callFile_erase (db := db) x rfl] at h1
          split at h1
          · cases h1
          · rename_i hne
            simp only [Dict.get?_set, Dict.get?_erase, if_neg hne] at h2
            exact ⟨h1, t, h2⟩
        · rintro y ⟨t, c', h1, h2⟩
          have hne : x ≠ y := by
            rintro rfl
            rw [hk] at h2; cases h2
          refine ⟨⟨t, c', h1, ?_⟩, fun g j => ?_⟩
          · simp only [Dict.get?_set, Dict.get?_erase, if_neg hne]; exact h2
          · rw [callFile_erase (db := db) x rfl, if_neg hne]
        · intro q _
          exact ⟨f.mtime, c, by simp [FS.content, hx, hc], by simp [Dict.get?_set]⟩
    | some md =>
      obtain ⟨m, d⟩ := md
      simp only
      obtain ⟨c0, hc0, hd0⟩ := hf x m d hk
      by_cases hs : f.mtime = m ∧ env.now > f.mtime + oneSecond
      · rw [if_pos hs]
        have : f.content = some c0 := by rw [← hv', hs.1, hc0]
        exact ⟨Noting.refl env db, fun q _ => ⟨m, c0, by simp [FS.content, hx, this], by rw [hk, hd0]⟩⟩
      · rw [if_neg hs]
        cases hc : f.content with
        | none => exact ⟨Noting.refl env db, by simp⟩
        | some c =>
          simp only
          by_cases hd : env.md5 c = d
          · rw [if_pos hd]
            simp only [CDB.saveFile]
            refine ⟨⟨?_, ?_⟩, ?_⟩
            · rintro y g j d' ⟨h1, t, h2⟩
              refine ⟨h1, ?_⟩
              simp only [Dict.get?_set] at h2
              split at h2
              · rename_i heq; subst heq
                cases h2
                exact ⟨m, by rw [hk, hd]⟩
              · exact ⟨t, h2⟩
            · rintro y ⟨t, c', h1, h2⟩
              refine ⟨?_, fun _ _ => rfl⟩
              by_cases heq : x = y
              · subst heq
                have : c' = c := by simp [FS.content, hx, hc] at h1; exact h1.symm
                subst this
                exact ⟨f.mtime, c', h1, by simp [Dict.get?_set]⟩
              · exact ⟨t, c', h1, by simp only [Dict.get?_set, if_neg heq]; exact h2⟩
            · intro q _
              exact ⟨f.mtime, c, by simp [FS.content, hx, hc], by simp [Dict.get?_set]⟩
          · rw [if_neg hd]
            simp only [CDB.deleteFile, CDB.saveFile]
            refine ⟨⟨?_, ?_⟩, ?_⟩
            · rintro y g j d' ⟨h1, t, h2⟩
              rw [callFile_erase (db := db) x rfl] at h1
              split at h1
              · cases h1
              · rename_i hne
                simp only [Dict.get?_set, Dict.get?_erase, if_neg hne] at h2
                exact ⟨h1, t, h2⟩
            · rintro y ⟨t, c', h1, h2⟩
              have hne : x ≠ y := by
                rintro rfl
                rw [hk] at h2; cases h2
                simp [FS.content, hx, hc] at h1
                subst h1
                exact hd rfl
              refine ⟨⟨t, c', h1, ?_⟩, fun g j => ?_⟩
              · simp only [Dict.get?_set, Dict.get?_erase, if_neg hne]; exact h2
              · rw [callFile_erase (db := db) x rfl, if_neg hne]
            · intro q _
              exact ⟨f.mtime, c, by simp [FS.content, hx, hc], by simp [Dict.get?_set]⟩

theorem checkCallFile_addFile (env : Env) (cid : Option (FunName × Nat)) (x : FileName) (db : CDB B R) :
    (checkCallFile (storage B R) env cid x db).2 = (addFile (storage B R) env x db).2 ∧
      ((checkCallFile (storage B R) env cid x db).1.toOption.isSome → (addFile (storage B R) env x db).1.toOption.isSome) := by
  unfold checkCallFile
  generalize addFile (storage B R) env x db = X
  obtain ⟨o, db'⟩ := X
  cases o with
  | error e => exact ⟨rfl, by simp [Except.toOption]⟩
  | ok q =>
    obtain ⟨d, fid, digest⟩ := q
    cases cid with
    | none => exact ⟨rfl, by simp [Except.toOption]⟩
    | some c =>
      simp only
      split
      · split <;> exact ⟨rfl, by simp [Except.toOption]⟩
      · exact ⟨rfl, by simp [Except.toOption]⟩

/-- a file is as it was when the call was recorded -/
def Current (env : Env) (db : CDB B R) (y : FileName) (g : FunName) (j : Nat) : Prop :=
  ∃ t c, env.fs.content y = some c ∧ db.files.get? y = some (t, env.md5 c) ∧ db.callFile y g j = some (env.md5 c)

theorem Noting.current {env : Env} {db db' : CDB B R} (h : Noting env db db') {y : FileName} {g : FunName} {j : Nat}
    (hf : Current env db y g j) : Current env db' y g j := by
  obtain ⟨t, c, h1, h2, h3⟩ := hf
  obtain ⟨⟨t', c', h4, h5⟩, h6⟩ := h.noted y ⟨t, c, h1, h2⟩
  rw [h1] at h4; cases h4
  exact ⟨t', c, h1, h5, by rw [h6]; exact h3⟩

theorem Current.live {env : Env} {db : CDB B R} {y : FileName} {g : FunName} {j : Nat} (hf : Current env db y g j) :
    ∃ d, Live db y g j d := by
  obtain ⟨t, c, h1, h2, h3⟩ := hf
  exact ⟨_, h3, t, h2⟩

theorem checkCallFile_noting (env : Env) (cid : Option (FunName × Nat)) (x : FileName) (db : CDB B R)
    (vers : FileName → Nat → Option Content) (hf : FilesOK vers env.md5 db) (hv : Faithful vers env.fs) :
    Noting env db (checkCallFile (storage B R) env cid x db).2 ∧
      (∀ q, (checkCallFile (storage B R) env cid x db).1 = .ok q → Noted env (checkCallFile (storage B R) env cid x db).2 x ∧
        (q.1 = false → ∃ f i, cid = some (f, i) ∧ Current env (checkCallFile (storage B R) env cid x db).2 x f i)) := by
  obtain ⟨h1, h2⟩ := addFile_noting env x db vers hf hv
  obtain ⟨h3, h4⟩ := checkCallFile_addFile env cid x db
  refine ⟨by rw [h3]; exact h1, ?_⟩
  intro q hq
  have hn : Noted env (checkCallFile (storage B R) env cid x db).2 x := by
    rw [h3]
    rw [hq] at h4
    have := h4 rfl
    cases ha : (addFile (storage B R) env x db).1 with
    | error e => rw [ha] at this; cases this
    | ok q' => exact h2 q' ha
  refine ⟨hn, ?_⟩
  intro hq0
  rcases checkCallFile_cases env cid x db vers hf hv with ⟨e, h, _⟩ | ⟨dirty, c, db', h, hc, _, _, _, hcl, _⟩
  · rw [h] at hq; cases hq
  · rw [h] at hq hn ⊢
    cases hq
    obtain ⟨f, i, k1, _, k2⟩ := hcl hq0
    obtain ⟨t, c', k3, k4⟩ := hn
    rw [hc] at k3; cases k3
    exact ⟨f, i, k1, t, c, hc, k4, k2⟩

theorem checkCallFiles_noting (env : Env) (cid : Option (FunName × Nat)) (xs : List FileName) (db : CDB B R)
    (vers : FileName → Nat → Option Content) (hf : FilesOK vers env.md5 db) (hv : Faithful vers env.fs) :
    Noting env db (checkCallFiles (storage B R) env cid xs db).2 ∧
      (∀ L, (checkCallFiles (storage B R) env cid xs db).1 = .ok L →
        (∀ x ∈ xs, Noted env (checkCallFiles (storage B R) env cid xs db).2 x) ∧
        (L = [] → ∀ x ∈ xs, ∃ f i, cid = some (f, i) ∧ Current env (checkCallFiles (storage B R) env cid xs db).2 x f i)) := by
  induction xs generalizing db with
  | nil => exact ⟨Noting.refl env db, by intro L _; exact ⟨by simp, by simp⟩⟩
  | cons x xs ih =>
    obtain ⟨h1, h2⟩ := checkCallFile_noting env cid x db vers hf hv
    unfold checkCallFiles
    rcases checkCallFile_cases env cid x db vers hf hv with ⟨e, h, _⟩ | ⟨dirty, c, db', h, hc, _, hf', _⟩
    · rw [h] at h1 ⊢
      exact ⟨h1, by simp⟩
    · rw [h] at h1 h2 ⊢
      obtain ⟨h3, h4⟩ := ih db' hf'
      simp only at h1 h2 ⊢
      generalize hX : checkCallFiles (storage B R) env cid xs db' = X at *
      obtain ⟨o, db''⟩ := X
      obtain ⟨h5, h6⟩ := h2 _ rfl
      cases o with
      | error e => exact ⟨h1.trans h3, by simp⟩
      | ok L' =>
        simp only at h3 h4 ⊢
        refine ⟨h1.trans h3, ?_⟩
        intro L hL
        obtain ⟨h7, h8⟩ := h4 L' rfl
        refine ⟨?_, ?_⟩
        · intro y hy
          rcases List.mem_cons.1 hy with rfl | hy
          · exact (h3.noted _ h5).1
          · exact h7 y hy
        · rintro rfl y hy
          cases dirty with
          | true => simp at hL
          | false =>
            simp only [Bool.false_eq_true, if_false, Except.ok.injEq] at hL
            rcases List.mem_cons.1 hy with rfl | hy
            · obtain ⟨f, i, k1, k2⟩ := h6 rfl
              exact ⟨f, i, k1, h3.current k2⟩
            · exact h8 hL y hy

theorem checkExternal_noting (env : Env) (cid : FunName × Nat) (xs : List FileName) (db : CDB B R)
    (vers : FileName → Nat → Option Content) (hf : FilesOK vers env.md5 db) (hv : Faithful vers env.fs) :
    Noting env db (checkExternalLoop (storage B R) env cid xs db).2 ∧
      ((checkExternalLoop (storage B R) env cid xs db).1 = [] → ∀ x ∈ xs, (env.fs.content x).isSome →
        Current env (checkExternalLoop (storage B R) env cid xs db).2 x cid.1 cid.2) := by
  induction xs generalizing db with
  | nil => exact ⟨Noting.refl env db, by simp⟩
  | cons x xs ih =>
    obtain ⟨h1, h2⟩ := checkCallFile_noting env (some cid) x db vers hf hv
    unfold checkExternalLoop
    rcases checkCallFile_cases env (some cid) x db vers hf hv with ⟨e, h, hc⟩ | ⟨dirty, c, db', h, hc, _, hf', _⟩
    · rw [h] at h1 ⊢
      obtain ⟨h3, h4⟩ := ih db hf
      refine ⟨h3, ?_⟩
      intro hL y hy hys
      rcases List.mem_cons.1 hy with rfl | hy
      · rw [hc] at hys; cases hys
      · exact h4 hL y hy hys
    · rw [h] at h1 h2 ⊢
      obtain ⟨h3, h4⟩ := ih db' hf'
      simp only at h1 h2 ⊢
      generalize hX : checkExternalLoop (storage B R) env cid xs db' = X at *
      obtain ⟨L', db''⟩ := X
      obtain ⟨h5, h6⟩ := h2 _ rfl
      simp only at h3 h4 ⊢
      refine ⟨h1.trans h3, ?_⟩
      intro hL y hy hys
      cases dirty with
      | true => simp at hL
      | false =>
        simp only [Bool.false_eq_true, if_false] at hL
        rcases List.mem_cons.1 hy with rfl | hy
        · obtain ⟨f, i, k1, k2⟩ := h6 rfl
          cases k1
          exact h3.current k2
        · exact h4 hL y hy hys

/-- What `prepare` does to recorded digests. -/
theorem prepare_noting (env : Env) (f : FunName) (b : B) (srcs : List FileName) (db : CDB B R)
    (vers : FileName → Nat → Option Content) (hf : FilesOK vers env.md5 db) (hv : Faithful vers env.fs) :
    Noting env db (prepare (storage B R) env f b srcs db).2 ∧
      ∀ p, (prepare (storage B R) env f b srcs db).1 = .ok p →
        (∀ x ∈ srcs, Noted env (prepare (storage B R) env f b srcs db).2 x) ∧
        ∀ g i r, p.found = some ((g, i), r) → p.callFileDigests = [] → p.externalDigests = [] →
          (∀ x ∈ srcs, Current env (prepare (storage B R) env f b srcs db).2 x g i) ∧
          ∀ x ∈ p.externalSrcs, (env.fs.content x).isSome → Current env (prepare (storage B R) env f b srcs db).2 x g i := by
  unfold prepare
  cases hcf : checkFunction (storage B R) env db env.recursionLimit f with
  | error e => exact ⟨Noting.refl env db, by simp⟩
  | ok q =>
    obtain ⟨dirty, fid⟩ := q
    simp only
    generalize lookupCall (storage B R) dirty fid b db = found
    obtain ⟨h1, h2⟩ := checkCallFiles_noting env (found.map Prod.fst) srcs db vers hf hv
    rcases checkCallFiles_cases env (found.map Prod.fst) srcs db vers hf hv with
      ⟨e, db', h, _, ht, hf'⟩ | ⟨L, db1, h, ht, hf1, hL, hx⟩
    · rw [h] at h1 ⊢
      exact ⟨h1, by simp⟩
    · rw [h] at h1 h2 ⊢
      simp only at h1 h2 ⊢
      obtain ⟨h3, h4⟩ := h2 L rfl
      cases found with
      | none =>
        refine ⟨h1, ?_⟩
        rintro p hp
        cases hp
        exact ⟨h3, by simp⟩
      | some q =>
        obtain ⟨⟨g, i⟩, r⟩ := q
        simp only [Option.map_some] at h4 ⊢
        obtain ⟨h5, h6⟩ := checkExternal_noting env (g, i) ((storage B R).findExternalSrcs (g, i) db1) db1 vers hf1 hv
        generalize hX : checkExternalLoop (storage B R) env (g, i) ((storage B R).findExternalSrcs (g, i) db1) db1 = X at *
        obtain ⟨E, db2⟩ := X
        simp only at h5 h6 ⊢
        refine ⟨h1.trans h5, ?_⟩
        rintro p hp
        cases hp
        refine ⟨fun x hx => (h5.noted x (h3 x hx)).1, ?_⟩
        intro g' i' r' hfound h7 h8
        cases hfound
        refine ⟨?_, h6 h8⟩
        intro x hx
        obtain ⟨f', i', k1, k2⟩ := h4 h7 x hx
        cases k1
        exact h5.current k2

/-- a digest of `y` that agrees with the table of files is recorded with the call of `f` for `b` -/
def Alive (db : CDB B R) (f : FunName) (b : B) (y : FileName) : Prop :=
  ∃ (datas : List (B × R)) (i : Nat) (r : R) (d : Digest),
    db.functionCalls.get? f = some datas ∧ datas[i]? = some (b, r) ∧ Live db y f i d

theorem Noting.alive {env : Env} {db db' : CDB B R} (h : Noting env db db') (hc : db'.functionCalls = db.functionCalls)
    {f : FunName} {b : B} {y : FileName} (ha : Alive db' f b y) : Alive db f b y := by
  obtain ⟨datas, i, r, d, h1, h2, h3⟩ := ha
  exact ⟨datas, i, r, d, by rw [← hc]; exact h1, h2, h.wane _ _ _ _ h3⟩

theorem addAll_noting (env : Env) (xs : List FileName) (db : CDB B R) (vers : FileName → Nat → Option Content)
    (hf : FilesOK vers env.md5 db) (hv : Faithful vers env.fs) :
    Noting env db (addAll env xs db).2 ∧
      ∀ L, (addAll env xs db).1 = .ok L → ∀ x ∈ xs, Noted env (addAll env xs db).2 x := by
  induction xs generalizing db with
  | nil => exact ⟨Noting.refl env db, by simp⟩
  | cons x xs ih =>
    obtain ⟨h1, h2⟩ := addFile_noting env x db vers hf hv
    unfold addAll
    rcases addFile_cases env x db vers hf hv with ⟨e, h, hc⟩ | ⟨dirty, c, db', h, hc, ht, hf', _⟩
    · rw [h] at h1 ⊢
      exact ⟨h1, by simp⟩
    · rw [h] at h1 h2 ⊢
      obtain ⟨h3, h4⟩ := ih db' hf'
      simp only at h1 h2 ⊢
      generalize addAll env xs db' = X at *
      obtain ⟨o, db2⟩ := X
      cases o with
      | error e => exact ⟨h1.trans h3, by simp⟩
      | ok L' =>
        refine ⟨h1.trans h3, ?_⟩
        intro L _ y hy
        rcases List.mem_cons.1 hy with rfl | hy
        · exact (h3.noted _ (h2 _ rfl)).1
        · exact h4 L' rfl y hy

theorem saveExternal_noting (env : Env) (ext extDsts : List FileName) (f : FunName) (i : Nat) (db : CDB B R)
    (vers : FileName → Nat → Option Content) (hf : FilesOK vers env.md5 db) (hv : Faithful vers env.fs) :
    (∀ y g j d, (g, j) ≠ (f, i) → Live (saveExternal env ext extDsts (f, i) db).2 y g j d → Live db y g j d) ∧
      (∀ y, Noted env db y → Noted env (saveExternal env ext extDsts (f, i) db).2 y) ∧
      ((saveExternal env ext extDsts (f, i) db).1 = .ok () →
        ∀ y ∈ ext, Noted env (saveExternal env ext extDsts (f, i) db).2 y) := by
  unfold saveExternal
  simp only
  generalize hdb1 : ({ db with
    externalSrcs := setExt db.externalSrcs (f, i) ext
    externalDsts := setExt db.externalDsts (f, i) extDsts } : CDB B R) = db1
  have hf1 : FilesOK vers env.md5 db1 := by subst hdb1; exact hf
  have hl1 : ∀ y g j d, Live db1 y g j d → Live db y g j d := by subst hdb1; exact fun _ _ _ _ h => h
  have hn1 : ∀ y, Noted env db y → Noted env db1 y := by subst hdb1; exact fun _ h => h
  obtain ⟨h1, h2⟩ := addAll_noting env ext db1 vers hf1 hv
  generalize addAll env ext db1 = X at *
  obtain ⟨o, db2⟩ := X
  cases o with
  | error e => exact ⟨fun y g j d _ h => hl1 _ _ _ _ (h1.wane _ _ _ _ h), fun y h => (h1.noted y (hn1 y h)).1, by simp⟩
  | ok L =>
    simp only at h1 h2 ⊢
    obtain ⟨db3, k, _, _, k3, _, _, k6, _, _⟩ := saveCallFiles_cases f i L db2
    rw [k]
    refine ⟨?_, ?_, ?_⟩
    · rintro y g j d hne ⟨h3, t, h4⟩
      rw [k6 y g j hne] at h3
      rw [k3] at h4
      exact hl1 _ _ _ _ (h1.wane _ _ _ _ ⟨h3, t, h4⟩)
    · intro y hy
      obtain ⟨t, c, h3, h4⟩ := (h1.noted y (hn1 y hy)).1
      exact ⟨t, c, h3, by simp only [k3]; exact h4⟩
    · intro _ y hy
      obtain ⟨t, c, h3, h4⟩ := h2 L rfl y hy
      exact ⟨t, c, h3, by simp only [k3]; exact h4⟩

/-- What storing a call does to the recorded digests. -/
theorem storeCall_alive (env : Env) (f : FunName) (cid : Option (FunName × Nat)) (b : B) (r : R)
    (digs : List (FileName × FileName × Digest)) (ext extDsts : List FileName) (db : CDB B R)
    (vers : FileName → Nat → Option Content) (hf : FilesOK vers env.md5 db) (hv : Faithful vers env.fs) :
    (∀ g c y, ¬ (g = f ∧ c = b) → Alive (storeCall env f cid b r digs ext extDsts db).2 g c y → Alive db g c y) ∧
      (∀ y, Noted env db y → Noted env (storeCall env f cid b r digs ext extDsts db).2 y) ∧
      ((storeCall env f cid b r digs ext extDsts db).1 = .ok () →
        ∀ y ∈ ext, Noted env (storeCall env f cid b r digs ext extDsts db).2 y) := by
  unfold storeCall
  have key : (∃ e, saveCall cid f b r db = (.error e, db)) ∨ ∃ i db1, saveCall cid f b r db = (.ok (f, i), db1) ∧
      (∀ g, g ≠ f → db1.functionCalls.get? g = db.functionCalls.get? g) ∧
      (∃ datas, db1.functionCalls.get? f = some datas ∧ datas[i]? = some (b, r) ∧
        (∀ j, j ≠ i → datas[j]? = ((db.functionCalls.get? f).getD [])[j]?)) ∧
      db1.files = db.files ∧ db1.callFiles = db.callFiles := by
    unfold saveCall
    cases hd : db.functionCalls.get? f with
    | none =>
      right
      refine ⟨0, _, rfl, ?_, ⟨[(b, r)], by simp, by simp, ?_⟩, rfl, rfl⟩
      · intro g hg; simp only [Dict.get?_set, if_neg (Ne.symm hg)]
      · intro j hj
        cases j with
        | zero => exact absurd rfl hj
        | succ j => simp
    | some datas =>
      cases cid with
      | none =>
        right
        refine ⟨datas.length, _, rfl, ?_, ⟨datas ++ [(b, r)], by simp, by simp, ?_⟩, rfl, rfl⟩
        · intro g hg; simp only [Dict.get?_set, if_neg (Ne.symm hg)]
        · intro j hj
          simp only [Option.getD_some]
          rcases Nat.lt_trichotomy j datas.length with h | h | h
          · rw [List.getElem?_append_left h]
          · exact absurd h hj
          · rw [List.getElem?_append_right (by omega), List.getElem?_eq_none (by simp; omega),
              List.getElem?_eq_none (by omega)]
      | some c =>
        obtain ⟨g0, i⟩ := c
        by_cases hi : i < datas.length
        · right
          simp only [hi, if_true]
          refine ⟨i, _, rfl, ?_, ⟨datas.set i (b, r), by simp, by simp [hi], ?_⟩, rfl, rfl⟩
          · intro g hg; simp only [Dict.get?_set, if_neg (Ne.symm hg)]
          · intro j hj
            simp only [List.getElem?_set, if_neg (Ne.symm hj), Option.getD_some]
        · left
          simp only [hi, if_false]
          exact ⟨_, rfl⟩
  rcases key with ⟨e, h⟩ | ⟨i, db1, h, h1, ⟨datas, h2, h3, h4⟩, h5, h6⟩
  · rw [h]
    exact ⟨fun _ _ _ _ h => h, fun _ h => h, by simp⟩
  · rw [h]
    simp only
    obtain ⟨db2, k, _, k2, k3, _, _, k6, _, _⟩ := saveCallFiles_cases f i digs db1
    rw [k]
    simp only
    have hf2 : FilesOK vers env.md5 db2 := by
      intro x m d h; rw [k3, h5] at h; exact hf x m d h
    obtain ⟨n1, n2, n3⟩ := saveExternal_noting env ext extDsts f i db2 vers hf2 hv
    obtain ⟨res, db3, l, _, l2, _⟩ := saveExternal_cases env ext extDsts f i db2 vers hf2 hv
    rw [l] at n1 n2 n3 ⊢
    simp only at n1 n2 n3 ⊢
    refine ⟨?_, ?_, n3⟩
    · rintro g c y hne ⟨ds, j, r', d, m1, m2, m3⟩
      rw [l2, k2] at m1
      have hgj : (g, j) ≠ (f, i) := by
        rintro heq
        cases heq
        rw [h2] at m1; cases m1
        rw [h3] at m2; cases m2
        exact hne ⟨rfl, rfl⟩
      have m4 := n1 y g j d hgj m3
      have m5 : Live db y g j d := by
        obtain ⟨q1, t, q2⟩ := m4
        rw [k6 y g j hgj, callFile_congr h6 y g j] at q1
        rw [k3, h5] at q2
        exact ⟨q1, t, q2⟩
      by_cases hg : g = f
      · subst hg
        rw [h2] at m1; cases m1
        have hji : j ≠ i := fun hji => hgj (by rw [hji])
        rw [h4 j hji] at m2
        cases hc : db.functionCalls.get? g with
        | none => rw [hc] at m2; simp at m2
        | some ds' => rw [hc] at m2; exact ⟨ds', j, r', d, hc, m2, m5⟩
      · rw [h1 g hg] at m1
        exact ⟨ds, j, r', d, m1, m2, m5⟩
    · rintro y ⟨t, c, q1, q2⟩
      exact n2 y ⟨t, c, q1, by rw [k3, h5]; exact q2⟩

/-- What `cache` does to the recorded digests. -/
theorem cache_alive (env : Env) (f : FunName) (code : Digest) (dirty : Bool) (funId : Option FunName) (deps : List FunName)
    (cid : Option (FunName × Nat)) (b : B) (r : R) (digs : List (FileName × FileName × Digest)) (ext extDsts : List FileName)
    (db : CDB B R) (vers : FileName → Nat → Option Content) (hf : FilesOK vers env.md5 db) (hv : Faithful vers env.fs)
    (hnd : db.callFiles.keys.Nodup) (hd : dirty = false → funId = some f) {out : Except Err Unit × CDB B R}
    (ho : cache (storage B R) (saveExternal env ext extDsts) dirty funId f code deps cid b r digs db = out) :
    (∀ g c y, ¬ (g = f ∧ c = b) → Alive out.2 g c y → Alive db g c y) ∧
      (∀ y, Noted env db y → Noted env out.2 y) ∧ (out.1 = .ok () → ∀ y ∈ ext, Noted env out.2 y) := by
  rw [cache_eq env ext extDsts dirty funId f code deps cid b r digs db hd] at ho
  subst ho
  have hfiles : (recordFun dirty funId f code deps db).files = db.files := by
    unfold recordFun
    split
    · simp only; split
      · rfl
      · rfl
    · rfl
  have hal : ∀ g c y, Alive (recordFun dirty funId f code deps db) g c y → Alive db g c y := by
    unfold recordFun
    split
    · simp only
      split
      · rintro g c y ⟨datas, i, r', d, h1, h2, h3, t, h4⟩
        have hdrop := deleteFunction_drop f db hnd
        have h5 := hdrop.calls g
        simp only at h1
        rw [h5] at h1
        split at h1
        · cases h1
        · rename_i hg
          have h6 : (deleteFunction f db).2.callFile y g i = some d := h3
          rw [hdrop.cf, if_neg hg] at h6
          have h7 : (deleteFunction f db).2.files.get? y = some (t, d) := h4
          rw [hdrop.files] at h7
          exact ⟨datas, i, r', d, h1, h2, h6, t, h7⟩
      · exact fun _ _ _ h => h
    · exact fun _ _ _ h => h
  obtain ⟨h1, h2, h3⟩ := storeCall_alive env f cid b r digs ext extDsts (recordFun dirty funId f code deps db) vers
    (by intro x m d h; rw [hfiles] at h; exact hf x m d h) hv
  refine ⟨fun g c y hne h => hal g c y (h1 g c y hne h), ?_, h3⟩
  rintro y ⟨t, c, q1, q2⟩
  exact h2 y ⟨t, c, q1, by rw [hfiles]; exact q2⟩

theorem deleteFunction_alive (f : FunName) (db : CDB B R) (hnd : db.callFiles.keys.Nodup) {g : FunName} {c : B} {y : FileName}
    (h : Alive (CDB.deleteFunction f db).2 g c y) : Alive db g c y := by
  obtain ⟨datas, i, r', d, h1, h2, h3, t, h4⟩ := h
  have hdrop := deleteFunction_drop f db hnd
  rw [hdrop.calls g] at h1
  split at h1
  · cases h1
  · rename_i hg
    rw [hdrop.cf, if_neg hg] at h3
    rw [hdrop.files] at h4
    exact ⟨datas, i, r', d, h1, h2, h3, t, h4⟩

theorem deleteFile_alive (x : FileName) (db : CDB B R) {g : FunName} {c : B} {y : FileName}
    (h : Alive (CDB.deleteFile x db).2 g c y) : Alive db g c y := by
  obtain ⟨datas, i, r', d, h1, h2, h3, t, h4⟩ := h
  rw [callFile_erase (db := db) x rfl] at h3
  split at h3
  · cases h3
  · rename_i hne
    simp only [CDB.deleteFile, Dict.get?_erase, if_neg hne] at h4
    exact ⟨datas, i, r', d, h1, h2, h3, t, h4⟩

theorem findCallFrom_unique {b : B} {r : R} {datas : List (B × R)} {i : Nat} (h : datas[i]? = some (b, r))
    (hd : ∀ j r', datas[j]? = some (b, r') → j = i) (k : Nat) : CDB.findCallFrom b datas k = some (k + i, r) := by
  induction datas generalizing i k with
  | nil => simp at h
  | cons q rest ih =>
    obtain ⟨b', r'⟩ := q
    rw [CDB.findCallFrom]
    split
    · rename_i hb
      subst hb
      have := hd 0 r' rfl
      subst this
      simp only [List.getElem?_cons_zero, Option.some.injEq, Prod.mk.injEq, true_and] at h
      rw [h]; rfl
    · rename_i hb
      cases i with
      | zero =>
        simp only [List.getElem?_cons_zero, Option.some.injEq, Prod.mk.injEq] at h
        exact absurd h.1.symm hb
      | succ i =>
        rw [ih (i := i) (by simpa using h) (fun j r'' hj => by have := hd (j + 1) r'' (by simpa using hj); omega) (k + 1)]
        congr 2; omega

theorem findCall_unique {db : CDB B R} {f : FunName} {b : B} {r : R} {datas : List (B × R)} {i : Nat}
    (h1 : db.functionCalls.get? f = some datas) (h2 : datas[i]? = some (b, r))
    (hd : ∀ j r', datas[j]? = some (b, r') → j = i) : CDB.findCall f b db = some ((f, i), r) := by
  unfold CDB.findCall
  rw [h1]
  simp only
  rw [findCallFrom_unique h2 hd]
  simp

theorem latest_unique {α : Type} {P : α → Prop} {l pre post pre' post' : List α} {e e' : α} (h : l = pre ++ e :: post)
    (h' : l = pre' ++ e' :: post') (he : P e) (he' : P e') (hp : ∀ a ∈ pre, ¬ P a) (hp' : ∀ a ∈ pre', ¬ P a) : e = e' := by
  induction pre generalizing l pre' with
  | nil =>
    subst h
    cases pre' with
    | nil => simp only [List.nil_append, List.cons.injEq] at h'; exact h'.1
    | cons a pre' =>
      simp only [List.nil_append, List.cons_append, List.cons.injEq] at h'
      obtain ⟨rfl, _⟩ := h'
      exact absurd he (hp' _ (List.mem_cons_self ..))
  | cons a pre ih =>
    subst h
    cases pre' with
    | nil =>
      simp only [List.nil_append, List.cons_append, List.cons.injEq] at h'
      obtain ⟨rfl, _⟩ := h'
      exact absurd he' (hp _ (List.mem_cons_self ..))
    | cons a' pre' =>
      simp only [List.cons_append, List.cons.injEq] at h'
      exact ih rfl h'.2 (fun a ha => hp a (List.mem_cons_of_mem _ ha)) (fun a ha => hp' a (List.mem_cons_of_mem _ ha))

variable {sg : Sig B R} {vers : FileName → Nat → Option Content}

/-- what the database holds about a call that it answers -/
theorem hit_alive {s : Sys B R} (hI : SysInv sg vers false s) (id : Nat) (f : FunName) (b : B) (r : R)
    (hh : (step sg s (.prepare id f b)).1 = .hit r) :
    ∃ code pre e post i, s.env.funDigest f = some code ∧ s.log = pre ++ e :: post ∧ e.fn = f ∧ e.bound = b ∧
      (∀ e' ∈ pre, ¬ (e'.fn = f ∧ e'.bound = b)) ∧
      (∀ y ∈ sg.srcs f code b, (s.env.fs.content y).isSome ∧ Alive s.db f b y) ∧
      (∀ y ∈ e.ext, (s.env.fs.content y).isSome → Alive s.db f b y) ∧
      CDB.findCall f b (step sg s (.prepare id f b)).2.db = some ((f, i), r) ∧
      findExt (step sg s (.prepare id f b)).2.db.externalSrcs (f, i) = e.ext ∧
      findExt (step sg s (.prepare id f b)).2.db.externalDsts (f, i) = e.extDsts := by
  simp only [step, stepPrepare] at hh ⊢
  cases hcode : s.env.funDigest f with
  | none => rw [hcode] at hh; simp at hh
  | some code =>
    rw [hcode] at hh
    simp only at hh ⊢
    have hno := prepare_noting s.env f b (sg.srcs f code b) s.db vers hI.db.files hI.faithful
    rcases prepare_cases s.env f b (sg.srcs f code b) s.db vers hI.db.files hI.faithful with
      ⟨e, db', hp, ht, hf⟩ | ⟨p, db', hp, ht, hf, hcf, hdig, hsrc, hd1, hd2, hd3⟩
    · rw [hp] at hh; simp at hh
    · rw [hp] at hh hno
      simp only at hh hno
      rw [hp]
      simp only
      cases hhit : hit s.env (sg.dsts f code b) (sg.returnDsts f code) p with
      | none => rw [hhit] at hh; simp at hh
      | some r' =>
        rw [hhit] at hh
        simp only [Out.hit.injEq] at hh
        subst hh
        obtain ⟨h1, h2, h3, ⟨⟨g, i⟩, h4⟩, h5⟩ := hit_some hhit
        obtain ⟨rfl, _, ⟨datas, h6, h7⟩, h8, h9, h10⟩ := hd3 g i r' h4
        obtain ⟨e, he, hb, hres, hslot, hlat⟩ := hI.db.slot g datas i b r' h6 h7
        obtain ⟨pre, post, hlog, hpre⟩ := hlat rfl
        obtain ⟨hno1, hno2⟩ := hno
        obtain ⟨hno3, hno4⟩ := hno2 p rfl
        obtain ⟨hno5, hno6⟩ := hno4 g i r' h4 h2 h3
        have halive : ∀ y, Current s.env db' y g i → Alive s.db g b y := by
          intro y hy
          obtain ⟨d, hd⟩ := hy.live
          exact ⟨datas, i, r', d, h6, h7, hno1.wane _ _ _ _ hd⟩
        refine ⟨code, pre, e, post, i, rfl, hlog, hslot.fn, hb, fun e' he' hc => (hpre e' he' hc.1).1 hc.2, ?_, ?_, ?_, ?_, ?_⟩
        · intro y hy
          obtain ⟨c, hc, _⟩ := hsrc y hy
          exact ⟨by rw [hc]; rfl, halive y (hno5 y hy)⟩
        · intro y hy hr
          exact halive y (hno6 y (by rw [h8, hslot.esrcs]; exact hy) hr)
        · exact findCall_unique (by rw [ht.calls]; exact h6) h7
            (fun j r'' hj => hI.db.distinct g datas j i b r'' r' h6 hj h7)
        · simp only [ht.esrcs]; exact hslot.esrcs
        · simp only [ht.edsts]; exact hslot.edsts

/-- A file that is alive has the content that the recorded execution saw. -/
theorem alive_view {env : Env} {db : CDB B R} {log : List (Exec B R)} (hI : Inv sg vers env.md5 true db log)
    {pre post : List (Exec B R)} {e : Exec B R} (hlog : log = pre ++ e :: post)
    (hpre : ∀ e' ∈ pre, ¬ (e'.fn = e.fn ∧ e'.bound = e.bound)) {y : FileName}
    (hy : y ∈ sg.srcs e.fn e.code e.bound ∨ (e.ok = true ∧ y ∈ e.ext)) (ha : Alive db e.fn e.bound y) :
    ∃ t c, (e.view y).content y = some c ∧ db.files.get? y = some (t, env.md5 c) := by
  obtain ⟨datas, i, r, d, h1, h2, h3, t, h4⟩ := ha
  obtain ⟨e', he', hb, hres, hslot, hlat⟩ := hI.slot _ datas i _ r h1 h2
  obtain ⟨pre', post', hlog', hpre'⟩ := hlat rfl
  have : e = e' := latest_unique (P := fun a => a.fn = e.fn ∧ a.bound = e.bound) hlog hlog' ⟨rfl, rfl⟩ ⟨hslot.fn, hb⟩ hpre
    (fun a ha hc => (hpre' a ha hc.1).1 hc.2)
  subst this
  obtain ⟨c, hc, hd⟩ := hslot.digest y d hy h3
  exact ⟨t, c, hc, by rw [h4, hd]⟩

end Verif.DB
