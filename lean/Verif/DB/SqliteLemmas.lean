import Verif.DB.SqliteBackend
import Verif.DB.CacheLemmas
/-! Lemmas about the sqlite tables: what checking files can change. -/
namespace Verif.DB
open SDB
set_option linter.unusedSectionVars false

variable {B R : Type} [DecidableEq B]

/-- The constraints of the schema (keys, foreign keys, counters), and: every recorded
(mtime, digest) is that of the version of the file with that mtime. -/
structure SWF (vers : FileName → Nat → Option Content) (md5 : Content → Digest) (db : SDB B R) :
    Prop where
  fileLe : ∀ r ∈ db.files, r.id ≤ db.lastFile
  fileId : ∀ r ∈ db.files, ∀ r' ∈ db.files, r.id = r'.id → r = r'
  fileName : ∀ r ∈ db.files, ∀ r' ∈ db.files, r.name = r'.name → r = r'
  filesOK : ∀ r ∈ db.files, ∃ c, vers r.name r.mtime = some c ∧ md5 c = r.digest
  cfFile : ∀ t ∈ db.callFiles, t.2.1 ≤ db.lastFile
  cfCall : ∀ t ∈ db.callFiles, ∃ c ∈ db.calls, c.id = t.1
  cfKey : ∀ t ∈ db.callFiles, ∀ t' ∈ db.callFiles, t.1 = t'.1 → t.2.1 = t'.2.1 → t = t'
  callLe : ∀ c ∈ db.calls, c.id ≤ db.lastCall
  callId : ∀ c ∈ db.calls, ∀ c' ∈ db.calls, c.id = c'.id → c = c'
  callFun : ∀ c ∈ db.calls, ∃ g ∈ db.functions, g.id = c.fn
  funLe : ∀ g ∈ db.functions, g.id ≤ db.lastFun
  funId : ∀ g ∈ db.functions, ∀ g' ∈ db.functions, g.id = g'.id → g = g'
  funName : ∀ g ∈ db.functions, ∀ g' ∈ db.functions, g.name = g'.name → g = g'
  esFile : ∀ t ∈ db.externalSrcs, t.2 ≤ db.lastFile
  edFile : ∀ t ∈ db.externalDsts, t.2 ≤ db.lastFile

/-- a row of `db` is still there in `db'`, up to its mtime -/
def SameRow (r : FileRow) (db : SDB B R) : Prop :=
  ∃ r' ∈ db.files, r'.id = r.id ∧ r'.name = r.name ∧ r'.digest = r.digest

/-- `db'` is `db` up to the files table and dropped references to files -/
structure STouch (db db' : SDB B R) : Prop where
  functions : db'.functions = db.functions
  calls : db'.calls = db.calls
  lastFun : db'.lastFun = db.lastFun
  lastCall : db'.lastCall = db.lastCall
  lastFile : db.lastFile ≤ db'.lastFile
  cf : ∀ t ∈ db'.callFiles, t ∈ db.callFiles
  es : ∀ t ∈ db'.externalSrcs, t ∈ db.externalSrcs
  ed : ∀ t ∈ db'.externalDsts, t ∈ db.externalDsts
  files : ∀ r ∈ db'.files, SameRow r db ∨ db.lastFile < r.id

theorem SameRow.refl {r : FileRow} {db : SDB B R} (h : r ∈ db.files) : SameRow r db :=
  ⟨r, h, rfl, rfl, rfl⟩

theorem STouch.refl (db : SDB B R) : STouch db db :=
  ⟨rfl, rfl, rfl, rfl, Nat.le_refl _, fun _ h => h, fun _ h => h, fun _ h => h,
    fun _ h => Or.inl (.refl h)⟩

theorem STouch.trans {a b c : SDB B R} (h1 : STouch a b) (h2 : STouch b c) : STouch a c where
  functions := h2.functions.trans h1.functions
  calls := h2.calls.trans h1.calls
  lastFun := h2.lastFun.trans h1.lastFun
  lastCall := h2.lastCall.trans h1.lastCall
  lastFile := Nat.le_trans h1.lastFile h2.lastFile
  cf t h := h1.cf t (h2.cf t h)
  es t h := h1.es t (h2.es t h)
  ed t h := h1.ed t (h2.ed t h)
  files r h := by
    rcases h2.files r h with ⟨r', h3, h4, h5, h6⟩ | h3
    · rcases h1.files r' h3 with ⟨q, k1, k2, k3, k4⟩ | k
      · exact Or.inl ⟨q, k1, by omega, by rw [k3, h5], by rw [k4, h6]⟩
      · exact Or.inr (by omega)
    · exact Or.inr (by have := h1.lastFile; omega)

/-- the row and everything that refers to it is kept -/
structure KeptRow (r : FileRow) (db db' : SDB B R) : Prop where
  row : SameRow r db'
  cf : ∀ t ∈ db.callFiles, t.2.1 = r.id → t ∈ db'.callFiles
  es : ∀ t ∈ db.externalSrcs, t.2 = r.id → t ∈ db'.externalSrcs
  ed : ∀ t ∈ db.externalDsts, t.2 = r.id → t ∈ db'.externalDsts

/-- the row is not about one of the files `xs`, or the file cannot be read, or it has the recorded
content -/
def InSync (env : Env) (xs : List FileName) (r : FileRow) : Prop :=
  r.name ∉ xs ∨ env.fs.content r.name = none ∨
    ∃ c, env.fs.content r.name = some c ∧ env.md5 c = r.digest

def KeptFor (env : Env) (xs : List FileName) (db db' : SDB B R) : Prop :=
  ∀ r ∈ db.files, InSync env xs r → KeptRow r db db'

theorem KeptRow.refl {r : FileRow} {db : SDB B R} (h : r ∈ db.files) : KeptRow r db db :=
  ⟨.refl h, fun _ h _ => h, fun _ h _ => h, fun _ h _ => h⟩

theorem KeptFor.refl (env : Env) (xs : List FileName) (db : SDB B R) : KeptFor env xs db db :=
  fun _ h _ => .refl h

theorem InSync.congr {env : Env} {xs : List FileName} {r r' : FileRow} (h : InSync env xs r)
    (h1 : r'.name = r.name) (h2 : r'.digest = r.digest) : InSync env xs r' := by
  unfold InSync; rw [h1, h2]; exact h

theorem InSync.mono {env : Env} {xs ys : List FileName} {r : FileRow} (h : InSync env ys r)
    (hs : ∀ x ∈ xs, x ∈ ys) : InSync env xs r := by
  rcases h with h | h | h
  · exact Or.inl fun hx => h (hs _ hx)
  · exact Or.inr (Or.inl h)
  · exact Or.inr (Or.inr h)

theorem KeptFor.trans {env : Env} {xs ys zs : List FileName} {a b c : SDB B R}
    (h1 : KeptFor env xs a b) (h2 : KeptFor env ys b c)
    (hx : ∀ x ∈ xs, x ∈ zs) (hy : ∀ x ∈ ys, x ∈ zs) : KeptFor env zs a c := by
  intro r hr hs
  have k1 := h1 r hr (hs.mono hx)
  obtain ⟨r', hr', e1, e2, e3⟩ := k1.row
  have k2 := h2 r' hr' ((hs.mono hy).congr e2 e3)
  obtain ⟨q, hq, f1, f2, f3⟩ := k2.row
  refine ⟨⟨q, hq, f1.trans e1, f2.trans e2, f3.trans e3⟩, ?_, ?_, ?_⟩
  · intro t ht hid; exact k2.cf t (k1.cf t ht hid) (hid.trans e1.symm)
  · intro t ht hid; exact k2.es t (k1.es t ht hid) (hid.trans e1.symm)
  · intro t ht hid; exact k2.ed t (k1.ed t ht hid) (hid.trans e1.symm)

theorem KeptFor.mono {env : Env} {xs ys : List FileName} {a b : SDB B R}
    (h : KeptFor env xs a b) (hx : ∀ x ∈ xs, x ∈ ys) : KeptFor env ys a b :=
  fun r hr hs => h r hr (hs.mono hx)

section
variable {vers : FileName → Nat → Option Content} {md5 : Content → Digest} {db db' : SDB B R}

/-- `save_file` with an id whose digest does not change -/
theorem saveFile_some (h : SWF vers md5 db) {r : FileRow} (hr : r ∈ db.files) {m : Nat}
    (hm : ∃ c, vers r.name m = some c ∧ md5 c = r.digest)
    (he : (SDB.saveFile (some r.id) r.name m r.digest db).2 = db') :
    SWF vers md5 db' ∧ STouch db db' ∧ (∀ env xs, KeptFor env xs db db') ∧ SameRow r db' := by
  have hmap : ∀ q ∈ db'.files, ∃ q0 ∈ db.files, q.id = q0.id ∧ q.name = q0.name ∧
      q.digest = q0.digest ∧ (q = q0 ∨ (q.mtime = m ∧ q0 = r)) := by
    subst he
    intro q hq
    simp only [SDB.saveFile, List.mem_map] at hq
    obtain ⟨q0, hq0, rfl⟩ := hq
    refine ⟨q0, hq0, ?_⟩
    split
    · rename_i hid
      have := h.fileId q0 hq0 r hr hid
      subst this
      exact ⟨rfl, rfl, rfl, Or.inr ⟨rfl, rfl⟩⟩
    · exact ⟨rfl, rfl, rfl, Or.inl rfl⟩
  have hback : ∀ q ∈ db.files, SameRow q db' := by
    subst he
    intro q hq
    refine ⟨if q.id = r.id then { q with mtime := m, digest := r.digest } else q,
      List.mem_map.2 ⟨q, hq, rfl⟩, ?_⟩
    split
    · rename_i hid
      have := h.fileId q hq r hr hid
      subst this
      exact ⟨rfl, rfl, rfl⟩
    · exact ⟨rfl, rfl, rfl⟩
  have huniq : ∀ q ∈ db'.files, ∀ q' ∈ db'.files, (q.id = q'.id ∨ q.name = q'.name) → q = q' := by
    subst he
    intro q hq q' hq' heq
    simp only [SDB.saveFile, List.mem_map] at hq hq'
    obtain ⟨q0, hq0, rfl⟩ := hq
    obtain ⟨q0', hq0', rfl⟩ := hq'
    have : q0 = q0' := by
      rcases heq with heq | heq
      · refine h.fileId q0 hq0 q0' hq0' ?_
        split at heq <;> split at heq <;> exact heq
      · refine h.fileName q0 hq0 q0' hq0' ?_
        split at heq <;> split at heq <;> exact heq
    rw [this]
  have hrest : db'.functions = db.functions ∧ db'.calls = db.calls ∧ db'.lastFun = db.lastFun ∧
      db'.lastCall = db.lastCall ∧ db'.lastFile = db.lastFile ∧ db'.callFiles = db.callFiles ∧
      db'.externalSrcs = db.externalSrcs ∧ db'.externalDsts = db.externalDsts := by
    subst he; exact ⟨rfl, rfl, rfl, rfl, rfl, rfl, rfl, rfl⟩
  clear he
  obtain ⟨e1, e2, e3, e4, e5, e6, e7, e8⟩ := hrest
  refine ⟨?_, ?_, ?_, hback r hr⟩
  · constructor
    · intro q hq
      obtain ⟨q0, h1, h2, _⟩ := hmap q hq
      rw [e5, h2]; exact h.fileLe q0 h1
    · intro q hq q' hq' heq; exact huniq q hq q' hq' (Or.inl heq)
    · intro q hq q' hq' heq; exact huniq q hq q' hq' (Or.inr heq)
    · intro q hq
      obtain ⟨q0, h1, h2, h3, h4, h5⟩ := hmap q hq
      rcases h5 with rfl | ⟨h5, rfl⟩
      · exact h.filesOK q h1
      · rw [h3, h4, h5]; exact hm
    · rw [e6, e5]; exact h.cfFile
    · rw [e6, e2]; exact h.cfCall
    · rw [e6]; exact h.cfKey
    · rw [e2, e4]; exact h.callLe
    · rw [e2]; exact h.callId
    · rw [e2, e1]; exact h.callFun
    · rw [e1, e3]; exact h.funLe
    · rw [e1]; exact h.funId
    · rw [e1]; exact h.funName
    · rw [e7, e5]; exact h.esFile
    · rw [e8, e5]; exact h.edFile
  · refine ⟨e1, e2, e3, e4, Nat.le_of_eq e5.symm, by rw [e6]; exact fun _ h => h,
      by rw [e7]; exact fun _ h => h, by rw [e8]; exact fun _ h => h, ?_⟩
    intro q hq
    obtain ⟨q0, h1, h2, h3, h4, _⟩ := hmap q hq
    exact Or.inl ⟨q0, h1, h2.symm, h3.symm, h4.symm⟩
  · intro env xs q hq _
    exact ⟨hback q hq, by rw [e6]; exact fun _ h _ => h, by rw [e7]; exact fun _ h _ => h,
      by rw [e8]; exact fun _ h _ => h⟩

/-- `delete_file` -/
theorem deleteFile_sql (h : SWF vers md5 db) (x : FileName)
    (he : (SDB.deleteFile x db).2 = db') :
    SWF vers md5 db' ∧ STouch db db' ∧ db'.lastFile = db.lastFile ∧
      (∀ r ∈ db'.files, r ∈ db.files ∧ r.name ≠ x) ∧
      (∀ r ∈ db.files, r.name ≠ x → r ∈ db'.files ∧ KeptRow r db db') := by
  unfold SDB.deleteFile at he
  cases hf : db.files.find? (fun r => r.name = x) with
  | none =>
    rw [hf] at he
    simp only at he
    subst he
    have hn : ∀ r ∈ db.files, r.name ≠ x := by
      intro r hr; simpa using List.find?_eq_none.1 hf r hr
    exact ⟨h, .refl _, rfl, fun r hr => ⟨hr, hn r hr⟩, fun r hr _ => ⟨hr, .refl hr⟩⟩
  | some r0 =>
    rw [hf] at he
    simp only at he
    have hr0 : r0 ∈ db.files := List.mem_of_find?_eq_some hf
    have hx0 : r0.name = x := by simpa using List.find?_some hf
    subst he
    refine ⟨?_, ?_, rfl, ?_, ?_⟩
    · constructor
      · intro r hr; exact h.fileLe r (List.mem_filter.1 hr).1
      · intro r hr r' hr'; exact h.fileId r (List.mem_filter.1 hr).1 r' (List.mem_filter.1 hr').1
      · intro r hr r' hr'; exact h.fileName r (List.mem_filter.1 hr).1 r' (List.mem_filter.1 hr').1
      · intro r hr; exact h.filesOK r (List.mem_filter.1 hr).1
      · intro t ht; exact h.cfFile t (List.mem_filter.1 ht).1
      · intro t ht; exact h.cfCall t (List.mem_filter.1 ht).1
      · intro t ht t' ht'; exact h.cfKey t (List.mem_filter.1 ht).1 t' (List.mem_filter.1 ht').1
      · exact h.callLe
      · exact h.callId
      · exact h.callFun
      · exact h.funLe
      · exact h.funId
      · exact h.funName
      · intro t ht; exact h.esFile t (List.mem_filter.1 ht).1
      · intro t ht; exact h.edFile t (List.mem_filter.1 ht).1
    · exact ⟨rfl, rfl, rfl, rfl, Nat.le_refl _, fun t ht => (List.mem_filter.1 ht).1,
        fun t ht => (List.mem_filter.1 ht).1, fun t ht => (List.mem_filter.1 ht).1,
        fun r hr => Or.inl (.refl (List.mem_filter.1 hr).1)⟩
    · intro r hr
      refine ⟨(List.mem_filter.1 hr).1, ?_⟩
      simpa using (List.mem_filter.1 hr).2
    · intro r hr hn
      have hmem : r ∈ db.files.filter (fun q => ¬ q.name = x) :=
        List.mem_filter.2 ⟨hr, by simpa using hn⟩
      have hid : r.id ≠ r0.id := by
        intro hid
        have := h.fileId r hr r0 hr0 hid
        subst this; exact hn hx0
      refine ⟨hmem, .refl hmem, ?_, ?_, ?_⟩
      · intro t ht hti; exact List.mem_filter.2 ⟨ht, by simpa [hti] using hid⟩
      · intro t ht hti; exact List.mem_filter.2 ⟨ht, by simpa [hti] using hid⟩
      · intro t ht hti; exact List.mem_filter.2 ⟨ht, by simpa [hti] using hid⟩

/-- `save_file` without an id, of a file that is not in the table -/
theorem saveFile_none (h : SWF vers md5 db) (x : FileName) (m : Nat) (d : Digest)
    (hx : ∀ r ∈ db.files, r.name ≠ x) (hm : ∃ c, vers x m = some c ∧ md5 c = d)
    (he : SDB.saveFile none x m d db = (fid, db')) :
    SWF vers md5 db' ∧ STouch db db' ∧ (∀ r ∈ db.files, KeptRow r db db') ∧
      ∃ r ∈ db'.files, r.id = fid ∧ r.name = x ∧ r.digest = d := by
  simp only [SDB.saveFile, Prod.mk.injEq] at he
  obtain ⟨rfl, rfl⟩ := he
  have hcase : ∀ r ∈ db.files ++ [(⟨db.lastFile + 1, x, m, d⟩ : FileRow)],
      r ∈ db.files ∨ r = ⟨db.lastFile + 1, x, m, d⟩ := by
    intro r hr; simpa using hr
  refine ⟨?_, ?_, ?_, ?_⟩
  · constructor
    · intro r hr
      rcases hcase r hr with hr | rfl
      · have := h.fileLe r hr; simp only; omega
      · exact Nat.le_refl _
    · intro r hr r' hr' heq
      rcases hcase r hr with hr | rfl <;> rcases hcase r' hr' with hr' | rfl
      · exact h.fileId r hr r' hr' heq
      · have := h.fileLe r hr; simp only at heq; omega
      · have := h.fileLe r' hr'; simp only at heq; omega
      · rfl
    · intro r hr r' hr' heq
      rcases hcase r hr with hr | rfl <;> rcases hcase r' hr' with hr' | rfl
      · exact h.fileName r hr r' hr' heq
      · exact absurd heq (hx r hr)
      · exact absurd heq.symm (hx r' hr')
      · rfl
    · intro r hr
      rcases hcase r hr with hr | rfl
      · exact h.filesOK r hr
      · exact hm
    · intro t ht; have := h.cfFile t ht; simp only; omega
    · exact h.cfCall
    · exact h.cfKey
    · exact h.callLe
    · exact h.callId
    · exact h.callFun
    · exact h.funLe
    · exact h.funId
    · exact h.funName
    · intro t ht; have := h.esFile t ht; simp only; omega
    · intro t ht; have := h.edFile t ht; simp only; omega
  · refine ⟨rfl, rfl, rfl, rfl, Nat.le_succ _, fun _ h => h, fun _ h => h, fun _ h => h, ?_⟩
    intro r hr
    rcases hcase r hr with hr | rfl
    · exact Or.inl (.refl hr)
    · exact Or.inr (Nat.lt_succ_self _)
  · intro r hr
    exact ⟨⟨r, List.mem_append_left _ hr, rfl, rfl, rfl⟩, fun _ h _ => h, fun _ h _ => h,
      fun _ h _ => h⟩
  · exact ⟨_, List.mem_append_right _ (List.mem_singleton.2 rfl), rfl, rfl, rfl⟩

end

section
variable {vers : FileName → Nat → Option Content} {env : Env} {db db' : SDB B R}

/-- What `add_file` does on the sqlite tables. -/
theorem addFile_sql {x : FileName} {out : Except Err (Bool × Nat × Digest)}
    (h : SWF vers env.md5 db) (hv : Faithful vers env.fs)
    (he : addFile (SDB.storage B R) env x db = (out, db')) :
    SWF vers env.md5 db' ∧ STouch db db' ∧ KeptFor env [x] db db' ∧
      (∀ e, out = .error e → env.fs.content x = none ∧ db' = db) ∧
      (∀ dirty fid d, out = .ok (dirty, fid, d) → ∃ c, env.fs.content x = some c ∧ d = env.md5 c ∧
        ∃ r ∈ db'.files, r.id = fid ∧ r.name = x ∧ r.digest = d) := by
  have hsame : ∀ o : Except Err (Bool × Nat × Digest), (∃ e, o = .error e) →
      env.fs.content x = none → (o, db) = (out, db') →
      SWF vers env.md5 db' ∧ STouch db db' ∧ KeptFor env [x] db db' ∧
      (∀ e, out = .error e → env.fs.content x = none ∧ db' = db) ∧
      (∀ dirty fid d, out = .ok (dirty, fid, d) → ∃ c, env.fs.content x = some c ∧ d = env.md5 c ∧
        ∃ r ∈ db'.files, r.id = fid ∧ r.name = x ∧ r.digest = d) := by
    rintro o ⟨e, rfl⟩ hc heq
    obtain ⟨rfl, rfl⟩ := Prod.mk.inj heq
    exact ⟨h, .refl _, .refl _ _ _, fun _ _ => ⟨hc, rfl⟩, fun _ _ _ h => nomatch h⟩
  unfold addFile at he
  cases hx : env.fs x with
  | none =>
    rw [hx] at he
    exact hsame _ ⟨_, rfl⟩ (by simp [FS.content, hx]) he
  | some f =>
    have hv' := hv x f hx
    rw [hx] at he
    simp only [SDB.storage, SDB.findFile] at he
    cases hk : db.files.find? (fun r => r.name = x) with
    | none =>
      rw [hk] at he
      simp only [Option.isSome_none, Bool.false_eq_true, if_false] at he
      have hn : ∀ r ∈ db.files, r.name ≠ x := by
        intro r hr; simpa using List.find?_eq_none.1 hk r hr
      cases hc : f.content with
      | none =>
        rw [hc] at he
        exact hsame _ ⟨_, rfl⟩ (by simp [FS.content, hx, hc]) he
      | some c =>
        rw [hc] at he
        simp only at he
        generalize hsv : SDB.saveFile none x f.mtime (env.md5 c) db = X at he
        obtain ⟨fid, db2⟩ := X
        simp only [Prod.mk.injEq] at he
        obtain ⟨rfl, rfl⟩ := he
        obtain ⟨k1, k2, k3, k4⟩ := saveFile_none h x f.mtime (env.md5 c) hn
          ⟨c, by rw [hv', hc], rfl⟩ hsv
        refine ⟨k1, k2, fun r hr _ => k3 r hr, fun _ h => (nomatch h), ?_⟩
        intro dirty fid' d heq
        simp only [Except.ok.injEq, Prod.mk.injEq] at heq
        obtain ⟨_, rfl, rfl⟩ := heq
        exact ⟨c, by simp [FS.content, hx, hc], rfl, k4⟩
    | some r =>
      rw [hk] at he
      simp only at he
      have hr : r ∈ db.files := List.mem_of_find?_eq_some hk
      have hrx : r.name = x := by simpa using List.find?_some hk
      obtain ⟨c0, hc0, hd0⟩ := h.filesOK r hr
      by_cases hs : f.mtime = r.mtime ∧ env.now > f.mtime + oneSecond
      · rw [if_pos hs] at he
        obtain ⟨rfl, rfl⟩ := Prod.mk.inj he
        have hc : f.content = some c0 := by rw [← hv', hs.1, ← hrx]; exact hc0
        refine ⟨h, .refl _, .refl _ _ _, fun _ h => (nomatch h), ?_⟩
        intro dirty fid d heq
        simp only [Except.ok.injEq, Prod.mk.injEq] at heq
        obtain ⟨_, rfl, rfl⟩ := heq
        exact ⟨c0, by simp [FS.content, hx, hc], hd0.symm, r, hr, rfl, hrx, rfl⟩
      · rw [if_neg hs] at he
        cases hc : f.content with
        | none =>
          rw [hc] at he
          exact hsame _ ⟨_, rfl⟩ (by simp [FS.content, hx, hc]) he
        | some c =>
          rw [hc] at he
          simp only at he
          have hcx : env.fs.content x = some c := by simp [FS.content, hx, hc]
          by_cases hd : env.md5 c = r.digest
          · rw [if_pos hd, hd, ← hrx] at he
            obtain ⟨rfl, he2⟩ := Prod.mk.inj he
            obtain ⟨k1, k2, k3, k4⟩ := saveFile_some h hr (m := f.mtime)
              ⟨c, by rw [hrx, hv', hc], hd⟩ he2
            refine ⟨k1, k2, k3 _ _, fun _ h => (nomatch h), ?_⟩
            intro dirty fid d heq
            simp only [Except.ok.injEq, Prod.mk.injEq] at heq
            obtain ⟨_, rfl, rfl⟩ := heq
            obtain ⟨r', m1, m2, m3, m4⟩ := k4
            exact ⟨c, hcx, hd.symm, r', m1, m2, m3.trans hrx, m4⟩
          · rw [if_neg hd] at he
            generalize hdl : (SDB.deleteFile x db).2 = db1 at he
            generalize hsv : SDB.saveFile none x f.mtime (env.md5 c) db1 = X at he
            obtain ⟨fid, db2⟩ := X
            simp only [Prod.mk.injEq] at he
            obtain ⟨rfl, rfl⟩ := he
            obtain ⟨k1, k2, k3, k4, k5⟩ := deleteFile_sql h x hdl
            obtain ⟨m1, m2, m3, m4⟩ := saveFile_none k1 x f.mtime (env.md5 c)
              (fun r hr => (k4 r hr).2) ⟨c, by rw [hv', hc], rfl⟩ hsv
            refine ⟨m1, k2.trans m2, ?_, fun _ h => (nomatch h), ?_⟩
            · intro q hq hsync
              have hqx : q.name ≠ x := by
                intro hqx
                rcases hsync with hs | hs | ⟨c', hs, hs'⟩
                · exact hs (by simp [hqx])
                · rw [hqx, hcx] at hs; cases hs
                · rw [hqx, hcx] at hs; cases hs
                  have := h.fileName q hq r hr (by rw [hqx, hrx])
                  subst this; exact hd hs'
              obtain ⟨n1, n2⟩ := k5 q hq hqx
              have n3 := m3 q n1
              exact ⟨n3.row, fun t ht hti => n3.cf t (n2.cf t ht hti) hti,
                fun t ht hti => n3.es t (n2.es t ht hti) hti,
                fun t ht hti => n3.ed t (n2.ed t ht hti) hti⟩
            · intro dirty fid' d heq
              simp only [Except.ok.injEq, Prod.mk.injEq] at heq
              obtain ⟨_, rfl, rfl⟩ := heq
              exact ⟨c, hcx, rfl, m4⟩

/-- the file was found to have content `c` and is recorded under `fid` -/
def Seen (env : Env) (db : SDB B R) (x : FileName) (fid : Nat) (d : Digest) : Prop :=
  ∃ c, env.fs.content x = some c ∧ d = env.md5 c ∧
    ∃ r ∈ db.files, r.id = fid ∧ r.name = x ∧ r.digest = d

theorem Seen.kept {xs : List FileName} {x : FileName} {fid : Nat} {d : Digest}
    (h : Seen env db x fid d) (hk : KeptFor env xs db db') : Seen env db' x fid d ∧
      ∀ cid, (cid, fid, d) ∈ db.callFiles → (cid, fid, d) ∈ db'.callFiles := by
  obtain ⟨c, h1, h2, r, h3, h4, h5, h6⟩ := h
  have k := hk r h3 (Or.inr (Or.inr ⟨c, by rw [h5]; exact h1, by rw [h6, h2]⟩))
  obtain ⟨r', m1, m2, m3, m4⟩ := k.row
  refine ⟨⟨c, h1, h2, r', m1, m2.trans h4, m3.trans h5, m4.trans h6⟩, ?_⟩
  intro cid hc
  exact k.cf _ hc h4.symm

theorem findCallFile_some {cid fid : Nat} {d : Digest} (h : SDB.findCallFile cid fid db = some d) :
    (cid, fid, d) ∈ db.callFiles := by
  unfold SDB.findCallFile at h
  cases hf : db.callFiles.find? (fun t => t.1 = cid ∧ t.2.1 = fid) with
  | none => rw [hf] at h; cases h
  | some t =>
    rw [hf] at h
    simp only [Option.map_some, Option.some.injEq] at h
    have h1 := List.mem_of_find?_eq_some hf
    have h2 := List.find?_some hf
    simp only [decide_eq_true_eq] at h2
    obtain ⟨a, b, c⟩ := t
    simp only at h h2
    obtain ⟨rfl, rfl⟩ := h2
    subst h
    exact h1

theorem findCallFile_none {cid fid : Nat} (h : SDB.findCallFile cid fid db = none) (d : Digest) :
    (cid, fid, d) ∉ db.callFiles := by
  unfold SDB.findCallFile at h
  cases hf : db.callFiles.find? (fun t => t.1 = cid ∧ t.2.1 = fid) with
  | none =>
    intro hm
    have := List.find?_eq_none.1 hf _ hm
    simp at this
  | some t => rw [hf] at h; cases h

/-- What `check_call_file` does on the sqlite tables. -/
theorem checkCallFile_sql {x : FileName} {cid : Option Nat} {out : Except Err (Bool × Nat × Digest)}
    (h : SWF vers env.md5 db) (hv : Faithful vers env.fs)
    (he : checkCallFile (SDB.storage B R) env cid x db = (out, db')) :
    SWF vers env.md5 db' ∧ STouch db db' ∧ KeptFor env [x] db db' ∧
      (∀ e, out = .error e → env.fs.content x = none ∧ db' = db) ∧
      (∀ dirty fid d, out = .ok (dirty, fid, d) → Seen env db' x fid d ∧
        (dirty = false → ∃ c, cid = some c ∧ (c, fid, d) ∈ db'.callFiles)) := by
  unfold checkCallFile at he
  generalize ha : addFile (SDB.storage B R) env x db = X at he
  obtain ⟨o, db1⟩ := X
  obtain ⟨k1, k2, k3, k4, k5⟩ := addFile_sql h hv ha
  cases o with
  | error e =>
    simp only [Prod.mk.injEq] at he
    obtain ⟨rfl, rfl⟩ := he
    exact ⟨k1, k2, k3, fun e' he' => k4 _ rfl, fun _ _ _ h => nomatch h⟩
  | ok t =>
    obtain ⟨dirty, fid, d⟩ := t
    have k6 := k5 dirty fid d rfl
    cases cid with
    | none =>
      simp only [Prod.mk.injEq] at he
      obtain ⟨rfl, rfl⟩ := he
      refine ⟨k1, k2, k3, fun _ h => (nomatch h), ?_⟩
      intro dirty' fid' d' heq
      simp only [Except.ok.injEq, Prod.mk.injEq] at heq
      obtain ⟨rfl, rfl, rfl⟩ := heq
      exact ⟨k6, fun h => nomatch h⟩
    | some c =>
      simp only at he
      cases hfc : (SDB.storage B R).findCallFile c fid db1 with
      | none =>
        rw [hfc] at he
        simp only [Prod.mk.injEq] at he
        obtain ⟨rfl, rfl⟩ := he
        refine ⟨k1, k2, k3, fun _ h => (nomatch h), ?_⟩
        intro dirty' fid' d' heq
        simp only [Except.ok.injEq, Prod.mk.injEq] at heq
        obtain ⟨rfl, rfl, rfl⟩ := heq
        exact ⟨k6, fun h => nomatch h⟩
      | some old =>
        rw [hfc] at he
        simp only at he
        by_cases hd : d = old
        · rw [if_pos hd] at he
          simp only [Prod.mk.injEq] at he
          obtain ⟨rfl, rfl⟩ := he
          refine ⟨k1, k2, k3, fun _ h => (nomatch h), ?_⟩
          intro dirty' fid' d' heq
          simp only [Except.ok.injEq, Prod.mk.injEq] at heq
          obtain ⟨rfl, rfl, rfl⟩ := heq
          refine ⟨k6, fun _ => ⟨c, rfl, ?_⟩⟩
          rw [hd]; exact findCallFile_some hfc
        · rw [if_neg hd] at he
          simp only [Prod.mk.injEq] at he
          obtain ⟨rfl, rfl⟩ := he
          refine ⟨k1, k2, k3, fun _ h => (nomatch h), ?_⟩
          intro dirty' fid' d' heq
          simp only [Except.ok.injEq, Prod.mk.injEq] at heq
          obtain ⟨rfl, rfl, rfl⟩ := heq
          exact ⟨k6, fun h => nomatch h⟩

/-- What `check_call_files` does on the sqlite tables. -/
theorem checkCallFiles_sql {xs : List FileName} {cid : Option Nat}
    {out : Except Err (List (Nat × FileName × Digest))}
    (h : SWF vers env.md5 db) (hv : Faithful vers env.fs)
    (he : checkCallFiles (SDB.storage B R) env cid xs db = (out, db')) :
    SWF vers env.md5 db' ∧ STouch db db' ∧ KeptFor env xs db db' ∧
      (∀ digs, out = .ok digs →
        (∀ t ∈ digs, t.2.1 ∈ xs ∧ Seen env db' t.2.1 t.1 t.2.2) ∧
        (∀ x ∈ xs, ∃ fid d, Seen env db' x fid d ∧
          ((∃ t ∈ digs, t.2.1 = x) ∨ ∃ c, cid = some c ∧ (c, fid, d) ∈ db'.callFiles))) := by
  induction xs generalizing db db' out with
  | nil =>
    simp only [checkCallFiles, Prod.mk.injEq] at he
    obtain ⟨rfl, rfl⟩ := he
    refine ⟨h, .refl _, .refl _ _ _, ?_⟩
    intro digs hd
    simp only [Except.ok.injEq] at hd
    subst hd
    exact ⟨fun _ h => (nomatch h), fun _ h => (nomatch h)⟩
  | cons x xs ih =>
    unfold checkCallFiles at he
    generalize hc : checkCallFile (SDB.storage B R) env cid x db = X at he
    obtain ⟨o, db1⟩ := X
    obtain ⟨k1, k2, k3, k4, k5⟩ := checkCallFile_sql h hv hc
    cases o with
    | error e =>
      simp only [Prod.mk.injEq] at he
      obtain ⟨rfl, rfl⟩ := he
      exact ⟨k1, k2, k3.mono (by simp), fun _ h => nomatch h⟩
    | ok t =>
      obtain ⟨dirty, fid, d⟩ := t
      simp only at he
      obtain ⟨k6, k7⟩ := k5 dirty fid d rfl
      generalize hr : checkCallFiles (SDB.storage B R) env cid xs db1 = Y at he
      obtain ⟨o2, db2⟩ := Y
      obtain ⟨m1, m2, m3, m4⟩ := ih k1 hr
      have hkept := k3.trans m3 (zs := x :: xs) (by simp) (fun y hy => by simp [hy])
      cases o2 with
      | error e =>
        simp only [Prod.mk.injEq] at he
        obtain ⟨rfl, rfl⟩ := he
        exact ⟨m1, k2.trans m2, hkept, fun _ h => nomatch h⟩
      | ok rest =>
        simp only [Prod.mk.injEq] at he
        obtain ⟨rfl, rfl⟩ := he
        refine ⟨m1, k2.trans m2, hkept, ?_⟩
        intro digs hd
        simp only [Except.ok.injEq] at hd
        obtain ⟨m5, m6⟩ := m4 rest rfl
        obtain ⟨k8, k9⟩ := k6.kept m3
        have hsub : ∀ t ∈ rest, t ∈ digs := by
          intro t ht; subst hd; split
          · exact List.mem_cons_of_mem _ ht
          · exact ht
        constructor
        · intro t ht
          have : t = (fid, x, d) ∨ t ∈ rest := by
            subst hd; split at ht
            · exact List.mem_cons.1 ht
            · exact Or.inr ht
          rcases this with rfl | ht
          · exact ⟨by simp, k8⟩
          · exact ⟨List.mem_cons_of_mem _ (m5 t ht).1, (m5 t ht).2⟩
        · intro y hy
          rcases List.mem_cons.1 hy with rfl | hy
          · refine ⟨fid, d, k8, ?_⟩
            cases dirty with
            | true => left; subst hd; exact ⟨(fid, y, d), by simp, rfl⟩
            | false =>
              right
              obtain ⟨c, hc1, hc2⟩ := k7 rfl
              exact ⟨c, hc1, k9 c hc2⟩
          · obtain ⟨fid', d', n1, n2⟩ := m6 y hy
            refine ⟨fid', d', n1, ?_⟩
            rcases n2 with ⟨t, ht, htx⟩ | n2
            · exact Or.inl ⟨t, hsub t ht, htx⟩
            · exact Or.inr n2

/-- What the loop of `check_external_files` does on the sqlite tables. -/
theorem checkExternal_sql {xs : List FileName} {cid : Nat} {out : List (Nat × FileName × Digest)}
    (h : SWF vers env.md5 db) (hv : Faithful vers env.fs)
    (he : checkExternalLoop (SDB.storage B R) env cid xs db = (out, db')) :
    SWF vers env.md5 db' ∧ STouch db db' ∧ KeptFor env xs db db' ∧
      (out = [] → ∀ x ∈ xs, ∀ c, env.fs.content x = some c →
        ∃ fid, Seen env db' x fid (env.md5 c) ∧ (cid, fid, env.md5 c) ∈ db'.callFiles) := by
  induction xs generalizing db db' out with
  | nil =>
    simp only [checkExternalLoop, Prod.mk.injEq] at he
    obtain ⟨rfl, rfl⟩ := he
    exact ⟨h, .refl _, .refl _ _ _, fun _ _ h => nomatch h⟩
  | cons x xs ih =>
    unfold checkExternalLoop at he
    generalize hc : checkCallFile (SDB.storage B R) env (some cid) x db = X at he
    obtain ⟨o, db1⟩ := X
    obtain ⟨k1, k2, k3, k4, k5⟩ := checkCallFile_sql h hv hc
    cases o with
    | error e =>
      simp only at he
      obtain ⟨m1, m2, m3, m4⟩ := ih k1 he
      refine ⟨m1, k2.trans m2, k3.trans m3 (by simp) (fun y hy => by simp [hy]), ?_⟩
      intro ho y hy c hcy
      rcases List.mem_cons.1 hy with rfl | hy
      · rw [(k4 e rfl).1] at hcy; cases hcy
      · exact m4 ho y hy c hcy
    | ok t =>
      obtain ⟨dirty, fid, d⟩ := t
      simp only at he
      obtain ⟨k6, k7⟩ := k5 dirty fid d rfl
      generalize hr : checkExternalLoop (SDB.storage B R) env cid xs db1 = Y at he
      obtain ⟨rest, db2⟩ := Y
      obtain ⟨m1, m2, m3, m4⟩ := ih k1 hr
      simp only [Prod.mk.injEq] at he
      obtain ⟨rfl, rfl⟩ := he
      obtain ⟨k8, k9⟩ := k6.kept m3
      refine ⟨m1, k2.trans m2, k3.trans m3 (by simp) (fun y hy => by simp [hy]), ?_⟩
      intro ho y hy c hcy
      cases dirty with
      | true => simp at ho
      | false =>
        simp only [Bool.false_eq_true, if_false] at ho
        rcases List.mem_cons.1 hy with rfl | hy
        · obtain ⟨c', hc1, hc2⟩ := k7 rfl
          cases hc1
          have hcc := k8
          obtain ⟨c', h1, h2, _⟩ := hcc
          rw [h1] at hcy; cases hcy
          rw [← h2]
          exact ⟨fid, k8, k9 _ hc2⟩
        · exact m4 ho y hy c hcy

/-- What the list of `check_call_file` in `save_external_files` does. -/
theorem checkAll_sql {xs : List FileName} {cid : Nat} {out : Except Err (List (Bool × Nat × Digest))}
    (h : SWF vers env.md5 db) (hv : Faithful vers env.fs)
    (he : SDB.checkAll env cid xs db = (out, db')) :
    SWF vers env.md5 db' ∧ STouch db db' ∧ KeptFor env xs db db' ∧
      (∀ ts, out = .ok ts →
        (∀ t ∈ ts, ∃ x ∈ xs, Seen env db' x t.2.1 t.2.2 ∧
          (t.1 = false → (cid, t.2.1, t.2.2) ∈ db'.callFiles)) ∧
        (∀ x ∈ xs, ∃ t ∈ ts, Seen env db' x t.2.1 t.2.2)) := by
  induction xs generalizing db db' out with
  | nil =>
    simp only [SDB.checkAll, Prod.mk.injEq] at he
    obtain ⟨rfl, rfl⟩ := he
    refine ⟨h, .refl _, .refl _ _ _, ?_⟩
    intro ts hd
    simp only [Except.ok.injEq] at hd
    subst hd
    exact ⟨fun _ h => (nomatch h), fun _ h => (nomatch h)⟩
  | cons x xs ih =>
    unfold SDB.checkAll at he
    generalize hc : checkCallFile (SDB.storage B R) env (some cid) x db = X at he
    obtain ⟨o, db1⟩ := X
    obtain ⟨k1, k2, k3, k4, k5⟩ := checkCallFile_sql h hv hc
    cases o with
    | error e =>
      simp only [Prod.mk.injEq] at he
      obtain ⟨rfl, rfl⟩ := he
      exact ⟨k1, k2, k3.mono (by simp), fun _ h => nomatch h⟩
    | ok t =>
      obtain ⟨dirty, fid, d⟩ := t
      simp only at he
      obtain ⟨k6, k7⟩ := k5 dirty fid d rfl
      generalize hr : SDB.checkAll env cid xs db1 = Y at he
      obtain ⟨o2, db2⟩ := Y
      obtain ⟨m1, m2, m3, m4⟩ := ih k1 hr
      have hkept := k3.trans m3 (zs := x :: xs) (by simp) (fun y hy => by simp [hy])
      cases o2 with
      | error e =>
        simp only [Prod.mk.injEq] at he
        obtain ⟨rfl, rfl⟩ := he
        exact ⟨m1, k2.trans m2, hkept, fun _ h => nomatch h⟩
      | ok rest =>
        simp only [Prod.mk.injEq] at he
        obtain ⟨rfl, rfl⟩ := he
        refine ⟨m1, k2.trans m2, hkept, ?_⟩
        intro ts hd
        simp only [Except.ok.injEq] at hd
        subst hd
        obtain ⟨m5, m6⟩ := m4 rest rfl
        obtain ⟨k8, k9⟩ := k6.kept m3
        constructor
        · intro t ht
          rcases List.mem_cons.1 ht with rfl | ht
          · refine ⟨x, by simp, k8, ?_⟩
            intro hd
            obtain ⟨c, hc1, hc2⟩ := k7 hd
            cases hc1
            exact k9 _ hc2
          · obtain ⟨y, hy, h1⟩ := m5 t ht
            exact ⟨y, List.mem_cons_of_mem _ hy, h1⟩
        · intro y hy
          rcases List.mem_cons.1 hy with rfl | hy
          · exact ⟨(dirty, fid, d), by simp, k8⟩
          · obtain ⟨t, ht, h1⟩ := m6 y hy
            exact ⟨t, List.mem_cons_of_mem _ ht, h1⟩

end
end Verif.DB
