import Verif.DB.SqliteBackend
import Verif.DB.CacheLemmas3
/-!
# The tables of the two engines say the same

A relation between the tables of `CacheBackend` and those of `SqliteBackend`, for databases without external files, that
`prepare` and `cache` preserve.
-/
namespace Verif.DB
namespace Engines
set_option linter.unusedSectionVars false
variable {B R : Type} [DecidableEq B]

/-- the calls of a function, oldest first -/
def rows (s : SDB B R) (i : Nat) : List (CallRow B R) := s.calls.filter fun k => k.fn = i

structure Rel (c : CDB B R) (s : SDB B R) : Prop where
  funNames : ∀ g ∈ s.functions, ∀ g' ∈ s.functions, g.name = g'.name → g = g'
  funIds : ∀ g ∈ s.functions, ∀ g' ∈ s.functions, g.id = g'.id → g = g'
  funLe : ∀ g ∈ s.functions, g.id ≤ s.lastFun
  fn : ∀ f, c.functions.get? f = (s.functions.find? (fun r => r.name = f)).map fun r => (r.digest, r.deps)
  callIds : (s.calls.map (·.id)).Nodup
  callLe : ∀ k ∈ s.calls, k.id ≤ s.lastCall
  callFn : ∀ k ∈ s.calls, ∃ g ∈ s.functions, g.id = k.fn
  calls : ∀ g ∈ s.functions, (c.functionCalls.get? g.name).getD [] = (rows s g.id).map fun k => (k.bound, k.result)
  noCalls : ∀ f, (∀ g ∈ s.functions, g.name ≠ f) → c.functionCalls.get? f = none
  fileNames : ∀ r ∈ s.files, ∀ r' ∈ s.files, r.name = r'.name → r = r'
  fileIds : ∀ r ∈ s.files, ∀ r' ∈ s.files, r.id = r'.id → r = r'
  fileLe : ∀ r ∈ s.files, r.id ≤ s.lastFile
  file : ∀ x, c.files.get? x = (s.files.find? (fun r => r.name = x)).map fun r => (r.mtime, r.digest)
  cfKeys : c.callFiles.keys.Nodup
  cf : ∀ g ∈ s.functions, ∀ i k, (rows s g.id)[i]? = some k → ∀ r ∈ s.files,
    c.callFile r.name g.name i = SDB.findCallFile k.id r.id s
  cfFile : ∀ x f i, (∀ r ∈ s.files, r.name ≠ x) → c.callFile x f i = none
  cfFun : ∀ x f i, c.callFile x f i ≠ none → ∃ g ∈ s.functions, g.name = f ∧ i < (rows s g.id).length
  refs : ∀ t ∈ s.callFiles, (∃ k ∈ s.calls, k.id = t.1) ∧ ∃ r ∈ s.files, r.id = t.2.1
  csrcs : ∀ cid, CDB.findExt c.externalSrcs cid = []
  cdsts : ∀ cid, CDB.findExt c.externalDsts cid = []
  ssrcs : s.externalSrcs = []
  sdsts : s.externalDsts = []

theorem Rel.init : Rel ({} : CDB B R) ({} : SDB B R) where
  funNames := by simp
  funIds := by simp
  funLe := by simp
  fn := by simp
  callIds := by simp
  callLe := by simp
  callFn := by simp
  calls := by simp
  noCalls := by simp
  fileNames := by simp
  fileIds := by simp
  fileLe := by simp
  file := by simp
  cfKeys := by simp [Dict.keys]
  cf := by simp
  cfFile := by simp [CDB.callFile]
  cfFun := by simp [CDB.callFile]
  refs := by simp
  csrcs := by simp [CDB.findExt]
  cdsts := by simp [CDB.findExt]
  ssrcs := rfl
  sdsts := rfl

/-- Only files were looked at: file ids are not used for another file. -/
structure FTouch (s s' : SDB B R) : Prop where
  functions : s'.functions = s.functions
  calls : s'.calls = s.calls
  last : s.lastFile ≤ s'.lastFile
  files : ∀ r ∈ s'.files, (∃ r0 ∈ s.files, r0.id = r.id ∧ r0.name = r.name) ∨ s.lastFile < r.id

theorem FTouch.refl (s : SDB B R) : FTouch s s := ⟨rfl, rfl, Nat.le_refl _, fun r hr => .inl ⟨r, hr, rfl, rfl⟩⟩

theorem FTouch.trans {a b d : SDB B R} (h1 : FTouch a b) (h2 : FTouch b d) : FTouch a d where
  functions := h2.functions.trans h1.functions
  calls := h2.calls.trans h1.calls
  last := Nat.le_trans h1.last h2.last
  files := by
    intro r hr
    rcases h2.files r hr with ⟨r0, h3, h4, h5⟩ | h3
    · rcases h1.files r0 h3 with ⟨r1, h6, h7, h8⟩ | h6
      · exact .inl ⟨r1, h6, h7.trans h4, h8.trans h5⟩
      · exact .inr (h4 ▸ h6)
    · exact .inr (Nat.lt_of_le_of_lt h1.last h3)

/-- the file id stands for the file or for none -/
def Good (s : SDB B R) (fid : Nat) (x : FileName) : Prop := fid ≤ s.lastFile ∧ ∀ r ∈ s.files, r.id = fid → r.name = x

theorem Good.touch {s s' : SDB B R} {fid : Nat} {x : FileName} (h : Good s fid x) (ht : FTouch s s') : Good s' fid x := by
  refine ⟨Nat.le_trans h.1 ht.last, fun r hr he => ?_⟩
  rcases ht.files r hr with ⟨r0, h1, h2, h3⟩ | h1
  · rw [← h3]; exact h.2 r0 h1 (h2.trans he)
  · have := h.1; omega

theorem Rel.findFile {c : CDB B R} {s : SDB B R} (h : Rel c s) {r : FileRow} (hr : r ∈ s.files) :
    s.files.find? (fun q => q.name = r.name) = some r := by
  cases hf : s.files.find? (fun q => q.name = r.name) with
  | none => have := List.find?_eq_none.1 hf r hr; simp at this
  | some q =>
    have h1 := List.find?_some hf
    rw [h.fileNames q (List.mem_of_find?_eq_some hf) r hr (by simpa using h1)]

theorem Rel.findFun {c : CDB B R} {s : SDB B R} (h : Rel c s) {g : FunRow} (hr : g ∈ s.functions) :
    s.functions.find? (fun q => q.name = g.name) = some g := by
  cases hf : s.functions.find? (fun q => q.name = g.name) with
  | none => have := List.find?_eq_none.1 hf g hr; simp at this
  | some q =>
    have h1 := List.find?_some hf
    rw [h.funNames q (List.mem_of_find?_eq_some hf) g hr (by simpa using h1)]

theorem findCallFile_filter {s : SDB B R} {cid fid : Nat} {p : Nat × Nat × Digest → Bool} {rows}
    (hr : rows = s.callFiles.filter p) (hp : ∀ t ∈ s.callFiles, t.1 = cid → t.2.1 = fid → p t = true) {s' : SDB B R}
    (hs : s'.callFiles = rows) : SDB.findCallFile cid fid s' = SDB.findCallFile cid fid s := by
  unfold SDB.findCallFile
  rw [hs, hr, List.find?_filter]
  congr 1
  generalize s.callFiles = l at hp
  induction l with
  | nil => rfl
  | cons t l ih =>
    simp only [List.find?_cons]
    rw [ih (fun t ht => hp t (List.mem_cons_of_mem _ ht))]
    by_cases h1 : t.1 = cid ∧ t.2.1 = fid
    · have := hp t List.mem_cons_self h1.1 h1.2
      simp [h1, this]
    · simp [h1]

/-! ### Files -/

theorem Rel.saveFile_some {c : CDB B R} {s : SDB B R} (h : Rel c s) {r : FileRow} (hr : r ∈ s.files) (m : Nat) (d : Digest)
    (o : Option FileName) :
    Rel (CDB.saveFile o r.name m d c).2 (SDB.saveFile (some r.id) r.name m d s).2 ∧
      FTouch s (SDB.saveFile (some r.id) r.name m d s).2 ∧
      ∃ r' ∈ (SDB.saveFile (some r.id) r.name m d s).2.files, r'.id = r.id ∧ r'.name = r.name := by
  simp only [CDB.saveFile, SDB.saveFile]
  have hmem : ∀ q ∈ s.files.map (fun q => if q.id = r.id then { q with mtime := m, digest := d } else q),
      ∃ q0 ∈ s.files, q0.id = q.id ∧ q0.name = q.name := by
    intro q hq
    obtain ⟨q0, h1, rfl⟩ := List.mem_map.1 hq
    refine ⟨q0, h1, ?_⟩
    split <;> exact ⟨rfl, rfl⟩
  have hinj : ∀ q ∈ s.files.map (fun q => if q.id = r.id then { q with mtime := m, digest := d } else q),
      ∀ q' ∈ s.files.map (fun q => if q.id = r.id then { q with mtime := m, digest := d } else q), q.id = q'.id → q = q' := by
    intro q hq q' hq' he
    obtain ⟨q0, h1, rfl⟩ := List.mem_map.1 hq
    obtain ⟨q1, h2, rfl⟩ := List.mem_map.1 hq'
    have : q0.id = q1.id := by split at he <;> split at he <;> exact he
    rw [h.fileIds q0 h1 q1 h2 this]
  refine ⟨{ h with fileNames := ?_, fileIds := hinj, fileLe := ?_, file := ?_, cf := ?_, cfFile := ?_, refs := ?_ }, ⟨rfl, rfl, Nat.le_refl _, ?_⟩, ?_⟩
  · intro q hq q' hq' he
    obtain ⟨q0, h1, h2, h3⟩ := hmem q hq
    obtain ⟨q1, h4, h5, h6⟩ := hmem q' hq'
    refine hinj q hq q' hq' ?_
    rw [← h2, ← h5, h.fileNames q0 h1 q1 h4 (by rw [h3, h6, he])]
  · intro q hq
    obtain ⟨q0, h1, h2, h3⟩ := hmem q hq
    rw [← h2]; exact h.fileLe q0 h1
  · intro x
    simp only [Dict.get?_set]
    rw [List.find?_map]
    have hcomp : ((fun q : FileRow => decide (q.name = x)) ∘ fun q => if q.id = r.id then { q with mtime := m, digest := d } else q) =
        fun q => decide (q.name = x) := by
      funext q
      simp only [Function.comp]
      split <;> rfl
    rw [hcomp]
    by_cases hx : r.name = x
    · subst hx
      rw [h.findFile hr]
      simp
    · rw [if_neg hx, h.file x]
      cases hf : s.files.find? (fun q => q.name = x) with
      | none => rfl
      | some q =>
        have h1 := List.find?_some hf
        have : q.id ≠ r.id := by
          intro he
          have := h.fileIds q (List.mem_of_find?_eq_some hf) r hr he
          subst this
          exact hx (by simpa using h1)
        simp [this]
  · intro g hg i k hk q hq
    obtain ⟨q0, h1, h2, h3⟩ := hmem q hq
    have := h.cf g hg i k hk q0 h1
    rw [h2, h3] at this
    exact this
  · intro x f i hx
    refine h.cfFile x f i fun q hq => ?_
    have := hx _ (List.mem_map_of_mem (f := fun q => if q.id = r.id then { q with mtime := m, digest := d } else q) hq)
    split at this <;> exact this
  · intro t ht
    obtain ⟨h1, q, h2, h3⟩ := h.refs t ht
    refine ⟨h1, _, List.mem_map_of_mem (f := fun q => if q.id = r.id then { q with mtime := m, digest := d } else q) h2, ?_⟩
    split <;> exact h3
  · intro q hq
    exact .inl (hmem q hq)
  · refine ⟨_, List.mem_map_of_mem (f := fun q => if q.id = r.id then { q with mtime := m, digest := d } else q) hr, ?_⟩
    simp

theorem Rel.deleteFile {c : CDB B R} {s : SDB B R} (h : Rel c s) (x : FileName) :
    Rel (CDB.deleteFile x c).2 (SDB.deleteFile x s).2 ∧ FTouch s (SDB.deleteFile x s).2 ∧
      (∀ r ∈ (SDB.deleteFile x s).2.files, r.name ≠ x) := by
  have hcf : ∀ y f i, (CDB.deleteFile x c).2.callFile y f i = if x = y then none else c.callFile y f i :=
    fun y f i => callFile_erase x rfl y f i
  have hget : ∀ y, (CDB.deleteFile x c).2.files.get? y = if x = y then none else c.files.get? y := by
    intro y; simp [CDB.deleteFile]
  cases hf : s.files.find? (fun r => r.name = x) with
  | none =>
    have hs : (SDB.deleteFile x s).2 = s := by simp [SDB.deleteFile, hf]
    have hno : ∀ r ∈ s.files, r.name ≠ x := fun r hr he => by
      have := List.find?_eq_none.1 hf r hr; simp [he] at this
    rw [hs]
    refine ⟨{ h with file := ?_, cfKeys := Dict.nodup_erase _ h.cfKeys, cf := ?_, cfFile := ?_, cfFun := ?_ }, .refl _, hno⟩
    · intro y
      rw [hget]
      split
      · rename_i he; subst he; rw [hf]; rfl
      · exact h.file y
    · intro g hg i k hk r hr
      rw [hcf, if_neg (fun he => hno r hr he.symm)]
      exact h.cf g hg i k hk r hr
    · intro y f i hy
      rw [hcf]
      split
      · rfl
      · exact h.cfFile y f i hy
    · intro y f i hy
      rw [hcf] at hy
      split at hy
      · exact absurd rfl hy
      · exact h.cfFun y f i hy
  | some r =>
    have hr := List.mem_of_find?_eq_some hf
    have hrx : r.name = x := by simpa using List.find?_some hf
    have hs : (SDB.deleteFile x s).2 = { s with
      callFiles := s.callFiles.filter (fun t => ¬ t.2.1 = r.id)
      externalSrcs := s.externalSrcs.filter (fun t => ¬ t.2 = r.id)
      externalDsts := s.externalDsts.filter (fun t => ¬ t.2 = r.id)
      files := s.files.filter (fun q => ¬ q.name = x) } := by simp [SDB.deleteFile, hf]
    rw [hs]
    have hsub : ∀ q ∈ s.files.filter (fun q => ¬ q.name = x), q ∈ s.files ∧ q.name ≠ x := by
      intro q hq
      simpa using hq
    refine ⟨{ h with
        fileNames := fun q hq q' hq' he => h.fileNames q (hsub q hq).1 q' (hsub q' hq').1 he
        fileIds := fun q hq q' hq' he => h.fileIds q (hsub q hq).1 q' (hsub q' hq').1 he
        fileLe := fun q hq => h.fileLe q (hsub q hq).1
        file := ?_, cfKeys := Dict.nodup_erase _ h.cfKeys, cf := ?_, cfFile := ?_, cfFun := ?_, refs := ?_
        ssrcs := by simp [h.ssrcs], sdsts := by simp [h.sdsts] },
      ⟨rfl, rfl, Nat.le_refl _, fun q hq => .inl ⟨q, (hsub q hq).1, rfl, rfl⟩⟩, fun q hq => (hsub q hq).2⟩
    · intro y
      rw [hget, List.find?_filter]
      split
      · rename_i he
        subst he
        rw [List.find?_eq_none.2]
        · rfl
        · intro q _
          simp
      · rename_i he
        rw [h.file y]
        congr 2
        funext q
        by_cases hq : q.name = y
        · simp [hq, Ne.symm he]
        · simp [hq]
    · intro g hg i k hk q hq
      have hq' := hsub q hq
      rw [hcf, if_neg (fun he => hq'.2 he.symm), h.cf g hg i k hk q hq'.1]
      refine (findCallFile_filter (s := s) rfl (fun t _ _ h2 => ?_) rfl).symm
      rw [h2]
      have : q.id ≠ r.id := fun he => hq'.2 (by rw [h.fileIds q hq'.1 r hr he]; exact hrx)
      simpa using this
    · intro y f i hy
      rw [hcf]
      split
      · rfl
      · rename_i he
        refine h.cfFile y f i fun q hq hqy => ?_
        exact hy q (List.mem_filter.2 ⟨hq, by simpa [hqy] using Ne.symm he⟩) hqy
    · intro y f i hy
      rw [hcf] at hy
      split at hy
      · exact absurd rfl hy
      · exact h.cfFun y f i hy
    · intro t ht
      obtain ⟨ht, hne⟩ := List.mem_filter.1 ht
      obtain ⟨h1, q, h2, h3⟩ := h.refs t ht
      refine ⟨h1, q, List.mem_filter.2 ⟨h2, ?_⟩, h3⟩
      have : q.name ≠ x := by
        intro he
        have := h.fileNames q h2 r hr (by rw [he, hrx])
        subst this
        simp [h3] at hne
      simpa using this

theorem Rel.saveFile_none {c : CDB B R} {s : SDB B R} (h : Rel c s) {x : FileName} (hx : ∀ r ∈ s.files, r.name ≠ x) (m : Nat)
    (d : Digest) (o : Option FileName) :
    Rel (CDB.saveFile o x m d c).2 (SDB.saveFile none x m d s).2 ∧ FTouch s (SDB.saveFile none x m d s).2 ∧
      ∃ r ∈ (SDB.saveFile none x m d s).2.files, r.id = s.lastFile + 1 ∧ r.name = x := by
  simp only [CDB.saveFile, SDB.saveFile]
  have hmem : ∀ q ∈ s.files ++ [⟨s.lastFile + 1, x, m, d⟩], q ∈ s.files ∨ q = ⟨s.lastFile + 1, x, m, d⟩ := by
    intro q hq; simpa using hq
  refine ⟨{ h with fileNames := ?_, fileIds := ?_, fileLe := ?_, file := ?_, cf := ?_, cfFile := ?_, refs := ?_ },
    ⟨rfl, rfl, Nat.le_succ _, ?_⟩, ⟨s.lastFile + 1, x, m, d⟩, by simp, rfl, rfl⟩
  · intro q hq q' hq' he
    rcases hmem q hq with h1 | rfl <;> rcases hmem q' hq' with h2 | rfl
    · exact h.fileNames q h1 q' h2 he
    · exact absurd he (hx q h1)
    · exact absurd he.symm (hx q' h2)
    · rfl
  · intro q hq q' hq' he
    rcases hmem q hq with h1 | rfl <;> rcases hmem q' hq' with h2 | rfl
    · exact h.fileIds q h1 q' h2 he
    · have := h.fileLe q h1; simp only at he; omega
    · have := h.fileLe q' h2; simp only at he; omega
    · rfl
  · intro q hq
    rcases hmem q hq with h1 | rfl
    · exact Nat.le_succ_of_le (h.fileLe q h1)
    · exact Nat.le_refl _
  · intro y
    simp only [Dict.get?_set, List.find?_append]
    split
    · rename_i he
      subst he
      rw [List.find?_eq_none.2 (fun r hr => by simpa using hx r hr)]
      simp
    · rename_i he
      rw [h.file y]
      cases s.files.find? (fun r => r.name = y) with
      | some q => rfl
      | none => simp [he]
  · intro g hg i k hk q hq
    rcases hmem q hq with h1 | rfl
    · exact h.cf g hg i k hk q h1
    · have h1 := h.cfFile x g.name i hx
      have h2 : SDB.findCallFile k.id (s.lastFile + 1) s = none := by
        unfold SDB.findCallFile
        rw [List.find?_eq_none.2]
        · rfl
        · intro t ht
          obtain ⟨_, r, h3, h4⟩ := h.refs t ht
          have := h.fileLe r h3
          simp only [decide_eq_true_eq]
          rintro ⟨_, h5⟩
          omega
      exact h1.trans h2.symm
  · intro y f i hy
    exact h.cfFile y f i fun q hq => hy q (by simp [hq])
  · intro t ht
    obtain ⟨h1, q, h2, h3⟩ := h.refs t ht
    exact ⟨h1, q, by simp [h2], h3⟩
  · intro q hq
    rcases hmem q hq with h1 | rfl
    · exact .inl ⟨q, h1, rfl, rfl⟩
    · exact .inr (Nat.lt_succ_self _)

/-- the outcome of looking at a file -/
def FileOut (s : SDB B R) (x : FileName) : Except Err (Bool × FileName × Digest) → Except Err (Bool × Nat × Digest) → Prop
  | .error e, .error e' => e = e'
  | .ok (d, y, g), .ok (d', fid, g') => d = d' ∧ y = x ∧ g = g' ∧ ∃ r ∈ s.files, r.id = fid ∧ r.name = x
  | _, _ => False

theorem Rel.addFile {c : CDB B R} {s : SDB B R} (h : Rel c s) (env : Env) (x : FileName) :
    Rel (addFile (CDB.storage B R) env x c).2 (addFile (SDB.storage B R) env x s).2 ∧
      FTouch s (addFile (SDB.storage B R) env x s).2 ∧
      FileOut (addFile (SDB.storage B R) env x s).2 x (addFile (CDB.storage B R) env x c).1 (addFile (SDB.storage B R) env x s).1 := by
  unfold Verif.DB.addFile
  cases hx : env.fs x with
  | none => exact ⟨h, .refl _, rfl⟩
  | some st =>
    simp only
    have hfile := h.file x
    cases hf : s.files.find? (fun r => r.name = x) with
    | none =>
      have hS : (SDB.storage B R).findFile x s = .unknown none := by simp [SDB.storage, SDB.findFile, hf]
      have hC : (CDB.storage B R).findFile x c = .unknown (some x) := by
        rw [hf] at hfile
        simp [CDB.storage, CDB.findFile, hfile]
      rw [hS, hC]
      simp only
      cases st.content with
      | none => exact ⟨h, .refl _, rfl⟩
      | some cont =>
        have hd : (SDB.deleteFile x s).2 = s := by simp [SDB.deleteFile, hf]
        have h1 := h.deleteFile x
        rw [hd] at h1
        obtain ⟨k1, k2, k3⟩ := h1.1.saveFile_none h1.2.2 st.mtime (env.md5 cont) none
        exact ⟨k1, k2, rfl, rfl, rfl, k3⟩
    | some r =>
      have hr := List.mem_of_find?_eq_some hf
      have hrx : r.name = x := by simpa using List.find?_some hf
      have hS : (SDB.storage B R).findFile x s = .known r.id r.mtime r.digest := by simp [SDB.storage, SDB.findFile, hf]
      have hC : (CDB.storage B R).findFile x c = .known x r.mtime r.digest := by
        rw [hf] at hfile
        simp [CDB.storage, CDB.findFile, hfile]
      rw [hS, hC]
      simp only
      split
      · exact ⟨h, .refl _, rfl, rfl, rfl, r, hr, rfl, hrx⟩
      · cases st.content with
        | none => exact ⟨h, .refl _, rfl⟩
        | some cont =>
          simp only
          split
          · obtain ⟨k1, k2, k3⟩ := h.saveFile_some hr st.mtime (env.md5 cont) (some x)
            rw [hrx] at k1 k2 k3
            exact ⟨k1, k2, rfl, rfl, rfl, k3⟩
          · have h1 := h.deleteFile x
            obtain ⟨k1, k2, k3⟩ := h1.1.saveFile_none h1.2.2 st.mtime (env.md5 cont) none
            exact ⟨k1, h1.2.1.trans k2, rfl, rfl, rfl, k3⟩

/-- a call is the same call in both tables -/
def SameCall (s : SDB B R) (f : FunName) (i kid : Nat) : Prop :=
  ∃ g ∈ s.functions, g.name = f ∧ ∃ k, (rows s g.id)[i]? = some k ∧ k.id = kid

/-- the call that was found, if any -/
def SameCall? (s : SDB B R) (f : FunName) : Option (FunName × Nat) → Option Nat → Prop
  | none, none => True
  | some (f', i), some kid => f' = f ∧ SameCall s f i kid
  | _, _ => False

theorem rows_touch {s s' : SDB B R} (ht : FTouch s s') (i : Nat) : rows s' i = rows s i := by unfold rows; rw [ht.calls]

theorem SameCall.touch {s s' : SDB B R} {f : FunName} {i kid : Nat} (h : SameCall s f i kid) (ht : FTouch s s') :
    SameCall s' f i kid := by
  obtain ⟨g, h1, h2, h3⟩ := h
  exact ⟨g, by rw [ht.functions]; exact h1, h2, by rw [rows_touch ht]; exact h3⟩

theorem SameCall?.touch {s s' : SDB B R} {f : FunName} {a : Option (FunName × Nat)} {b : Option Nat} (h : SameCall? s f a b)
    (ht : FTouch s s') : SameCall? s' f a b := by
  cases a <;> cases b <;> first | exact h | exact ⟨h.1, h.2.touch ht⟩

theorem Rel.checkCallFile {c : CDB B R} {s : SDB B R} (h : Rel c s) (env : Env) {f : FunName} {cc : Option (FunName × Nat)}
    {cs : Option Nat} (hc : SameCall? s f cc cs) (x : FileName) :
    Rel (checkCallFile (CDB.storage B R) env cc x c).2 (checkCallFile (SDB.storage B R) env cs x s).2 ∧
      FTouch s (checkCallFile (SDB.storage B R) env cs x s).2 ∧
      FileOut (checkCallFile (SDB.storage B R) env cs x s).2 x (checkCallFile (CDB.storage B R) env cc x c).1
        (checkCallFile (SDB.storage B R) env cs x s).1 := by
  obtain ⟨h1, h2, h3⟩ := h.addFile env x
  unfold Verif.DB.checkCallFile
  generalize Verif.DB.addFile (CDB.storage B R) env x c = X at *
  generalize Verif.DB.addFile (SDB.storage B R) env x s = Y at *
  obtain ⟨ox, c1⟩ := X
  obtain ⟨oy, s1⟩ := Y
  simp only at h1 h2 h3
  cases ox with
  | error e =>
    cases oy with
    | error e' => exact ⟨h1, h2, h3⟩
    | ok t => exact h3.elim
  | ok t =>
    obtain ⟨d, y, g⟩ := t
    cases oy with
    | error e' => exact h3.elim
    | ok t' =>
      obtain ⟨d', fid, g'⟩ := t'
      obtain ⟨rfl, rfl, rfl, r, h4, h5, h6⟩ := h3
      have hc1 := hc.touch h2
      match cc, cs, hc1 with
      | none, none, _ => exact ⟨h1, h2, rfl, rfl, rfl, r, h4, h5, h6⟩
      | some (f', i), some kid, hc1 =>
        obtain ⟨rfl, q, k1, k2, k, k3, k4⟩ := hc1
        have key : (CDB.storage B R).findCallFile (f', i) y c1 = (SDB.storage B R).findCallFile kid fid s1 := by
          have := h1.cf q k1 i k k3 r h4
          rw [k2, k4, h5, h6] at this
          exact this
        simp only
        rw [key]
        cases (SDB.storage B R).findCallFile kid fid s1 with
        | none => exact ⟨h1, h2, rfl, rfl, rfl, r, h4, h5, h6⟩
        | some old =>
          simp only
          split
          · exact ⟨h1, h2, rfl, rfl, rfl, r, h4, h5, h6⟩
          · exact ⟨h1, h2, rfl, rfl, rfl, r, h4, h5, h6⟩

/-- the same files with the same digests -/
def SameDigests (s : SDB B R) (a : List (FileName × FileName × Digest)) (b : List (Nat × FileName × Digest)) : Prop :=
  a = b.map (fun t => (t.2.1, t.2.1, t.2.2)) ∧ ∀ t ∈ b, Good s t.1 t.2.1

theorem SameDigests.touch {s s' : SDB B R} {a b} (h : SameDigests s a b) (ht : FTouch s s') : SameDigests s' a b :=
  ⟨h.1, fun t hb => (h.2 t hb).touch ht⟩

/-- the outcome of looking at the files of a call -/
def FilesOut (s : SDB B R) :
    Except Err (List (FileName × FileName × Digest)) → Except Err (List (Nat × FileName × Digest)) → Prop
  | .error e, .error e' => e = e'
  | .ok a, .ok b => SameDigests s a b
  | _, _ => False

theorem Rel.checkCallFiles {c : CDB B R} {s : SDB B R} (h : Rel c s) (env : Env) {f : FunName} {cc : Option (FunName × Nat)}
    {cs : Option Nat} (hc : SameCall? s f cc cs) (xs : List FileName) :
    Rel (checkCallFiles (CDB.storage B R) env cc xs c).2 (checkCallFiles (SDB.storage B R) env cs xs s).2 ∧
      FTouch s (checkCallFiles (SDB.storage B R) env cs xs s).2 ∧
      FilesOut (checkCallFiles (SDB.storage B R) env cs xs s).2 (checkCallFiles (CDB.storage B R) env cc xs c).1
        (checkCallFiles (SDB.storage B R) env cs xs s).1 := by
  induction xs generalizing c s with
  | nil => exact ⟨h, .refl _, rfl, by simp⟩
  | cons x xs ih =>
    obtain ⟨h1, h2, h3⟩ := h.checkCallFile env hc x
    simp only [Verif.DB.checkCallFiles]
    generalize Verif.DB.checkCallFile (CDB.storage B R) env cc x c = X at *
    generalize Verif.DB.checkCallFile (SDB.storage B R) env cs x s = Y at *
    obtain ⟨ox, c1⟩ := X
    obtain ⟨oy, s1⟩ := Y
    simp only at h1 h2 h3
    match ox, oy, h3 with
    | .error e, .error e', h3 => exact ⟨h1, h2, h3⟩
    | .ok (d, y, g), .ok (d', fid, g'), h3 =>
      obtain ⟨rfl, rfl, rfl, r, h4, h5, h6⟩ := h3
      obtain ⟨k1, k2, k3⟩ := ih h1 (hc.touch h2)
      simp only
      generalize Verif.DB.checkCallFiles (CDB.storage B R) env cc xs c1 = X at *
      generalize Verif.DB.checkCallFiles (SDB.storage B R) env cs xs s1 = Y at *
      obtain ⟨ox, c2⟩ := X
      obtain ⟨oy, s2⟩ := Y
      simp only at k1 k2 k3
      match ox, oy, k3 with
      | .error e, .error e', k3 => exact ⟨k1, h2.trans k2, k3⟩
      | .ok a, .ok b, k3 =>
        refine ⟨k1, h2.trans k2, ?_⟩
        simp only [FilesOut]
        have hgood : Good s1 fid y := by
          refine ⟨by rw [← h5]; exact h1.fileLe r h4, fun r' hr' he => ?_⟩
          rw [h1.fileIds r' hr' r h4 (he.trans h5.symm)]; exact h6
        cases d with
        | false => exact k3
        | true =>
          refine ⟨by simp [k3.1], ?_⟩
          intro t ht
          rcases List.mem_cons.1 ht with rfl | ht
          · exact hgood.touch k2
          · exact k3.2 t ht

/-! ### Functions and calls -/

theorem anyDirty_same {I J : Type} {p : FunName → Except Err (Bool × Option I)} {q : FunName → Except Err (Bool × Option J)}
    (h : ∀ f, (∃ e, p f = .error e ∧ q f = .error e) ∨ ∃ d i j, p f = .ok (d, i) ∧ q f = .ok (d, j)) (ds : List FunName) :
    anyDirty p ds = anyDirty q ds := by
  induction ds with
  | nil => rfl
  | cons f ds ih =>
    unfold anyDirty
    rcases h f with ⟨e, h1, h2⟩ | ⟨d, i, j, h1, h2⟩
    · rw [h1, h2]
    · rw [h1, h2]
      cases d with
      | true => rfl
      | false => exact ih

theorem Rel.checkFunction {c : CDB B R} {s : SDB B R} (h : Rel c s) (env : Env) (n : Nat) (f : FunName) :
    (∃ e, checkFunction (CDB.storage B R) env c n f = .error e ∧ checkFunction (SDB.storage B R) env s n f = .error e) ∨
    ∃ d, checkFunction (CDB.storage B R) env c n f = .ok (d, (s.functions.find? (fun r => r.name = f)).map fun _ => f) ∧
      checkFunction (SDB.storage B R) env s n f = .ok (d, (s.functions.find? (fun r => r.name = f)).map (·.id)) ∧
      ((s.functions.find? (fun r => r.name = f)) = none → d = true) := by
  induction n generalizing f with
  | zero => exact .inl ⟨_, rfl, rfl⟩
  | succ n ih =>
    unfold Verif.DB.checkFunction
    cases env.funDigest f with
    | none => exact .inl ⟨_, rfl, rfl⟩
    | some dig =>
      have hC : (CDB.storage B R).findFunction f c = (s.functions.find? (fun r => r.name = f)).map fun r => (f, r.digest, r.deps) := by
        simp only [CDB.storage, CDB.findFunction, h.fn f, Option.map_map]
        rfl
      have hS : (SDB.storage B R).findFunction f s = (s.functions.find? (fun r => r.name = f)).map fun r => (r.id, r.digest, r.deps) := rfl
      simp only
      rw [hC, hS]
      cases s.functions.find? (fun r => r.name = f) with
      | none => exact .inr ⟨true, rfl, rfl, fun _ => rfl⟩
      | some r =>
        simp only [Option.map_some]
        split
        · exact .inr ⟨true, rfl, rfl, (nomatch ·)⟩
        · have hany := anyDirty_same (p := Verif.DB.checkFunction (CDB.storage B R) env c n)
            (q := Verif.DB.checkFunction (SDB.storage B R) env s n)
            (fun g => (ih g).imp id fun ⟨d, h1, h2, _⟩ => ⟨d, _, _, h1, h2⟩) (r.deps.filter fun d => decide (d ≠ f))
          rw [hany]
          cases anyDirty (Verif.DB.checkFunction (SDB.storage B R) env s n) (r.deps.filter fun d => decide (d ≠ f)) with
          | error e => exact .inl ⟨_, rfl, rfl⟩
          | ok b => exact .inr ⟨b, rfl, rfl, (nomatch ·)⟩

theorem findCallFrom_rows (b : B) (l : List (CallRow B R)) (n : Nat) :
    (l.find? (fun k => b = k.bound) = none ∧ CDB.findCallFrom b (l.map fun k => (k.bound, k.result)) n = none) ∨
    ∃ i k, l[i]? = some k ∧ l.find? (fun k => b = k.bound) = some k ∧
      CDB.findCallFrom b (l.map fun k => (k.bound, k.result)) n = some (n + i, k.result) := by
  induction l generalizing n with
  | nil => exact .inl ⟨rfl, rfl⟩
  | cons k l ih =>
    simp only [List.map_cons, CDB.findCallFrom, List.find?_cons]
    by_cases hb : b = k.bound
    · exact .inr ⟨0, k, rfl, by simp [hb], by simp [hb]⟩
    · simp only [hb, if_false, decide_false]
      rcases ih (n + 1) with ⟨h1, h2⟩ | ⟨i, k', h1, h2, h3⟩
      · exact .inl ⟨h1, h2⟩
      · exact .inr ⟨i + 1, k', by simpa using h1, h2, by rw [h3]; congr 2; omega⟩

/-- the call that was found: the same one with the same result -/
def SameFound (s : SDB B R) (f : FunName) (b : B) : Option ((FunName × Nat) × R) → Option (Nat × R) → Prop
  | none, none => True
  | some ((f', i), r), some (kid, r') => f' = f ∧ r = r' ∧
    ∃ g ∈ s.functions, g.name = f ∧ ∃ k, (rows s g.id)[i]? = some k ∧ k.id = kid ∧ k.bound = b
  | _, _ => False

theorem SameFound.call? {s : SDB B R} {f : FunName} {b : B} {a : Option ((FunName × Nat) × R)} {d : Option (Nat × R)}
    (h : SameFound s f b a d) : SameCall? s f (a.map Prod.fst) (d.map Prod.fst) := by
  match a, d, h with
  | none, none, _ => trivial
  | some ((f', i), r), some (kid, r'), ⟨h1, _, g, h2, h3, k, h4, h5, _⟩ => exact ⟨h1, g, h2, h3, k, h4, h5⟩

theorem SameFound.touch {s s' : SDB B R} {f : FunName} {b : B} {a : Option ((FunName × Nat) × R)} {d : Option (Nat × R)}
    (h : SameFound s f b a d) (ht : FTouch s s') : SameFound s' f b a d := by
  match a, d, h with
  | none, none, _ => trivial
  | some ((f', i), r), some (kid, r'), ⟨h1, h6, g, h2, h3, h4⟩ =>
    exact ⟨h1, h6, g, by rw [ht.functions]; exact h2, h3, by rw [rows_touch ht]; exact h4⟩

theorem Rel.findCall {c : CDB B R} {s : SDB B R} (h : Rel c s) {g : FunRow} (hg : g ∈ s.functions) (b : B) :
    SameFound s g.name b (CDB.findCall g.name b c) (SDB.findCall g.id b s) := by
  have h1 := h.calls g hg
  have hS : SDB.findCall g.id b s = ((rows s g.id).find? (fun k => b = k.bound)).map fun k => (k.id, k.result) := by
    unfold SDB.findCall rows
    rw [List.find?_filter]
    congr 2
    funext k
    simp
  have hC : CDB.findCall g.name b c =
      (CDB.findCallFrom b ((rows s g.id).map fun k => (k.bound, k.result)) 0).map fun p => ((g.name, p.1), p.2) := by
    rw [← h1]
    unfold CDB.findCall
    cases c.functionCalls.get? g.name with
    | none => rfl
    | some l => rfl
  rw [hS, hC]
  rcases findCallFrom_rows b (rows s g.id) 0 with ⟨h2, h3⟩ | ⟨i, k, h2, h3, h4⟩
  · rw [h2, h3]; trivial
  · rw [h3, h4]
    refine ⟨rfl, rfl, g, hg, rfl, k, by simpa using h2, rfl, ?_⟩
    have := List.find?_some h3
    simp at this
    exact this.symm

/-! ### prepare -/

/-- what a call keeps between its two phases is the same -/
structure SamePrep (s : SDB B R) (f : FunName) (b : B) (p : Prep FunName (FunName × Nat) FileName R) (q : Prep Nat Nat Nat R) :
    Prop where
  dirty : p.funDirty = q.funDirty
  isSome : p.funId.isSome = q.funId.isSome
  clean : q.funDirty = false → p.funId = some f ∧ ∃ g ∈ s.functions, g.name = f ∧ q.funId = some g.id
  dirtyFound : q.funDirty = true → p.found = none ∧ q.found = none
  found : SameFound s f b p.found q.found
  digests : SameDigests s p.callFileDigests q.callFileDigests
  cd : p.externalDsts = []
  sd : q.externalDsts = []
  ce : p.externalDigests = []
  se : q.externalDigests = []

theorem SamePrep.touch {s s' : SDB B R} {f : FunName} {b : B} {p : Prep FunName (FunName × Nat) FileName R} {q : Prep Nat Nat Nat R}
    (h : SamePrep s f b p q) (ht : FTouch s s') : SamePrep s' f b p q :=
  { h with
    clean := fun hd => by rw [ht.functions]; exact h.clean hd
    found := h.found.touch ht
    digests := h.digests.touch ht }

def PrepOut (s : SDB B R) (f : FunName) (b : B) :
    Except Err (Prep FunName (FunName × Nat) FileName R) → Except Err (Prep Nat Nat Nat R) → Prop
  | .error e, .error e' => e = e'
  | .ok p, .ok q => SamePrep s f b p q
  | _, _ => False

theorem Rel.prepare {c : CDB B R} {s : SDB B R} (h : Rel c s) (env : Env) (f : FunName) (b : B) (srcs : List FileName) :
    Rel (prepare (CDB.storage B R) env f b srcs c).2 (prepare (SDB.storage B R) env f b srcs s).2 ∧
      FTouch s (prepare (SDB.storage B R) env f b srcs s).2 ∧
      PrepOut (prepare (SDB.storage B R) env f b srcs s).2 f b (prepare (CDB.storage B R) env f b srcs c).1
        (prepare (SDB.storage B R) env f b srcs s).1 := by
  unfold Verif.DB.prepare
  rcases h.checkFunction env env.recursionLimit f with ⟨e, h1, h2⟩ | ⟨d, h1, h2, hn⟩
  · rw [h1, h2]
    exact ⟨h, .refl _, rfl⟩
  · rw [h1, h2]
    simp only
    generalize hrow : s.functions.find? (fun r => r.name = f) = row at hn
    have hfound : SameFound s f b (lookupCall (CDB.storage B R) d (row.map fun _ => f) b c)
        (lookupCall (SDB.storage B R) d (row.map (·.id)) b s) ∧
        (d = true → lookupCall (CDB.storage B R) d (row.map fun _ => f) b c = none ∧
          lookupCall (SDB.storage B R) d (row.map (·.id)) b s = none) := by
      cases d with
      | true => exact ⟨trivial, fun _ => ⟨rfl, rfl⟩⟩
      | false =>
        refine ⟨?_, (nomatch ·)⟩
        cases row with
        | none => exact absurd (hn rfl) (by simp)
        | some g =>
          have hg := List.mem_of_find?_eq_some hrow
          have hgn : g.name = f := by simpa using List.find?_some hrow
          subst hgn
          exact h.findCall hg b
    obtain ⟨hfound, hdf⟩ := hfound
    have hclean : d = false → (row.map fun _ => f) = some f ∧ ∃ g ∈ s.functions, g.name = f ∧ row.map (·.id) = some g.id := by
      intro hd
      cases row with
      | none => rw [hn rfl] at hd; cases hd
      | some g =>
        exact ⟨rfl, g, List.mem_of_find?_eq_some hrow, by simpa using List.find?_some hrow, rfl⟩
    have hsome : (row.map fun _ => f).isSome = (row.map (·.id)).isSome := by cases row <;> rfl
    generalize lookupCall (CDB.storage B R) d (row.map fun _ => f) b c = fc at *
    generalize lookupCall (SDB.storage B R) d (row.map (·.id)) b s = fs at *
    generalize (row.map fun _ => f) = ic at *
    generalize row.map (·.id) = is at *
    obtain ⟨k1, k2, k3⟩ := h.checkCallFiles env hfound.call? srcs
    generalize Verif.DB.checkCallFiles (CDB.storage B R) env (fc.map Prod.fst) srcs c = X at *
    generalize Verif.DB.checkCallFiles (SDB.storage B R) env (fs.map Prod.fst) srcs s = Y at *
    obtain ⟨ox, c1⟩ := X
    obtain ⟨oy, s1⟩ := Y
    simp only at k1 k2 k3
    match ox, oy, k3 with
    | .error e, .error e', k3 => exact ⟨k1, k2, k3⟩
    | .ok a, .ok b', k3 =>
      have hclean' : d = false → ic = some f ∧ ∃ g ∈ s1.functions, g.name = f ∧ is = some g.id := by
        rw [k2.functions]; exact hclean
      match fc, fs, hfound with
      | none, none, _ =>
        exact ⟨k1, k2, ⟨rfl, hsome, hclean', fun _ => ⟨rfl, rfl⟩, trivial, k3, rfl, rfl, rfl, rfl⟩⟩
      | some ((f', i), r), some (kid, r'), hfound =>
        have e1 : (CDB.storage B R).findExternalSrcs (f', i) c1 = [] := k1.csrcs _
        have e2 : (CDB.storage B R).findExternalDsts (f', i) c1 = [] := k1.cdsts _
        have e3 : (SDB.storage B R).findExternalSrcs kid s1 = [] := by simp [SDB.storage, SDB.findExternal, k1.ssrcs]
        have e4 : (SDB.storage B R).findExternalDsts kid s1 = [] := by simp [SDB.storage, SDB.findExternal, k1.sdsts]
        simp only [Option.map_some, e1, e2, e3, e4, checkExternalLoop]
        exact ⟨k1, k2, ⟨rfl, hsome, hclean', fun hd => absurd (hdf hd).1 (by simp), hfound.touch k2, k3, rfl, rfl, rfl, rfl⟩⟩

theorem SamePrep.hit {s : SDB B R} {f : FunName} {b : B} {p : Prep FunName (FunName × Nat) FileName R} {q : Prep Nat Nat Nat R}
    (h : SamePrep s f b p q) (env : Env) (dsts : List FileName) (ret : R → List FileName) :
    hit env dsts ret p = hit env dsts ret q := by
  unfold Verif.DB.hit
  have h1 : p.callFileDigests.isEmpty = q.callFileDigests.isEmpty := by rw [h.digests.1]; simp
  have h2 := h.found
  generalize p.found = a at h2
  generalize q.found = d at h2
  match a, d, h2 with
  | none, none, _ => rfl
  | some ((f', i), r), some (kid, r'), h2 =>
    obtain ⟨_, rfl, _⟩ := h2
    simp only [h.dirty, h1, h.ce, h.se, h.cd, h.sd, List.isEmpty_nil]

end Engines
end Verif.DB
