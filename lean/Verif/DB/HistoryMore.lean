import Verif.DB.HitLemmas
/-! Two more invariants of histories: what is recorded about functions, and that nothing is left
in the tables about functions that are not recorded. -/
namespace Verif.DB
open CDB
set_option linter.unusedSectionVars false

variable {B R : Type} [DecidableEq B] {sg : Sig B R} {vers : FileName → Nat → Option Content}

/-- the record of a function is that of its last execution that found it dirty -/
def FInv (db : CDB B R) (log : List (Exec B R)) : Prop :=
  ∀ f d deps, db.functions.get? f = some (d, deps) → ∃ pre e post, log = pre ++ e :: post ∧
    e.fn = f ∧ e.dirty = true ∧ e.deps = deps ∧ e.code = d ∧
    ∀ e' ∈ pre, e'.fn = f → e'.dirty = false ∧ e'.code = d

theorem FInv.completed {db db' : CDB B R} {log : List (Exec B R)} {p : Pending B R} {e : Exec B R}
    (h : FInv db log) {deps : List FunName} (hfn : e.fn = p.fn) (hdirty : e.dirty = p.prep.funDirty)
    (hdeps : e.deps = deps) (hcode : e.code = p.code)
    (hc : Completed p.fn p.code p.bound p.prep.funDirty p.prep.funId.isSome deps db db') : FInv db' (e :: log) := by
  intro f d ds hf
  by_cases hfp : f = p.fn
  · subst hfp
    cases hd : p.prep.funDirty with
    | true =>
      rw [hc.fun_dirty hd] at hf; cases hf
      exact ⟨[], e, log, rfl, hfn, by rw [hdirty, hd], hdeps, hcode, by simp⟩
    | false =>
      have hcode' : d = p.code := by
        obtain ⟨ds', h1⟩ := hc.fun_eq
        rw [h1] at hf; cases hf; rfl
      rw [hc.fun_clean hd] at hf
      obtain ⟨pre, e0, post, h1, h2, h3, h4, h5, h6⟩ := h _ d ds hf
      refine ⟨e :: pre, e0, post, by rw [h1]; rfl, h2, h3, h4, h5, ?_⟩
      intro e' he' hfn'
      rw [List.mem_cons] at he'
      rcases he' with rfl | he'
      · exact ⟨by rw [hdirty, hd], by rw [hcode, hcode']⟩
      · exact h6 e' he' hfn'
  · rw [hc.fun_ne f hfp] at hf
    obtain ⟨pre, e0, post, h1, h2, h3, h4, h5, h6⟩ := h f d ds hf
    refine ⟨e :: pre, e0, post, by rw [h1]; rfl, h2, h3, h4, h5, ?_⟩
    intro e' he' hfn'
    rw [List.mem_cons] at he'
    rcases he' with rfl | he'
    · rw [hfn] at hfn'; exact absurd hfn'.symm hfp
    · exact h6 e' he' hfn'

theorem reach_finv {s : Sys B R} (h : Reach sg vers false s) : FInv s.db s.log := by
  induction h with
  | init env henv => intro f d deps hf; simp [Sys.init] at hf
  | step ev hs ha hc ih =>
    rename_i s
    have hI := reach_inv hs
    cases ev with
    | prepare id f b =>
      simp only [step, stepPrepare]
      cases hcode : s.env.funDigest f with
      | none => exact ih
      | some code =>
        simp only
        rcases prepare_cases s.env f b (sg.srcs f code b) s.db vers hI.db.files hI.faithful with
          ⟨e, db', hp, ht, hf⟩ | ⟨p, db', hp, ht, hf, _⟩
        · rw [hp]; intro g; simp only; rw [ht.functions]; exact ih g
        · rw [hp]
          simp only
          split
          · intro g; simp only; rw [ht.functions]; exact ih g
          · intro g; simp only; rw [ht.functions]; exact ih g
    | complete id r deps ext extDsts =>
      simp only [step, stepComplete]
      cases hp : s.inflight.get? id with
      | none => exact ih
      | some p =>
        simp only
        have hal : p.prep.found.isSome → ¬ DirtySince p s.log := by
          rintro hf ⟨e, he, h1, h2⟩
          have := ha p hp hf e he h1
          rw [h2] at this; cases this
        obtain ⟨ok, _, rfl, h1, h2, h3, _⟩ := complete_inv hI.db (hI.pending id p hp) hI.faithful
          hal r deps ext extDsts
        split
        · rename_i err db1 heq
          have : db1 = ((Except.error err, db1) : Except Err Unit × CDB B R).2 := rfl
          rw [this, ← heq]
          exact FInv.completed (p := p) ih rfl rfl rfl rfl h3
        · rename_i db1 heq
          have : db1 = ((Except.ok (), db1) : Except Err Unit × CDB B R).2 := rfl
          rw [this, ← heq]
          exact FInv.completed (p := p) ih rfl rfl rfl rfl h3
    | fail id => exact ih
    | edit x st => exact ih
    | tick n => exact ih
    | restart ds => exact ih
    | crash ds => exact absurd (hc rfl) (by simp)
    | deleteFunction f =>
      simp only [step]
      split
      · intro g d deps hg
        simp only [CDB.deleteFunction, Dict.get?_erase] at hg
        split at hg
        · cases hg
        · exact ih g d deps hg
      · exact ih
    | deleteFile x =>
      simp only [step]
      split
      · exact ih
      · exact ih

/-- nothing is stored about a function that is not recorded -/
structure Tidy (db : CDB B R) : Prop where
  esrcs : ∀ f, (db.externalSrcs.get? f).isSome → (db.functions.get? f).isSome
  edsts : ∀ f, (db.externalDsts.get? f).isSome → (db.functions.get? f).isSome
  cf : ∀ q ∈ db.callFiles, q.2 ≠ [] ∧ ∀ t ∈ q.2, (db.functions.get? t.1).isSome

theorem Dict.mem_set {K V : Type} [DecidableEq K] {d : Dict K V} {k : K} {v : V} {q : K × V}
    (h : q ∈ d.set k v) : q = (k, v) ∨ q ∈ d := by
  induction d with
  | nil => simp [Dict.set] at h; exact Or.inl h
  | cons p d ih =>
    obtain ⟨k', v'⟩ := p
    simp only [Dict.set] at h
    split at h
    · rw [List.mem_cons] at h
      rcases h with h | h
      · exact Or.inl h
      · exact Or.inr (List.mem_cons_of_mem _ h)
    · rw [List.mem_cons] at h
      rcases h with h | h
      · exact Or.inr (by rw [h]; exact List.mem_cons_self ..)
      · rcases ih h with h | h
        · exact Or.inl h
        · exact Or.inr (List.mem_cons_of_mem _ h)

theorem Dict.set_ne_nil {K V : Type} [DecidableEq K] (d : Dict K V) (k : K) (v : V) :
    d.set k v ≠ [] := by
  cases d with
  | nil => simp [Dict.set]
  | cons p d => obtain ⟨k', v'⟩ := p; simp only [Dict.set]; split <;> simp

theorem Tidy.deleteFile {db : CDB B R} (h : Tidy db) (x : FileName) :
    Tidy (CDB.deleteFile x db).2 :=
  ⟨h.esrcs, h.edsts, fun q hq => h.cf q (List.mem_filter.1 hq).1⟩

theorem Tidy.saveFile {db : CDB B R} (h : Tidy db) (i : Option FileName) (x : FileName) (m : Nat)
    (d : Digest) : Tidy (CDB.saveFile i x m d db).2 := ⟨h.esrcs, h.edsts, h.cf⟩

theorem Tidy.addFile {db : CDB B R} (h : Tidy db) (env : Env) (x : FileName) :
    Tidy (addFile (storage B R) env x db).2 := by
  unfold Verif.DB.addFile
  simp only [storage, CDB.findFile]
  cases env.fs x with
  | none => exact h
  | some f =>
    simp only
    cases db.files.get? x with
    | none =>
      simp only
      cases f.content with
      | none => exact h
      | some c => exact (h.deleteFile x).saveFile none ..
    | some md =>
      simp only
      split
      · exact h
      · cases f.content with
        | none => exact h
        | some c =>
          simp only
          split
          · exact h.saveFile none ..
          · exact (h.deleteFile x).saveFile none ..

theorem Tidy.checkCallFile {db : CDB B R} (h : Tidy db) (env : Env) (cid : Option (FunName × Nat))
    (x : FileName) : Tidy (checkCallFile (storage B R) env cid x db).2 := by
  unfold Verif.DB.checkCallFile
  have h1 := h.addFile env x
  generalize Verif.DB.addFile (storage B R) env x db = X at h1
  obtain ⟨y, db1⟩ := X
  cases y with
  | error e => exact h1
  | ok t =>
    obtain ⟨a, b, c⟩ := t
    simp only
    cases cid with
    | none => exact h1
    | some c' =>
      simp only
      split
      · split <;> exact h1
      · exact h1

theorem Tidy.checkCallFiles (env : Env) (cid : Option (FunName × Nat)) (xs : List FileName)
    {db : CDB B R} (h : Tidy db) : Tidy (checkCallFiles (storage B R) env cid xs db).2 := by
  induction xs generalizing db with
  | nil => exact h
  | cons x xs ih =>
    unfold Verif.DB.checkCallFiles
    have h1 := h.checkCallFile env cid x
    generalize Verif.DB.checkCallFile (storage B R) env cid x db = X at h1
    obtain ⟨y, db1⟩ := X
    cases y with
    | error e => exact h1
    | ok t =>
      obtain ⟨a, b, c⟩ := t
      simp only
      have h2 := ih h1
      generalize Verif.DB.checkCallFiles (storage B R) env cid xs db1 = Y at h2
      obtain ⟨z, db2⟩ := Y
      cases z <;> exact h2

theorem Tidy.checkExternal (env : Env) (cid : FunName × Nat) (xs : List FileName)
    {db : CDB B R} (h : Tidy db) : Tidy (checkExternalLoop (storage B R) env cid xs db).2 := by
  induction xs generalizing db with
  | nil => exact h
  | cons x xs ih =>
    unfold checkExternalLoop
    have h1 := h.checkCallFile env (some cid) x
    generalize Verif.DB.checkCallFile (storage B R) env (some cid) x db = X at h1
    obtain ⟨y, db1⟩ := X
    cases y with
    | error e => exact ih h1
    | ok t => obtain ⟨a, b, c⟩ := t; exact ih h1

theorem Tidy.prepare (env : Env) (f : FunName) (b : B) (srcs : List FileName) {db : CDB B R}
    (h : Tidy db) : Tidy (prepare (storage B R) env f b srcs db).2 := by
  unfold Verif.DB.prepare
  cases checkFunction (storage B R) env db env.recursionLimit f with
  | error e => exact h
  | ok q =>
    obtain ⟨dirty, fid⟩ := q
    simp only
    generalize lookupCall (storage B R) dirty fid b db = found
    have h1 := Tidy.checkCallFiles env (found.map Prod.fst) srcs h
    generalize Verif.DB.checkCallFiles (storage B R) env (found.map Prod.fst) srcs db = X at h1
    obtain ⟨y, db1⟩ := X
    cases y with
    | error e => exact h1
    | ok L =>
      simp only
      cases found with
      | none => exact h1
      | some c => exact Tidy.checkExternal env _ _ h1

theorem Tidy.saveCallFile {db : CDB B R} (h : Tidy db) (c : FunName × Nat) (x : FileName)
    (d : Digest) (hf : (db.functions.get? c.1).isSome) : Tidy (CDB.saveCallFile c x d db).2 := by
  refine ⟨h.esrcs, h.edsts, ?_⟩
  intro q hq
  simp only [CDB.saveCallFile] at hq ⊢
  rcases Dict.mem_set hq with hq | hq
  · subst hq
    refine ⟨Dict.set_ne_nil _ _ _, ?_⟩
    intro t ht
    rcases Dict.mem_set ht with ht | ht
    · subst ht; exact hf
    · cases hm : db.callFiles.get? x with
      | none => rw [hm] at ht; simp at ht
      | some m =>
        rw [hm] at ht
        exact (h.cf (x, m) (Dict.mem_of_get? hm)).2 t ht
  · exact h.cf q hq

theorem Tidy.saveCallFiles (c : FunName × Nat) (L : List (FileName × FileName × Digest))
    {db : CDB B R} (h : Tidy db) (hf : (db.functions.get? c.1).isSome) :
    Tidy (saveCallFiles (storage B R) c L db).2 ∧
      (saveCallFiles (storage B R) c L db).2.functions = db.functions := by
  induction L generalizing db with
  | nil => exact ⟨h, rfl⟩
  | cons t L ih =>
    obtain ⟨a, b, d⟩ := t
    exact ih (h.saveCallFile c a d hf) hf

theorem Tidy.addAll (env : Env) (xs : List FileName) {db : CDB B R} (h : Tidy db)
    (hv : FilesOK vers env.md5 db) (hfa : Faithful vers env.fs) :
    Tidy (addAll env xs db).2 ∧ (addAll env xs db).2.functions = db.functions := by
  refine ⟨?_, ?_⟩
  · clear hv
    induction xs generalizing db with
    | nil => exact h
    | cons x xs ih =>
      unfold CDB.addAll
      have h1 := h.addFile env x
      generalize Verif.DB.addFile (storage B R) env x db = X at h1
      obtain ⟨y, db1⟩ := X
      cases y with
      | error e => exact h1
      | ok t =>
        obtain ⟨a, b, c⟩ := t
        simp only
        have h2 := ih h1
        generalize CDB.addAll env xs db1 = Y at h2
        obtain ⟨z, db2⟩ := Y
        cases z <;> exact h2
  · rcases addAll_cases env xs db vers hv hfa with ⟨e, db', h1, h2, _⟩ | ⟨L, db', h1, h2, _⟩ <;>
    · rw [h1]; exact h2.functions

theorem Tidy.saveExternal (env : Env) (srcs dsts : List FileName) (c : FunName × Nat)
    {db : CDB B R} (h : Tidy db) (hf : (db.functions.get? c.1).isSome)
    (hv : FilesOK vers env.md5 db) (hfa : Faithful vers env.fs) :
    Tidy (saveExternal env srcs dsts c db).2 := by
  unfold CDB.saveExternal
  simp only
  have h0 : Tidy ({ db with
      externalSrcs := setExt db.externalSrcs c srcs
      externalDsts := setExt db.externalDsts c dsts } : CDB B R) := by
    refine ⟨?_, ?_, h.cf⟩
    · intro g hg
      simp only [setExt, Dict.get?_set] at hg
      split at hg
      · rename_i hc; subst hc; exact hf
      · exact h.esrcs g hg
    · intro g hg
      simp only [setExt, Dict.get?_set] at hg
      split at hg
      · rename_i hc; subst hc; exact hf
      · exact h.edsts g hg
  obtain ⟨h1, h2⟩ := Tidy.addAll (vers := vers) env srcs h0 hv hfa
  generalize CDB.addAll env srcs { db with
      externalSrcs := setExt db.externalSrcs c srcs
      externalDsts := setExt db.externalDsts c dsts } = X at h1 h2
  obtain ⟨y, db1⟩ := X
  cases y with
  | error e => exact h1
  | ok L => exact (Tidy.saveCallFiles c L h1 (by simp only at h2; rw [h2]; exact hf)).1

theorem Tidy.deleteFunction {db : CDB B R} (h : Tidy db) (f : FunName) :
    Tidy (CDB.deleteFunction f db).2 := by
  refine ⟨?_, ?_, ?_⟩
  · intro g hg
    simp only [CDB.deleteFunction, Dict.get?_erase] at hg ⊢
    split at hg
    · simp at hg
    · rename_i hne; rw [if_neg hne]; exact h.esrcs g hg
  · intro g hg
    simp only [CDB.deleteFunction, Dict.get?_erase] at hg ⊢
    split at hg
    · simp at hg
    · rename_i hne; rw [if_neg hne]; exact h.edsts g hg
  · intro q hq
    simp only [CDB.deleteFunction, dropFun, List.mem_filter, List.mem_map] at hq
    obtain ⟨⟨q0, h1, rfl⟩, h2⟩ := hq
    refine ⟨by intro h3; simp only at h3 h2; rw [h3] at h2; simp at h2, ?_⟩
    intro t ht
    simp only [Dict.erase, List.mem_filter, decide_eq_true_eq] at ht
    simp only [CDB.deleteFunction, Dict.get?_erase, if_neg (Ne.symm ht.2)]
    exact (h.cf q0 h1).2 t ht.1

theorem reach_tidy {crashes : Bool} {s : Sys B R} (h : Reach sg vers crashes s) :
    Tidy s.db ∧ Tidy s.saved := by
  induction h with
  | init env henv =>
    have : Tidy ({} : CDB B R) := ⟨by simp [Dict.get?], by simp [Dict.get?], by simp⟩
    exact ⟨this, this⟩
  | step ev hs ha hc ih =>
    rename_i s
    obtain ⟨ih, ihs⟩ := ih
    have hI := reach_inv hs
    cases ev with
    | prepare id f b =>
      simp only [step, stepPrepare]
      cases hcode : s.env.funDigest f with
      | none => exact ⟨ih, ihs⟩
      | some code =>
        simp only
        have h1 := Tidy.prepare s.env f b (sg.srcs f code b) ih
        generalize Verif.DB.prepare (storage B R) s.env f b (sg.srcs f code b) s.db = X at h1
        obtain ⟨y, db1⟩ := X
        cases y with
        | error e => exact ⟨h1, ihs⟩
        | ok p =>
          simp only
          split <;> exact ⟨h1, ihs⟩
    | complete id r deps ext extDsts =>
      simp only [step, stepComplete]
      cases hp : s.inflight.get? id with
      | none => exact ⟨ih, ihs⟩
      | some p =>
        simp only
        have hP := hI.pending id p hp
        have key : Tidy (cache (storage B R) (CDB.saveExternal s.env ext extDsts) p.prep.funDirty
            p.prep.funId p.fn p.code deps (p.prep.found.map Prod.fst) p.bound r
            p.prep.callFileDigests s.db).2 := by
          rw [cache_eq s.env ext extDsts p.prep.funDirty p.prep.funId p.fn p.code deps
            (p.prep.found.map Prod.fst) p.bound r p.prep.callFileDigests s.db
            (fun hd => (hP.clean hd).1)]
          have hrec : Tidy (recordFun p.prep.funDirty p.prep.funId p.fn p.code deps s.db) ∧
              ((recordFun p.prep.funDirty p.prep.funId p.fn p.code deps s.db).functions.get?
                p.fn).isSome ∧
              FilesOK vers s.env.md5
                (recordFun p.prep.funDirty p.prep.funId p.fn p.code deps s.db) := by
            unfold recordFun
            have hset : ∀ db : CDB B R, Tidy db → Tidy { db with
                functions := db.functions.set p.fn (p.code, deps) } := by
              intro db h
              have hs : ∀ g, (db.functions.get? g).isSome →
                  ((db.functions.set p.fn (p.code, deps)).get? g).isSome := by
                intro g hg; rw [Dict.get?_set]; split
                · rfl
                · exact hg
              exact ⟨fun g hg => hs g (h.esrcs g hg), fun g hg => hs g (h.edsts g hg),
                fun q hq => ⟨(h.cf q hq).1, fun t ht => hs _ ((h.cf q hq).2 t ht)⟩⟩
            cases hd : p.prep.funDirty with
            | false =>
              obtain ⟨_, ds, h2⟩ := hP.clean hd
              exact ⟨ih, by simp [h2], hI.db.files⟩
            | true =>
              simp only [if_true]
              refine ⟨hset _ ?_, by simp, ?_⟩
              · split
                · exact ih.deleteFunction _
                · exact ih
              · split
                · exact hI.db.files
                · exact hI.db.files
          generalize recordFun p.prep.funDirty p.prep.funId p.fn p.code deps s.db = db1 at hrec
          obtain ⟨h1, h2, h3⟩ := hrec
          unfold storeCall
          have hsc : ∀ x db2, saveCall (p.prep.found.map Prod.fst) p.fn p.bound r db1 = (x, db2) →
              Tidy db2 ∧ db2.functions = db1.functions ∧ FilesOK vers s.env.md5 db2 ∧
              (∀ c, x = .ok c → c.1 = p.fn) := by
            intro x db2 hx
            unfold saveCall at hx
            split at hx
            · cases hx; exact ⟨⟨h1.esrcs, h1.edsts, h1.cf⟩, rfl, h3, by rintro c ⟨⟩; rfl⟩
            · split at hx
              · cases hx; exact ⟨⟨h1.esrcs, h1.edsts, h1.cf⟩, rfl, h3, by rintro c ⟨⟩; rfl⟩
              · split at hx
                · cases hx; exact ⟨⟨h1.esrcs, h1.edsts, h1.cf⟩, rfl, h3, by rintro c ⟨⟩; rfl⟩
                · cases hx; exact ⟨h1, rfl, h3, by rintro c ⟨⟩⟩
          generalize saveCall (p.prep.found.map Prod.fst) p.fn p.bound r db1 = X at hsc
          obtain ⟨x, db2⟩ := X
          obtain ⟨h4, h5, h6, h7⟩ := hsc x db2 rfl
          cases x with
          | error e => exact h4
          | ok c =>
            simp only
            have h8 : (db2.functions.get? c.1).isSome := by rw [h7 c rfl, h5]; exact h2
            obtain ⟨h9, h10⟩ := Tidy.saveCallFiles c p.prep.callFileDigests h4 h8
            obtain ⟨db3, k1, k2, _, k3, _⟩ := saveCallFiles_cases c.1 c.2
              p.prep.callFileDigests db2
            have k1' : saveCallFiles (storage B R) c p.prep.callFileDigests db2 = (.ok (), db3) := k1
            rw [k1'] at h9 h10 ⊢
            simp only at h9 h10 ⊢
            refine Tidy.saveExternal (vers := vers) s.env ext extDsts c h9 (by rw [h10]; exact h8) ?_
              hI.faithful
            intro y m d hy; rw [k3] at hy; exact h6 y m d hy
        split
        · rename_i err db1 heq
          rw [heq] at key; exact ⟨key, ihs⟩
        · rename_i db1 heq
          rw [heq] at key; exact ⟨key, ihs⟩
    | fail id => exact ⟨ih, ihs⟩
    | edit x st => exact ⟨ih, ihs⟩
    | tick n => exact ⟨ih, ihs⟩
    | restart ds => exact ⟨ih, ih⟩
    | crash ds => exact ⟨ihs, ihs⟩
    | deleteFunction f =>
      simp only [step]
      split
      · exact ⟨ih.deleteFunction f, ihs⟩
      · exact ⟨ih, ihs⟩
    | deleteFile x =>
      simp only [step]
      split
      · exact ⟨ih.deleteFile x, ihs⟩
      · exact ⟨ih, ihs⟩

end Verif.DB
