import Verif.DB.SqliteKeep
import Verif.DB.SqliteTrace
import Verif.DB.CheckFun
/-! With the sqlite engine: when the tables answer a call. -/
namespace Verif.DB
open SDB
set_option linter.unusedSectionVars false

variable {B R : Type} [DecidableEq B] {sg : Sig B R} {vers : FileName → Nat → Option Content}
  {env : Env} {db db' : SDB B R}

/-- the file can be read, is recorded with its content, and with that content for the call -/
def SReady (env : Env) (db : SDB B R) (cid : Nat) (x : FileName) : Prop :=
  ∃ k, env.fs.content x = some k ∧ ∃ q ∈ db.files, q.name = x ∧ q.digest = env.md5 k ∧
    (cid, q.id, env.md5 k) ∈ db.callFiles

theorem SReady.kept {cid : Nat} {x : FileName} {xs : List FileName} (h : SReady env db cid x)
    (hk : KeptFor env xs db db') : SReady env db' cid x := by
  obtain ⟨k, h1, q, h2, h3, h4, h5⟩ := h
  have hr := hk q h2 (Or.inr (Or.inr ⟨k, by rw [h3]; exact h1, h4.symm⟩))
  obtain ⟨q', m1, m2, m3, m4⟩ := hr.row
  exact ⟨k, h1, q', m1, m3.trans h3, m4.trans h4, by rw [m2]; exact hr.cf _ h5 rfl⟩

theorem findCallFile_mem (h : SWF vers env.md5 db) {cid fid : Nat} {d : Digest}
    (hm : (cid, fid, d) ∈ db.callFiles) : SDB.findCallFile cid fid db = some d := by
  cases hf : SDB.findCallFile cid fid db with
  | none => exact absurd hm (findCallFile_none hf d)
  | some d' =>
    have := h.cfKey _ hm _ (findCallFile_some hf) rfl rfl
    simp only [Prod.mk.injEq, true_and] at this
    rw [this]

theorem addFile_ready {x : FileName} {k : Content} {q : FileRow} (h : SWF vers env.md5 db)
    (hq : q ∈ db.files) (hn : q.name = x) (hc : env.fs.content x = some k)
    (hd : q.digest = env.md5 k) {dirty : Bool} {fid : Nat} {d : Digest}
    (he : addFile (SDB.storage B R) env x db = (.ok (dirty, fid, d), db')) : dirty = false := by
  unfold addFile at he
  cases hx : env.fs x with
  | none => rw [hx] at he; simp at he
  | some f =>
    have hk : db.files.find? (fun r => r.name = x) = some q := by
      cases hf : db.files.find? (fun r => r.name = x) with
      | none =>
        have := List.find?_eq_none.1 hf q hq
        simp [hn] at this
      | some q' =>
        have h1 := List.mem_of_find?_eq_some hf
        have h2 : q'.name = x := by simpa using List.find?_some hf
        rw [h.fileName q' h1 q hq (h2.trans hn.symm)]
    have hcf : f.content = some k := by simpa [FS.content, hx] using hc
    rw [hx] at he
    simp only [SDB.storage, SDB.findFile, hk] at he
    split at he
    · simp only [Prod.mk.injEq, Except.ok.injEq] at he; exact he.1.1.symm
    · rw [hcf] at he
      simp only [hd, if_true, Prod.mk.injEq, Except.ok.injEq] at he
      exact he.1.1.symm

theorem checkCallFile_ready {x : FileName} {cid : Nat} (h : SWF vers env.md5 db)
    (hv : Faithful vers env.fs) (hr : SReady env db cid x) :
    ∃ fid d db', checkCallFile (SDB.storage B R) env (some cid) x db = (.ok (false, fid, d), db') := by
  unfold checkCallFile
  generalize ha : addFile (SDB.storage B R) env x db = X
  obtain ⟨o, db1⟩ := X
  obtain ⟨k1, k2, k3, k4, k5⟩ := addFile_sql h hv ha
  have hr0 := hr
  obtain ⟨k0, g1, q0, g2, g3, g4, _⟩ := hr0
  obtain ⟨k, h1, q, h2, h3, h4, h5⟩ := hr.kept k3
  cases o with
  | error e => rw [(k4 e rfl).1] at h1; cases h1
  | ok t =>
    obtain ⟨dirty, fid, d⟩ := t
    obtain ⟨c, m1, m2, r, m3, m4, m5, m6⟩ := k5 dirty fid d rfl
    have := k1.fileName q h2 r m3 (h3.trans m5.symm)
    subst this
    rw [h1] at m1
    simp only [Option.some.injEq] at m1
    subst m1
    simp only
    have hfc : (SDB.storage B R).findCallFile cid fid db1 = some d := by
      rw [← m4, m2]; exact findCallFile_mem k1 h5
    rw [hfc]
    simp only [if_true]
    have hdf := addFile_ready h g2 g3 g1 g4 ha
    subst hdf
    exact ⟨_, _, _, rfl⟩

theorem checkCallFiles_ready {xs : List FileName} {cid : Nat} (h : SWF vers env.md5 db)
    (hv : Faithful vers env.fs) (hr : ∀ x ∈ xs, SReady env db cid x) :
    ∃ db', checkCallFiles (SDB.storage B R) env (some cid) xs db = (.ok [], db') := by
  induction xs generalizing db with
  | nil => exact ⟨db, rfl⟩
  | cons x xs ih =>
    obtain ⟨fid, d, db1, h1⟩ := checkCallFile_ready h hv (hr x (by simp))
    obtain ⟨k1, k2, k3, _⟩ := checkCallFile_sql h hv h1
    obtain ⟨db2, h2⟩ := ih k1 (fun y hy => (hr y (by simp [hy])).kept k3)
    refine ⟨db2, ?_⟩
    unfold checkCallFiles
    rw [h1]
    simp only
    rw [h2]
    rfl

theorem checkExternal_ready {xs : List FileName} {cid : Nat} (h : SWF vers env.md5 db)
    (hv : Faithful vers env.fs) (hr : ∀ x ∈ xs, SReady env db cid x) :
    ∃ db', checkExternalLoop (SDB.storage B R) env cid xs db = ([], db') := by
  induction xs generalizing db with
  | nil => exact ⟨db, rfl⟩
  | cons x xs ih =>
    obtain ⟨fid, d, db1, h1⟩ := checkCallFile_ready h hv (hr x (by simp))
    obtain ⟨k1, k2, k3, _⟩ := checkCallFile_sql h hv h1
    obtain ⟨db2, h2⟩ := ih k1 (fun y hy => (hr y (by simp [hy])).kept k3)
    refine ⟨db2, ?_⟩
    unfold checkExternalLoop
    rw [h1]
    simp only
    rw [h2]
    rfl

/-- The tables hold the call `(f, b)` with result `r`: the function has the text `code`, all sources
are as recorded, and no other external files are recorded. -/
def SUp (sg : Sig B R) (f : FunName) (code : Digest) (b : B) (r : R) (ext extDsts : List FileName)
    (env : Env) (db : SDB B R) : Prop :=
  ∃ g ∈ db.functions, ∃ c ∈ db.calls, g.name = f ∧ g.digest = code ∧ c.fn = g.id ∧ c.bound = b ∧
    c.result = r ∧ (∀ x ∈ sg.srcs f code b ++ ext, SReady env db c.id x) ∧
    (∀ q ∈ db.files, (c.id, q.id) ∈ db.externalSrcs → q.name ∈ ext) ∧
    (∀ q ∈ db.files, (c.id, q.id) ∈ db.externalDsts → q.name ∈ extDsts)

variable {f : FunName} {code : Digest} {b : B} {r : R} {ext extDsts : List FileName}

theorem SUp.touch (h : SUp sg f code b r ext extDsts env db) (w : SWF vers env.md5 db)
    (ht : STouch db db') {xs : List FileName} (hk : KeptFor env xs db db') :
    SUp sg f code b r ext extDsts env db' := by
  obtain ⟨g, hg, c, hc, h1, h2, h3, h4, h5, h6, h7, h8⟩ := h
  refine ⟨g, by rw [ht.functions]; exact hg, c, by rw [ht.calls]; exact hc, h1, h2, h3, h4, h5,
    fun x hx => (h6 x hx).kept hk, ?_, ?_⟩
  · intro q hq hm
    have hm := ht.es _ hm
    rcases ht.files q hq with ⟨q', n1, n2, n3, _⟩ | hlt
    · rw [← n3]; exact h7 q' n1 (by rw [n2]; exact hm)
    · have := w.esFile _ hm; simp only at this; omega
  · intro q hq hm
    have hm := ht.ed _ hm
    rcases ht.files q hq with ⟨q', n1, n2, n3, _⟩ | hlt
    · rw [← n3]; exact h8 q' n1 (by rw [n2]; exact hm)
    · have := w.edFile _ hm; simp only at this; omega

/-- only the content of the sources matters -/
theorem SUp.edited {env' : Env} (h : SUp sg f code b r ext extDsts env db) (hm : env'.md5 = env.md5)
    (hc : ∀ x ∈ sg.srcs f code b ++ ext, env'.fs.content x = env.fs.content x) :
    SUp sg f code b r ext extDsts env' db := by
  obtain ⟨g, hg, c, hc', h1, h2, h3, h4, h5, h6, h7, h8⟩ := h
  refine ⟨g, hg, c, hc', h1, h2, h3, h4, h5, ?_, h7, h8⟩
  intro x hx
  unfold SReady
  rw [hm, hc x hx]
  exact h6 x hx

theorem SUp.prepare (h : SUp sg f code b r ext extDsts env db)
    (hi : SInv sg vers env.md5 db log) (hv : Faithful vers env.fs)
    (hclean : ∃ i, checkFunction (SDB.storage B R) env db env.recursionLimit f = .ok (false, i)) :
    ∃ p db', Verif.DB.prepare (SDB.storage B R) env f b (sg.srcs f code b) db = (.ok p, db') ∧
      p.funDirty = false ∧ (∃ i, p.found = some (i, r)) ∧ p.callFileDigests = [] ∧
      p.externalDigests = [] ∧ ∀ x ∈ p.externalDsts, x ∈ extDsts := by
  obtain ⟨g, hg, c, hc, h1, h2, h3, h4, h5, h6, h7, h8⟩ := h
  obtain ⟨i, hcf⟩ := hclean
  obtain ⟨dg, _, hcase⟩ := checkFunction_sql hcf
  have hfi : i = some g.id := by
    rcases hcase with ⟨h, _⟩ | ⟨h, _⟩ | ⟨_, g', m1, m2, m3, _⟩
    · cases h
    · cases h
    · rw [m3, hi.wf.funName g' m1 g hg (m2.trans h1.symm)]
  subst hfi
  have hlk : lookupCall (SDB.storage B R) false (some g.id) b db = some (c.id, r) := by
    have hx : lookupCall (SDB.storage B R) false (some g.id) b db = SDB.findCall g.id b db := rfl
    rw [hx]
    cases hf : SDB.findCall g.id b db with
    | none => exact absurd ⟨h3, h4⟩ (findCall_sql_none hf c hc)
    | some cr =>
      obtain ⟨cid, r'⟩ := cr
      obtain ⟨c', m1, m2, m3, m4, m5⟩ := findCall_sql_some hf
      have := hi.distinct c' m1 c hc (m5.trans h3.symm) (m4.trans h4.symm)
      subst this
      rw [← m2, ← m3, h5]
  obtain ⟨db1, hcc⟩ := checkCallFiles_ready hi.wf hv (fun x hx => h6 x (List.mem_append_left _ hx))
  obtain ⟨k1, k2, k3, _⟩ := checkCallFiles_sql hi.wf hv hcc
  -- the external files
  have hback : ∀ q ∈ db1.files, q.id ≤ db.lastFile → ∃ q' ∈ db.files, q'.id = q.id ∧ q'.name = q.name := by
    intro q hq hle
    rcases k2.files q hq with ⟨q', n1, n2, n3, _⟩ | hlt
    · exact ⟨q', n1, n2, n3⟩
    · omega
  have hext : ∀ x ∈ SDB.findExternal db1.externalSrcs c.id db1, SReady env db1 c.id x := by
    intro x hx
    obtain ⟨q, n1, n2, rfl⟩ := mem_findExternal.1 hx
    have n2 := k2.es _ n2
    obtain ⟨q', m1, m2, m3⟩ := hback q n1 (hi.wf.esFile _ n2)
    rw [← m3]
    exact (h6 _ (List.mem_append_right _ (h7 q' m1 (by rw [m2]; exact n2)))).kept k3
  obtain ⟨db2, hel⟩ := checkExternal_ready k1 hv hext
  refine ⟨⟨false, some g.id, some (c.id, r), [], SDB.findExternal db1.externalSrcs c.id db1,
    SDB.findExternal db1.externalDsts c.id db1, []⟩, db2, ?_, ?_⟩
  · unfold Verif.DB.prepare
    rw [hcf]
    simp only [hlk, Option.map_some, hcc]
    have hxe : (SDB.storage B R).findExternalSrcs c.id db1 =
      SDB.findExternal db1.externalSrcs c.id db1 := rfl
    rw [hxe, hel]
    rfl
  refine ⟨rfl, ⟨_, rfl⟩, rfl, rfl, ?_⟩
  intro x hx
  obtain ⟨q, n1, n2, rfl⟩ := mem_findExternal.1 hx
  have n2 := k2.ed _ n2
  obtain ⟨q', m1, m2, m3⟩ := hback q n1 (hi.wf.edFile _ n2)
  rw [← m3]
  exact h8 q' m1 (by rw [m2]; exact n2)

/-- a call held by the tables is answered -/
theorem SUp.hit {s : SSys B R} (h : SUp sg f code b r ext extDsts s.env s.db)
    (hi : SSysInv sg vers s) (hcode : s.env.funDigest f = some code)
    (hclean : ∃ i, checkFunction (SDB.storage B R) s.env s.db s.env.recursionLimit f = .ok (false, i))
    (hdst : ∀ x ∈ sg.returnDsts f code r ++ sg.dsts f code b ++ extDsts, (s.env.fs x).isSome)
    (id : Nat) : (SSys.step sg s (.prepare id f b)).1 = .hit r := by
  obtain ⟨p, db', h1, h2, ⟨i, h3⟩, h4, h5, h6⟩ := h.prepare hi.db hi.faithful hclean
  simp only [SSys.step, SSys.stepPrepare, hcode, h1]
  have : Verif.DB.hit s.env (sg.dsts f code b) (sg.returnDsts f code) p = some r := by
    unfold Verif.DB.hit
    rw [h3]
    simp only [h2, h4, h5, List.isEmpty_nil, Bool.not_true, Bool.or_self, Bool.false_eq_true, if_false]
    rw [if_pos]
    rw [List.all_eq_true]
    intro x hx
    refine hdst x ?_
    rcases List.mem_append.1 hx with hx | hx
    · exact List.mem_append_left _ hx
    · exact List.mem_append_right _ (h6 x hx)
  rw [this]

/-- storing another call keeps the call answered -/
theorem SUp.stored {log : List (Exec B R)} {p : SPending B R} {r' : R} {ext' extDsts' : List FileName}
    {fid cid : Nat} (h : SUp sg f code b r ext extDsts env db)
    (hi : SInv sg vers env.md5 db log) (hp : SPInv sg env.md5 db p)
    (k : SStored vers env p.prep.funDirty p.prep.funId p.fn p.code (p.prep.found.map Prod.fst)
      p.bound r' p.prep.callFileDigests ext' extDsts' fid cid db db')
    (k' : SKept env p.prep.funDirty p.prep.funId p.fn (p.prep.found.map Prod.fst)
      p.prep.callFileDigests ext' extDsts' cid db db')
    (hne : ¬ (p.fn = f ∧ p.bound = b))
    (hdis : p.fn = f → p.prep.funDirty = false ∨ p.prep.funId = none) :
    SUp sg f code b r ext extDsts env db' := by
  obtain ⟨g, hg, c, hc, h1, h2, h3, h4, h5, h6, h7, h8⟩ := h
  -- the function is not discarded
  have hd : p.prep.funDirty = false ∨ g.name ≠ p.fn := by
    by_cases hn : p.fn = f
    · rcases hdis hn with hd | hd
      · exact Or.inl hd
      · cases hx : p.prep.funDirty with
        | false => exact Or.inl rfl
        | true => exact Or.inr (k'.unknown hx hd g hg)
    · exact Or.inr (by rw [h1]; exact fun h => hn h.symm)
  -- it is another row
  have hid : c.id ≠ cid := by
    intro hid
    rcases k.cidIs with hx | ⟨_, hx, _⟩
    · cases hfo : p.prep.found with
      | none => rw [hfo] at hx; cases hx
      | some cr =>
        obtain ⟨i, r0⟩ := cr
        rw [hfo] at hx
        simp only [Option.map_some, Option.some.injEq] at hx
        obtain ⟨_, m1⟩ := hp.found i r0 hfo
        obtain ⟨m2, m3⟩ := m1 c hc (hid.trans hx.symm)
        have hdd : p.prep.funDirty = false := by
          cases hd : p.prep.funDirty with
          | false => rfl
          | true => rw [hp.dirty hd] at hfo; cases hfo
        obtain ⟨j, m4, _, m5⟩ := hp.cleanId hdd
        rw [m4] at m3
        have := m5 g hg (by rw [← h3]; exact (Option.some.inj m3).symm)
        exact hne ⟨this.symm.trans h1, m2.symm.trans h4⟩
    · have := hi.wf.callLe c hc; omega
  have hc' : c ∈ db'.calls := by
    refine k'.calls c hc hid (hd.imp_right ?_)
    intro hn g' hg' hgid
    rw [hi.wf.funId g' hg' g hg (hgid.trans h3)]; exact hn
  refine ⟨g, k'.funs g hg hd, c, hc', h1, h2, h3, h4, h5, ?_, ?_, ?_⟩
  · intro x hx
    obtain ⟨kk, n1, q, n2, n3, n4, n5⟩ := h6 x hx
    have hk := k.keep q n2 (Or.inr (Or.inr ⟨kk, by rw [n3]; exact n1, n4.symm⟩)) c hc' hid
    obtain ⟨q', m1, m2, m3, m4⟩ := hk.row
    exact ⟨kk, n1, q', m1, m3.trans n3, m4.trans n4, by rw [m2]; exact hk.cf _ n5⟩
  · intro q hq hm
    have hm := k.esOther _ hm hid
    rcases k.files q hq with ⟨q', n1, n2, n3, _⟩ | hlt
    · rw [← n3]; exact h7 q' n1 (by rw [n2]; exact hm)
    · have := hi.wf.esFile _ hm; simp only at this; omega
  · intro q hq hm
    have hm := k.edOther _ hm hid
    rcases k.files q hq with ⟨q', n1, n2, n3, _⟩ | hlt
    · rw [← n3]; exact h8 q' n1 (by rw [n2]; exact hm)
    · have := hi.wf.edFile _ hm; simp only at this; omega

theorem SUp.deleteFunction (h : SUp sg f code b r ext extDsts env db) (w : SWF vers env.md5 db)
    {g' : FunName} (hne : g' ≠ f) :
    SUp sg f code b r ext extDsts env (SDB.deleteFunction g' db).2 := by
  obtain ⟨k1, ⟨e1, _⟩, k3, k4, ⟨k5, k6, k7⟩, k8⟩ := deleteFunction_sql w g' rfl
  obtain ⟨g, hg, c, hc, h1, h2, h3, h4, h5, h6, h7, h8⟩ := h
  have hc' : c ∈ (SDB.deleteFunction g' db).2.calls := by
    refine (k4 c).2 ⟨hc, ?_⟩
    intro g0 hg0 hid
    rw [w.funId g0 hg0 g hg (hid.trans h3), h1]; exact fun h => hne h.symm
  refine ⟨g, (k3 g).2 ⟨hg, by rw [h1]; exact fun h => hne h.symm⟩, c, hc', h1, h2, h3, h4, h5, ?_, ?_, ?_⟩
  · intro x hx
    obtain ⟨kk, n1, q, n2, n3, n4, n5⟩ := h6 x hx
    exact ⟨kk, n1, q, by rw [e1]; exact n2, n3, n4, (k8 c hc').1 _ n5 rfl⟩
  · intro q hq hm
    rw [e1] at hq
    exact h7 q hq (k6 _ hm)
  · intro q hq hm
    rw [e1] at hq
    exact h8 q hq (k7 _ hm)

theorem SUp.deleteFile (h : SUp sg f code b r ext extDsts env db) (w : SWF vers env.md5 db)
    {y : FileName} (hne : y ∉ sg.srcs f code b ++ ext) :
    SUp sg f code b r ext extDsts env (SDB.deleteFile y db).2 := by
  obtain ⟨k1, k2, _, k4, k5⟩ := deleteFile_sql w y rfl
  obtain ⟨g, hg, c, hc, h1, h2, h3, h4, h5, h6, h7, h8⟩ := h
  refine ⟨g, by rw [k2.functions]; exact hg, c, by rw [k2.calls]; exact hc, h1, h2, h3, h4, h5, ?_,
    fun q hq hm => h7 q (k4 q hq).1 (k2.es _ hm), fun q hq hm => h8 q (k4 q hq).1 (k2.ed _ hm)⟩
  intro x hx
  obtain ⟨kk, n1, q, n2, n3, n4, n5⟩ := h6 x hx
  obtain ⟨m1, m2⟩ := k5 q n2 (by rw [n3]; rintro rfl; exact hne hx)
  exact ⟨kk, n1, q, m1, n3, n4, m2.cf _ n5 rfl⟩

end Verif.DB
