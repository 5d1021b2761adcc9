import Verif.DB.SqliteHistory
/-! Lemmas about the sqlite tables: what storing a result keeps. -/
namespace Verif.DB
open SDB
set_option linter.unusedSectionVars false

variable {B R : Type} [DecidableEq B] {vers : FileName → Nat → Option Content}
  {env : Env} {db db' : SDB B R}

/-- `save_external_files` keeps the digests the call has for other files -/
theorem saveExternal_own {cid : Nat} {ext extDsts : List FileName}
    (h : SWF vers env.md5 db) (hv : Faithful vers env.fs)
    (he : SDB.saveExternal env ext extDsts cid db = (.ok (), db')) :
    ∀ q ∈ db.files, q.name ∉ ext → InSync env (ext ++ extDsts) q → ∀ d,
      (cid, q.id, d) ∈ db.callFiles → (cid, q.id, d) ∈ db'.callFiles := by
  unfold SDB.saveExternal at he
  simp only at he
  generalize hdb1 : ({ db with
    externalSrcs := db.externalSrcs.filter (fun t => ¬ t.1 = cid)
    externalDsts := db.externalDsts.filter (fun t => ¬ t.1 = cid) } : SDB B R) = db1 at he
  have hwf1 : SWF vers env.md5 db1 := by
    subst hdb1
    exact ⟨h.fileLe, h.fileId, h.fileName, h.filesOK, h.cfFile, h.cfCall, h.cfKey, h.callLe,
      h.callId, h.callFun, h.funLe, h.funId, h.funName,
      fun t ht => h.esFile t (List.mem_filter.1 ht).1, fun t ht => h.edFile t (List.mem_filter.1 ht).1⟩
  have hs1 : db1.files = db.files ∧ db1.callFiles = db.callFiles := by subst hdb1; exact ⟨rfl, rfl⟩
  clear hdb1
  intro q hq hx hsync d hd
  rw [← hs1.1] at hq
  rw [← hs1.2] at hd
  generalize hca : SDB.checkAll env cid ext db1 = X at he
  obtain ⟨o, db2⟩ := X
  obtain ⟨k1, k2, k3, k4⟩ := checkAll_sql hwf1 hv hca
  cases o with
  | error e => simp at he
  | ok ts =>
    simp only at he
    obtain ⟨k5, _⟩ := k4 ts rfl
    have hkept := k3 q hq (hsync.mono (by simp +contextual))
    obtain ⟨q2, n1, n2, n3, n4⟩ := hkept.row
    have hd2 := hkept.cf _ hd rfl
    cases hins : SDB.insertExternal cid db2 (ts.map (fun t => t.2.1)) db2.externalSrcs with
    | error e => rw [hins] at he; simp at he
    | ok rows =>
      rw [hins] at he
      simp only at he
      obtain ⟨hrows, hrefs⟩ := insertExternal_ok hins
      generalize hdb2 : ({ db2 with externalSrcs := rows } : SDB B R) = db2' at he
      have hwf2 : SWF vers env.md5 db2' := by
        subst hdb2
        refine ⟨k1.fileLe, k1.fileId, k1.fileName, k1.filesOK, k1.cfFile, k1.cfCall, k1.cfKey,
          k1.callLe, k1.callId, k1.callFun, k1.funLe, k1.funId, k1.funName, ?_, k1.edFile⟩
        intro t ht
        simp only [hrows, List.mem_append, List.mem_map] at ht
        rcases ht with ht | ⟨i, ⟨t', ht', rfl⟩, rfl⟩
        · exact k1.esFile t ht
        · obtain ⟨r, h1, h2⟩ := hrefs _ (List.mem_map.2 ⟨t', ht', rfl⟩)
          simp only at h2 ⊢
          rw [← h2]; exact k1.fileLe r h1
      have hs2 : db2'.files = db2.files ∧ db2'.callFiles = db2.callFiles := by
        subst hdb2; exact ⟨rfl, rfl⟩
      generalize hsd : SDB.saveDirty cid ts db2' = Y at he
      obtain ⟨o2, db3⟩ := Y
      cases o2 with
      | error e => simp at he
      | ok u =>
        simp only at he
        have hset := saveDirty_sql hsd
        have huniq : ∀ t ∈ ts, ∀ t' ∈ ts, t.2.1 = t'.2.1 → t.2.2 = t'.2.2 := by
          intro t ht t' ht' heq
          obtain ⟨x, _, ⟨c, _, h1, r, h2, h3, _, h4⟩, _⟩ := k5 t ht
          obtain ⟨x', _, ⟨c', _, h1', r', h2', h3', _, h4'⟩, _⟩ := k5 t' ht'
          have := k1.fileId r h2 r' h2' (by rw [h3, h3', heq])
          subst this
          rw [← h4, ← h4']
        have hwf3 : SWF vers env.md5 db3 := by
          refine hset.wf ?_ hwf2
          intro u hu u' hu' heq
          obtain ⟨t, ht, rfl⟩ := List.mem_map.1 hu
          obtain ⟨t', ht', rfl⟩ := List.mem_map.1 hu'
          exact huniq t (List.mem_filter.1 ht).1 t' (List.mem_filter.1 ht').1 heq
        have hf3 : db3.files = db2'.files := by rw [hset.rest]
        have hd3 : (cid, q.id, d) ∈ db3.callFiles := by
          refine hset.keep _ (by rw [hs2.2]; exact hd2) ?_
          rintro ⟨_, u, hu, hui⟩
          obtain ⟨t, ht, rfl⟩ := List.mem_map.1 hu
          obtain ⟨x, hxe, ⟨c, _, _, r, h2, h3, h5, _⟩, _⟩ := k5 t (List.mem_filter.1 ht).1
          have := k1.fileId r h2 q2 n1 (by rw [h3, n2]; exact hui)
          subst this
          exact hx (by rw [← n3, h5]; exact hxe)
        generalize hcb : SDB.checkAll env cid extDsts db3 = Z at he
        obtain ⟨o3, db4⟩ := Z
        obtain ⟨m1, m2, m3, m4⟩ := checkAll_sql hwf3 hv hcb
        have hd4 := (m3 q2 (by rw [hf3, hs2.1]; exact n1)
          ((hsync.mono (by simp +contextual)).congr n3 n4)).cf _ hd3 n2.symm
        cases o3 with
        | error e => simp at he
        | ok us =>
          simp only at he
          cases hins2 : SDB.insertExternal cid db4
              ((us.filter (fun t => t.1)).map (fun t => t.2.1)) db4.externalDsts with
          | error e => rw [hins2] at he; simp at he
          | ok rows' =>
            rw [hins2] at he
            simp only [Prod.mk.injEq, true_and] at he
            subst he
            exact hd4

/-- what recording the function keeps -/
theorem recordFunS_keeps {dirty : Bool} {funId : Option Nat} {f : FunName} {code : Digest}
    {deps : List FunName} {fid : Nat} (h : SWF vers env.md5 db)
    (he : recordFunS dirty funId f code deps db = (.ok (some fid), db')) :
    (∀ g ∈ db.functions, (dirty = false ∨ g.name ≠ f) → g ∈ db'.functions) ∧
    (∀ c ∈ db.calls, (dirty = false ∨ ∀ g ∈ db.functions, g.id = c.fn → g.name ≠ f) →
      c ∈ db'.calls) ∧
    (dirty = true → funId = none → ∀ g ∈ db.functions, g.name ≠ f) := by
  unfold recordFunS at he
  cases dirty with
  | false =>
    simp only [Bool.false_eq_true, if_false, Prod.mk.injEq] at he
    obtain ⟨_, rfl⟩ := he
    exact ⟨fun _ h _ => h, fun _ h _ => h, fun h => nomatch h⟩
  | true =>
    simp only [if_true] at he
    have hpre : ∃ db1, (if funId.isSome then (SDB.deleteFunction f db).2 else db) = db1 ∧
        (∀ g ∈ db.functions, g.name ≠ f → g ∈ db1.functions) ∧
        (∀ c ∈ db.calls, (∀ g ∈ db.functions, g.id = c.fn → g.name ≠ f) → c ∈ db1.calls) ∧
        (funId = none → db1 = db) := by
      cases funId with
      | none => exact ⟨db, rfl, fun _ h _ => h, fun _ h _ => h, fun _ => rfl⟩
      | some i =>
        obtain ⟨k1, k2, k3, k4, k5, k6⟩ := deleteFunction_sql h f rfl
        exact ⟨_, rfl, fun g hg hn => (k3 g).2 ⟨hg, hn⟩, fun c hc hn => (k4 c).2 ⟨hc, hn⟩,
          fun h => nomatch h⟩
    obtain ⟨db1, hdb1, k1, k2, k3⟩ := hpre
    rw [hdb1] at he
    unfold SDB.saveFunction at he
    simp only at he
    by_cases hany : db1.functions.any (fun r => r.name = f)
    · rw [if_pos hany] at he; simp at he
    · rw [if_neg hany] at he
      simp only [Prod.mk.injEq, Except.ok.injEq, Option.some.injEq] at he
      obtain ⟨rfl, rfl⟩ := he
      refine ⟨fun g hg hn => List.mem_append_left _ (k1 g hg (hn.resolve_left (by simp))),
        fun c hc hn => k2 c hc (hn.resolve_left (by simp)), ?_⟩
      intro _ hf g hg hn
      rw [← k3 hf] at hg
      exact hany (List.any_eq_true.2 ⟨g, hg, by simpa using hn⟩)

/-- What `cache` keeps when it does not raise: `cid` is the row of the call. -/
structure SKept (env : Env) (dirty : Bool) (funId : Option Nat) (f : FunName)
    (cid0 : Option Nat) (digs : List (Nat × FileName × Digest)) (ext extDsts : List FileName)
    (cid : Nat) (db db' : SDB B R) : Prop where
  funs : ∀ g ∈ db.functions, (dirty = false ∨ g.name ≠ f) → g ∈ db'.functions
  unknown : dirty = true → funId = none → ∀ g ∈ db.functions, g.name ≠ f
  calls : ∀ c ∈ db.calls, c.id ≠ cid →
    (dirty = false ∨ ∀ g ∈ db.functions, g.id = c.fn → g.name ≠ f) → c ∈ db'.calls
  own : dirty = false → cid0 = some cid → ∀ c ∈ db.calls, c.id = cid → ∃ c' ∈ db'.calls, c'.id = cid
  rows : ∀ q ∈ db.files, InSync env (ext ++ extDsts) q → SameRow q db'
  new : ∀ q ∈ db.files, q.name ∉ ext → InSync env (ext ++ extDsts) q → ∀ u ∈ digs, u.1 = q.id →
    (cid, u.1, u.2.2) ∈ db'.callFiles
  old : dirty = false → ∀ q ∈ db.files, q.name ∉ ext → InSync env (ext ++ extDsts) q →
    (∀ u ∈ digs, u.1 ≠ q.id) → ∀ d, (cid, q.id, d) ∈ db.callFiles → (cid, q.id, d) ∈ db'.callFiles

theorem cache_keeps {dirty : Bool} {funId : Option Nat} {f : FunName} {code : Digest}
    {deps : List FunName} {cid0 : Option Nat} {b : B} {r : R}
    {digs : List (Nat × FileName × Digest)} {ext extDsts : List FileName}
    (h : SWF vers env.md5 db) (hv : Faithful vers env.fs)
    (hdigs : ∀ u ∈ digs, ∀ u' ∈ digs, u.1 = u'.1 → u.2.2 = u'.2.2)
    (he : cache (SDB.storage B R) (SDB.saveExternal env ext extDsts) dirty funId f code deps cid0
      b r digs db = (.ok (), db')) :
    ∃ fid cid, SStored vers env dirty funId f code cid0 b r digs ext extDsts fid cid db db' ∧
      SKept env dirty funId f cid0 digs ext extDsts cid db db' := by
  obtain ⟨fid, db1, cid, db2, db3, hr, hsc, hcf, he⟩ := cache_split he
  obtain ⟨hwf3, k⟩ := cache_sql_at h hv hdigs hr hsc hcf he
  refine ⟨fid, cid, k, ?_⟩
  obtain ⟨r1, r2, r3⟩ := recordFunS_keeps h hr
  have kr := recordFunS_ok h hr
  obtain ⟨s1, s2, s3, s4⟩ := kr.same
  obtain ⟨m1, ⟨e1, e2, e3, e4, e5, e6, e7, e8⟩, m2, m3, m4, m5, m6⟩ := saveCall_sql kr.wf hsc
  have hset := saveCallFiles_sql hcf
  have f1 : db3.functions = db2.functions := by rw [hset.rest]
  have f2 : db3.calls = db2.calls := by rw [hset.rest]
  have f6 : db3.files = db2.files := by rw [hset.rest]
  have x := saveExternal_sql hwf3 hv he
  have xo := saveExternal_own hwf3 hv he
  have hcalls : db'.calls = db2.calls := by rw [x.calls, f2]
  have hfuns : db'.functions = db1.functions := by rw [x.functions, f1, e1]
  have hfiles : db3.files = db.files := by rw [f6, e2, s1]
  refine ⟨?_, r3, ?_, ?_, ?_, ?_, ?_⟩
  · rw [hfuns]; exact r1
  · intro c hc hne hn
    rw [hcalls]
    exact m4 c (r2 c hc hn) hne
  · intro hd h0 c hc hid
    rw [hcalls]
    have hdb := (kr.clean hd).1
    subst hdb h0
    simp only [SDB.saveCall, Prod.mk.injEq] at hsc
    rw [← hsc.2]
    refine ⟨_, List.mem_map.2 ⟨c, hc, rfl⟩, ?_⟩
    rw [if_pos hid]; exact hid
  · intro q hq hs
    exact (x.keep q (by rw [hfiles]; exact hq) hs (cid + 1) (by omega)).row
  · intro q hq hx hs u hu hui
    obtain ⟨u', hu', h1, h2⟩ := hset.has (u.1, u.2.2) (List.mem_map.2 ⟨u, hu, rfl⟩)
    obtain ⟨w, hw, rfl⟩ := List.mem_map.1 hu'
    simp only at h1 h2
    rw [h1, hdigs w hw u hu h1] at h2
    rw [hui] at h2 ⊢
    exact xo q (by rw [hfiles]; exact hq) hx hs _ h2
  · intro hd q hq hx hs hn d hm
    refine xo q (by rw [hfiles]; exact hq) hx hs d (hset.keep _ ?_ ?_)
    · rw [e3, (kr.clean hd).1]; exact hm
    · rintro ⟨_, u, hu, hui⟩
      obtain ⟨w, hw, rfl⟩ := List.mem_map.1 hu
      exact hn w hw hui

end Verif.DB
