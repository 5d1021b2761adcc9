import Verif.DB.SqliteStore
/-! Lemmas about the sqlite tables: `save_external_files` and `cache`. -/
namespace Verif.DB
open SDB
set_option linter.unusedSectionVars false

variable {B R : Type} [DecidableEq B] {vers : FileName → Nat → Option Content}
  {env : Env} {db db' : SDB B R}

/-- the row and what refers to it from call `cid` is kept -/
structure KeptCall (cid : Nat) (r : FileRow) (db db' : SDB B R) : Prop where
  row : SameRow r db'
  cf : ∀ d, (cid, r.id, d) ∈ db.callFiles → (cid, r.id, d) ∈ db'.callFiles
  es : (cid, r.id) ∈ db.externalSrcs → (cid, r.id) ∈ db'.externalSrcs
  ed : (cid, r.id) ∈ db.externalDsts → (cid, r.id) ∈ db'.externalDsts

theorem KeptRow.call {r : FileRow} (h : KeptRow r db db') (cid : Nat) : KeptCall cid r db db' :=
  ⟨h.row, fun _ hd => h.cf _ hd rfl, fun hd => h.es _ hd rfl, fun hd => h.ed _ hd rfl⟩

theorem KeptCall.trans {cid : Nat} {r : FileRow} {a b c : SDB B R} (h1 : KeptCall cid r a b)
    (h2 : ∀ r' ∈ b.files, r'.id = r.id → r'.name = r.name → r'.digest = r.digest →
      KeptCall cid r' b c) : KeptCall cid r a c := by
  obtain ⟨r', m1, m2, m3, m4⟩ := h1.row
  have h3 := h2 r' m1 m2 m3 m4
  obtain ⟨q, n1, n2, n3, n4⟩ := h3.row
  refine ⟨⟨q, n1, n2.trans m2, n3.trans m3, n4.trans m4⟩, ?_, ?_, ?_⟩
  · intro d hd; have := h3.cf d (by rw [m2]; exact h1.cf d hd); rwa [m2] at this
  · intro hd; have := h3.es (by rw [m2]; exact h1.es hd); rwa [m2] at this
  · intro hd; have := h3.ed (by rw [m2]; exact h1.ed hd); rwa [m2] at this

/-- What `save_external_files` does. -/
structure ExtSaved (vers : FileName → Nat → Option Content) (env : Env) (cid : Nat)
    (ext extDsts : List FileName) (db db' : SDB B R) : Prop where
  wf : SWF vers env.md5 db'
  functions : db'.functions = db.functions
  calls : db'.calls = db.calls
  lastFun : db'.lastFun = db.lastFun
  lastCall : db'.lastCall = db.lastCall
  lastFile : db.lastFile ≤ db'.lastFile
  files : ∀ r ∈ db'.files, SameRow r db ∨ db.lastFile < r.id
  cfOther : ∀ t ∈ db'.callFiles, t.1 ≠ cid → t ∈ db.callFiles
  cfNew : ∀ t ∈ db'.callFiles, t.1 = cid → ∀ q ∈ db'.files, q.id = t.2.1 →
    (q.name ∈ ext → ∃ c, env.fs.content q.name = some c ∧ t.2.2 = env.md5 c) ∧
    (q.name ∉ ext → t ∈ db.callFiles)
  esOther : ∀ t ∈ db'.externalSrcs, t.1 ≠ cid → t ∈ db.externalSrcs
  esNew : ∀ t ∈ db'.externalSrcs, t.1 = cid → ∀ q ∈ db'.files, q.id = t.2 → q.name ∈ ext
  edOther : ∀ t ∈ db'.externalDsts, t.1 ≠ cid → t ∈ db.externalDsts
  edNew : ∀ t ∈ db'.externalDsts, t.1 = cid → ∀ q ∈ db'.files, q.id = t.2 → q.name ∈ extDsts
  linkSrc : ∀ x ∈ ext, ∃ fid d, Seen env db' x fid d ∧ (cid, fid) ∈ db'.externalSrcs ∧
    (cid, fid, d) ∈ db'.callFiles
  linkDst : ∀ x ∈ extDsts, ∃ fid d, Seen env db' x fid d ∧
    ((cid, fid) ∈ db'.externalDsts ∨ (cid, fid, d) ∈ db'.callFiles)
  keep : ∀ r ∈ db.files, InSync env (ext ++ extDsts) r → ∀ i, i ≠ cid → KeptCall i r db db'

theorem saveExternal_sql {cid : Nat} {ext extDsts : List FileName}
    (h : SWF vers env.md5 db) (hv : Faithful vers env.fs)
    (he : SDB.saveExternal env ext extDsts cid db = (.ok (), db')) :
    ExtSaved vers env cid ext extDsts db db' := by
  unfold SDB.saveExternal at he
  simp only at he
  generalize hdb1 : ({ db with
    externalSrcs := db.externalSrcs.filter (fun t => ¬ t.1 = cid)
    externalDsts := db.externalDsts.filter (fun t => ¬ t.1 = cid) } : SDB B R) = db1 at he
  have hwf1 : SWF vers env.md5 db1 := by
    subst hdb1
    exact ⟨h.fileLe, h.fileId, h.fileName, h.filesOK, h.cfFile, h.cfCall, h.cfKey, h.callLe,
      h.callId, h.callFun, h.funLe, h.funId, h.funName,
      fun t ht => h.esFile t (List.mem_filter.1 ht).1, fun t ht => h.edFile t (List.mem_filter.1 ht).1⟩
  have hsame1 : db1.functions = db.functions ∧ db1.calls = db.calls ∧ db1.lastFun = db.lastFun ∧
      db1.lastCall = db.lastCall ∧ db1.lastFile = db.lastFile ∧ db1.files = db.files ∧
      db1.callFiles = db.callFiles := by subst hdb1; exact ⟨rfl, rfl, rfl, rfl, rfl, rfl, rfl⟩
  have hes1 : (∀ t ∈ db1.externalSrcs, t ∈ db.externalSrcs ∧ t.1 ≠ cid) ∧
      ∀ t ∈ db1.externalDsts, t ∈ db.externalDsts ∧ t.1 ≠ cid := by
    subst hdb1
    constructor
    · intro t ht; simpa using List.mem_filter.1 ht
    · intro t ht; simpa using List.mem_filter.1 ht
  have hkeep1 : ∀ r ∈ db.files, ∀ i, i ≠ cid → KeptCall i r db db1 := by
    subst hdb1
    intro r hr i hi
    refine ⟨⟨r, hr, rfl, rfl, rfl⟩, fun _ h => h, ?_, ?_⟩
    · intro hm; exact List.mem_filter.2 ⟨hm, by simpa using hi⟩
    · intro hm; exact List.mem_filter.2 ⟨hm, by simpa using hi⟩
  clear hdb1
  generalize hca : SDB.checkAll env cid ext db1 = X at he
  obtain ⟨o1, db2⟩ := X
  obtain ⟨k1, k2, k3, k4⟩ := checkAll_sql hwf1 hv hca
  cases o1 with
  | error e => simp at he
  | ok ts =>
    simp only at he
    obtain ⟨k5, k6⟩ := k4 ts rfl
    cases hins : SDB.insertExternal cid db2 (ts.map (fun t => t.2.1)) db2.externalSrcs with
    | error e => rw [hins] at he; simp at he
    | ok rows =>
      rw [hins] at he
      simp only at he
      obtain ⟨hrows, hrefs⟩ := insertExternal_ok hins
      generalize hdb2' : ({ db2 with externalSrcs := rows } : SDB B R) = db2' at he
      have hwf2 : SWF vers env.md5 db2' := by
        subst hdb2'
        refine ⟨k1.fileLe, k1.fileId, k1.fileName, k1.filesOK, k1.cfFile, k1.cfCall, k1.cfKey,
          k1.callLe, k1.callId, k1.callFun, k1.funLe, k1.funId, k1.funName, ?_, k1.edFile⟩
        intro t ht
        simp only [hrows, List.mem_append, List.mem_map] at ht
        rcases ht with ht | ⟨i, ⟨t', ht', rfl⟩, rfl⟩
        · exact k1.esFile t ht
        · obtain ⟨r, h1, h2⟩ := hrefs _ (List.mem_map.2 ⟨t', ht', rfl⟩)
          simp only at h2 ⊢
          rw [← h2]; exact k1.fileLe r h1
      have hsame2 : db2'.functions = db2.functions ∧ db2'.calls = db2.calls ∧
          db2'.lastFun = db2.lastFun ∧ db2'.lastCall = db2.lastCall ∧
          db2'.lastFile = db2.lastFile ∧ db2'.files = db2.files ∧
          db2'.callFiles = db2.callFiles ∧ db2'.externalSrcs = rows ∧
          db2'.externalDsts = db2.externalDsts := by
        subst hdb2'; exact ⟨rfl, rfl, rfl, rfl, rfl, rfl, rfl, rfl, rfl⟩
      clear hdb2'
      generalize hsd : SDB.saveDirty cid ts db2' = Y at he
      obtain ⟨o2, db3⟩ := Y
      cases o2 with
      | error e => simp at he
      | ok u =>
        simp only at he
        have hset := saveDirty_sql hsd
        have hus : ∀ u ∈ (ts.filter (fun t => t.1)).map (fun t => t.2), ∃ t ∈ ts, t.1 = true ∧ t.2 = u := by
          intro u hu
          obtain ⟨t, ht, rfl⟩ := List.mem_map.1 hu
          obtain ⟨h1, h2⟩ := List.mem_filter.1 ht
          exact ⟨t, h1, h2, rfl⟩
        have huniq : ∀ t ∈ ts, ∀ t' ∈ ts, t.2.1 = t'.2.1 → t.2.2 = t'.2.2 := by
          intro t ht t' ht' heq
          obtain ⟨x, _, ⟨c, _, h1, r, h2, h3, _, h4⟩, _⟩ := k5 t ht
          obtain ⟨x', _, ⟨c', _, h1', r', h2', h3', _, h4'⟩, _⟩ := k5 t' ht'
          have := k1.fileId r h2 r' h2' (by rw [h3, h3', heq])
          subst this
          rw [← h4, ← h4']
        have hwf3 : SWF vers env.md5 db3 := by
          refine hset.wf ?_ hwf2
          intro u hu u' hu' heq
          obtain ⟨t, ht, _, rfl⟩ := hus u hu
          obtain ⟨t', ht', _, rfl⟩ := hus u' hu'
          exact huniq t ht t' ht' heq
        have hr3 := hset.rest
        have hsame3 : db3.functions = db2'.functions ∧ db3.calls = db2'.calls ∧
            db3.lastFun = db2'.lastFun ∧ db3.lastCall = db2'.lastCall ∧
            db3.lastFile = db2'.lastFile ∧ db3.files = db2'.files ∧
            db3.externalSrcs = db2'.externalSrcs ∧ db3.externalDsts = db2'.externalDsts := by
          refine ⟨?_, ?_, ?_, ?_, ?_, ?_, ?_, ?_⟩ <;> rw [hr3]
        clear hr3
        generalize hcb : SDB.checkAll env cid extDsts db3 = Z at he
        obtain ⟨o3, db4⟩ := Z
        obtain ⟨m1, m2, m3, m4⟩ := checkAll_sql hwf3 hv hcb
        cases o3 with
        | error e => simp at he
        | ok us =>
          simp only at he
          obtain ⟨m5, m6⟩ := m4 us rfl
          cases hins2 : SDB.insertExternal cid db4
              ((us.filter (fun t => t.1)).map (fun t => t.2.1)) db4.externalDsts with
          | error e => rw [hins2] at he; simp at he
          | ok rows' =>
            rw [hins2] at he
            simp only [Prod.mk.injEq, true_and] at he
            obtain ⟨hrows', hrefs'⟩ := insertExternal_ok hins2
            have hwf5 : SWF vers env.md5 db' := by
              subst he
              refine ⟨m1.fileLe, m1.fileId, m1.fileName, m1.filesOK, m1.cfFile, m1.cfCall, m1.cfKey,
                m1.callLe, m1.callId, m1.callFun, m1.funLe, m1.funId, m1.funName, m1.esFile, ?_⟩
              intro t ht
              simp only [hrows', List.mem_append, List.mem_map] at ht
              rcases ht with ht | ⟨i, ⟨t', ht', rfl⟩, rfl⟩
              · exact m1.edFile t ht
              · obtain ⟨r, h1, h2⟩ := hrefs' _ (List.mem_map.2 ⟨t', ht', rfl⟩)
                simp only at h2 ⊢
                rw [← h2]; exact m1.fileLe r h1
            have hsame5 : db'.functions = db4.functions ∧ db'.calls = db4.calls ∧
                db'.lastFun = db4.lastFun ∧ db'.lastCall = db4.lastCall ∧
                db'.lastFile = db4.lastFile ∧ db'.files = db4.files ∧
                db'.callFiles = db4.callFiles ∧ db'.externalSrcs = db4.externalSrcs ∧
                db'.externalDsts = rows' := by
              subst he; exact ⟨rfl, rfl, rfl, rfl, rfl, rfl, rfl, rfl, rfl⟩
            clear he
            obtain ⟨a1, a2, a3, a4, a5, a6, a7⟩ := hsame1
            obtain ⟨b1, b2, b3, b4, b5, b6, b7, b8, b9⟩ := hsame2
            obtain ⟨c1, c2, c3, c4, c5, c6, c7, c8⟩ := hsame3
            obtain ⟨d1, d2, d3, d4, d5, d6, d7, d8, d9⟩ := hsame5
            refine ⟨hwf5, ?_, ?_, ?_, ?_, ?_, ?_, ?_, ?_, ?_, ?_, ?_, ?_, ?_, ?_, ?_⟩
            · rw [d1, m2.functions, c1, b1, k2.functions, a1]
            · rw [d2, m2.calls, c2, b2, k2.calls, a2]
            · rw [d3, m2.lastFun, c3, b3, k2.lastFun, a3]
            · rw [d4, m2.lastCall, c4, b4, k2.lastCall, a4]
            · have h1 := m2.lastFile; have h2 := k2.lastFile; omega
            · intro r hr
              rw [d6] at hr
              rcases m2.files r hr with ⟨r', h1, h2, h3, h4⟩ | h1
              · rw [c6, b6] at h1
                rcases k2.files r' h1 with ⟨q, n1, n2, n3, n4⟩ | n
                · rw [a6] at n1
                  exact Or.inl ⟨q, n1, n2.trans h2, n3.trans h3, n4.trans h4⟩
                · right; omega
              · right; have h2 := k2.lastFile; omega
            · -- other calls
              intro t ht hne
              rw [d7] at ht
              rcases hset.sub t (m2.cf t ht) with ⟨h1, _⟩ | ⟨h1, _⟩
              · rw [b7] at h1; rw [← a7]; exact k2.cf t h1
              · exact absurd h1 hne
            · -- this call
              intro t ht hid q hq hqid
              rw [d7] at ht
              rw [d6] at hq
              have ht3 := m2.cf t ht
              have hq3 : ∃ q0 ∈ db2.files, q0.id = q.id ∧ q0.name = q.name := by
                rcases m2.files q hq with ⟨q0, n1, n2, n3, _⟩ | hlt
                · rw [c6, b6] at n1; exact ⟨q0, n1, n2, n3⟩
                · have := hwf3.cfFile t ht3; omega
              obtain ⟨q0, n1, n2, n3⟩ := hq3
              rcases hset.sub t ht3 with ⟨h1, h2⟩ | ⟨_, u, hu, h1, h2⟩
              · rw [b7] at h1
                constructor
                · intro hext
                  obtain ⟨t1, p1, c, p2, p3, r, p4, p5, p6, p7⟩ := k6 q.name hext
                  have := k1.fileName r p4 q0 n1 (by rw [p6, n3])
                  subst this
                  obtain ⟨x', _, _, p8⟩ := k5 t1 p1
                  have hd : t1.1 = false := by
                    cases hd : t1.1 with
                    | false => rfl
                    | true =>
                      exfalso
                      refine h2 ⟨hid, t1.2, ?_, ?_⟩
                      · exact List.mem_map.2 ⟨t1, List.mem_filter.2 ⟨p1, hd⟩, rfl⟩
                      · rw [← p5, n2, hqid]
                  have := k1.cfKey t h1 _ (p8 hd) hid (by simp only; rw [← p5, n2, hqid])
                  exact ⟨c, p2, by rw [this]; exact p3⟩
                · intro _
                  rw [← a7]; exact k2.cf t h1
              · obtain ⟨t1, p1, p2, rfl⟩ := hus u hu
                obtain ⟨x, p3, ⟨c, p4, p5, r, p6, p7, p8, p9⟩, _⟩ := k5 t1 p1
                have := k1.fileId r p6 q0 n1 (by rw [p7, h1, n2, hqid])
                subst this
                have hxn : x = q.name := by rw [← p8, n3]
                subst hxn
                exact ⟨fun _ => ⟨c, p4, by rw [← h2, p5]⟩, fun hx => absurd p3 hx⟩
            · intro t ht hne
              rw [d8] at ht
              have ht := m2.es t ht
              rw [c7, b8, hrows] at ht
              rcases List.mem_append.1 ht with ht | ht
              · exact (hes1.1 t (k2.es t ht)).1
              · obtain ⟨i, _, rfl⟩ := List.mem_map.1 ht
                exact absurd rfl hne
            · intro t ht hid q hq hqid
              rw [d8] at ht
              rw [d6] at hq
              have ht3 := m2.es t ht
              have hq3 : ∃ q0 ∈ db2.files, q0.id = q.id ∧ q0.name = q.name := by
                rcases m2.files q hq with ⟨q0, n1, n2, n3, _⟩ | hlt
                · rw [c6, b6] at n1; exact ⟨q0, n1, n2, n3⟩
                · have := hwf3.esFile t ht3; omega
              obtain ⟨q0, n1, n2, n3⟩ := hq3
              rw [c7, b8, hrows] at ht3
              rcases List.mem_append.1 ht3 with ht3 | ht3
              · exact absurd hid (hes1.1 t (k2.es t ht3)).2
              · obtain ⟨i, hi, rfl⟩ := List.mem_map.1 ht3
                obtain ⟨t1, p1, rfl⟩ := List.mem_map.1 hi
                obtain ⟨x, p3, ⟨c, p4, p5, r, p6, p7, p8, p9⟩, _⟩ := k5 t1 p1
                have := k1.fileId r p6 q0 n1 (by rw [p7, n2, hqid])
                subst this
                rw [← n3, p8]; exact p3
            · intro t ht hne
              rw [d9, hrows'] at ht
              rcases List.mem_append.1 ht with ht | ht
              · have ht := m2.ed t ht
                rw [c8, b9] at ht
                exact (hes1.2 t (k2.ed t ht)).1
              · obtain ⟨i, _, rfl⟩ := List.mem_map.1 ht
                exact absurd rfl hne
            · intro t ht hid q hq hqid
              rw [d9, hrows'] at ht
              rw [d6] at hq
              rcases List.mem_append.1 ht with ht | ht
              · have ht := m2.ed t ht
                rw [c8, b9] at ht
                exact absurd hid (hes1.2 t (k2.ed t ht)).2
              · obtain ⟨i, hi, rfl⟩ := List.mem_map.1 ht
                obtain ⟨t1, p1, rfl⟩ := List.mem_map.1 hi
                obtain ⟨x, p3, ⟨c, p4, p5, r, p6, p7, p8, p9⟩, _⟩ := m5 t1 (List.mem_filter.1 p1).1
                have := m1.fileId r p6 q hq (by rw [p7, hqid])
                subst this
                rw [p8]; exact p3
            · -- links to sources
              intro x hx
              obtain ⟨t1, p1, p2⟩ := k6 x hx
              have hcf3 : (cid, t1.2.1, t1.2.2) ∈ db3.callFiles := by
                by_cases hex : ∃ u ∈ (ts.filter (fun t => t.1)).map (fun t => t.2), u.1 = t1.2.1
                · obtain ⟨u, hu, h1⟩ := hex
                  obtain ⟨u', hu', h2, h3⟩ := hset.has u hu
                  obtain ⟨t', q1, _, rfl⟩ := hus u' hu'
                  have := huniq t' q1 t1 p1 (h2.trans h1)
                  rw [this, h2, h1] at h3; exact h3
                · obtain ⟨x', _, _, p8⟩ := k5 t1 p1
                  have hd : t1.1 = false := by
                    cases hd : t1.1 with
                    | false => rfl
                    | true =>
                      exfalso
                      exact hex ⟨t1.2, List.mem_map.2 ⟨t1, List.mem_filter.2 ⟨p1, hd⟩, rfl⟩, rfl⟩
                  refine hset.keep _ (by rw [b7]; exact p8 hd) ?_
                  rintro ⟨_, hu⟩; exact hex hu
              have hs3 : Seen env db3 x t1.2.1 t1.2.2 := by
                obtain ⟨c, h1, h2, r, h3, h4⟩ := p2
                exact ⟨c, h1, h2, r, by rw [c6, b6]; exact h3, h4⟩
              have hes3 : (cid, t1.2.1) ∈ db3.externalSrcs := by
                rw [c7, b8, hrows]
                exact List.mem_append_right _ (List.mem_map.2 ⟨t1.2.1, List.mem_map.2 ⟨t1, p1, rfl⟩, rfl⟩)
              obtain ⟨hs4, hcf4⟩ := hs3.kept m3
              have hes4 : (cid, t1.2.1) ∈ db4.externalSrcs := by
                obtain ⟨c, h1, h2, r, h3, h4, h5, h6⟩ := hs3
                exact (m3 r h3 (Or.inr (Or.inr ⟨c, by rw [h5]; exact h1, by rw [h6, h2]⟩))).es _ hes3 h4.symm
              refine ⟨t1.2.1, t1.2.2, ?_, by rw [d8]; exact hes4, by rw [d7]; exact hcf4 _ hcf3⟩
              obtain ⟨c, h1, h2, r, h3, h4⟩ := hs4
              exact ⟨c, h1, h2, r, by rw [d6]; exact h3, h4⟩
            · -- links to destinations
              intro x hx
              obtain ⟨t1, p1, p2⟩ := m6 x hx
              refine ⟨t1.2.1, t1.2.2, ?_, ?_⟩
              · obtain ⟨c, h1, h2, r, h3, h4⟩ := p2
                exact ⟨c, h1, h2, r, by rw [d6]; exact h3, h4⟩
              · obtain ⟨x', _, _, p8⟩ := m5 t1 p1
                cases hd : t1.1 with
                | false => right; rw [d7]; exact p8 hd
                | true =>
                  left
                  rw [d9, hrows']
                  exact List.mem_append_right _ (List.mem_map.2 ⟨t1.2.1,
                    List.mem_map.2 ⟨t1, List.mem_filter.2 ⟨p1, hd⟩, rfl⟩, rfl⟩)
            · -- rows in sync are kept
              intro r hr hsync i hi
              have q1 := hkeep1 r hr i hi
              refine q1.trans ?_
              intro r1 hr1 e1 e2 e3
              have hs1 := hsync.congr e2 e3
              have q2 := (k3 r1 hr1 (hs1.mono (by simp +contextual))).call i
              refine q2.trans ?_
              intro r2 hr2 f1 f2 f3
              have hs2 := hs1.congr f2 f3
              have q3 : KeptCall i r2 db2 db3 := by
                refine ⟨⟨r2, by rw [c6, b6]; exact hr2, rfl, rfl, rfl⟩, ?_, ?_, ?_⟩
                · intro d hd
                  refine hset.keep _ (by rw [b7]; exact hd) ?_
                  rintro ⟨h1, _⟩; exact hi h1
                · intro hm; rw [c7, b8, hrows]; exact List.mem_append_left _ hm
                · intro hm; rw [c8, b9]; exact hm
              refine q3.trans ?_
              intro r3 hr3 g1 g2 g3
              have hs3 := hs2.congr g2 g3
              have q4 := (m3 r3 hr3 (hs3.mono (by simp +contextual))).call i
              refine q4.trans ?_
              intro r4 hr4 _ _ _
              refine ⟨⟨r4, by rw [d6]; exact hr4, rfl, rfl, rfl⟩, ?_, ?_, ?_⟩
              · intro d hd; rw [d7]; exact hd
              · intro hm; rw [d8]; exact hm
              · intro hm; rw [d9, hrows']; exact List.mem_append_left _ hm

/-- What `cache` does when it does not raise: `cid` is the row of the call. -/
structure SStored (vers : FileName → Nat → Option Content) (env : Env) (dirty : Bool)
    (funId : Option Nat) (f : FunName) (code : Digest) (cid0 : Option Nat) (b : B) (r : R)
    (digs : List (Nat × FileName × Digest)) (ext extDsts : List FileName) (fid cid : Nat)
    (db db' : SDB B R) : Prop where
  wf : SWF vers env.md5 db'
  lastFun : db.lastFun ≤ db'.lastFun
  lastCall : db.lastCall ≤ db'.lastCall
  lastFile : db.lastFile ≤ db'.lastFile
  cidIs : cid0 = some cid ∨ (cid0 = none ∧ cid = db.lastCall + 1 ∧ ∃ c ∈ db'.calls, c.id = cid)
  fidIs : (dirty = false ∧ funId = some fid) ∨ (dirty = true ∧ fid = db.lastFun + 1)
  callOther : ∀ c ∈ db'.calls, c.id ≠ cid → c ∈ db.calls ∧
    (dirty = true → ∀ g ∈ db.functions, g.id = c.fn → g.name ≠ f)
  callNew : ∀ c ∈ db'.calls, c.id = cid → c.result = r ∧
    ((cid0 = none ∧ c.fn = fid ∧ c.bound = b) ∨
      ∃ c0 ∈ db.calls, c0.id = cid ∧ c0.fn = c.fn ∧ c0.bound = c.bound ∧
        (dirty = true → ∀ g ∈ db.functions, g.id = c0.fn → g.name ≠ f))
  funs : ∀ g ∈ db'.functions, (g ∈ db.functions ∧ (dirty = true → g.name ≠ f)) ∨
    (dirty = true ∧ g.id = db.lastFun + 1 ∧ g.name = f ∧ g.digest = code)
  files : ∀ r ∈ db'.files, SameRow r db ∨ db.lastFile < r.id
  cfOther : ∀ t ∈ db'.callFiles, t.1 ≠ cid → t ∈ db.callFiles
  cfNew : ∀ t ∈ db'.callFiles, t.1 = cid → ∀ q ∈ db'.files, q.id = t.2.1 →
    (q.name ∈ ext → ∃ c, env.fs.content q.name = some c ∧ t.2.2 = env.md5 c) ∧
    (q.name ∉ ext → SameRow q db ∧
      ((∃ u ∈ digs, u.1 = t.2.1 ∧ u.2.2 = t.2.2) ∨
        (t ∈ db.callFiles ∧ ∀ u ∈ digs, u.1 ≠ t.2.1)))
  refs : ∀ u ∈ digs, ∃ q ∈ db.files, q.id = u.1
  esOther : ∀ t ∈ db'.externalSrcs, t.1 ≠ cid → t ∈ db.externalSrcs
  esNew : ∀ t ∈ db'.externalSrcs, t.1 = cid → ∀ q ∈ db'.files, q.id = t.2 → q.name ∈ ext
  edOther : ∀ t ∈ db'.externalDsts, t.1 ≠ cid → t ∈ db.externalDsts
  edNew : ∀ t ∈ db'.externalDsts, t.1 = cid → ∀ q ∈ db'.files, q.id = t.2 → q.name ∈ extDsts
  linkSrc : ∀ x ∈ ext, ∃ fid d, Seen env db' x fid d ∧ (cid, fid) ∈ db'.externalSrcs ∧
    (cid, fid, d) ∈ db'.callFiles
  linkDst : ∀ x ∈ extDsts, ∃ fid d, Seen env db' x fid d ∧
    ((cid, fid) ∈ db'.externalDsts ∨ (cid, fid, d) ∈ db'.callFiles)
  keep : ∀ q ∈ db.files, InSync env (ext ++ extDsts) q → ∀ c ∈ db'.calls, c.id ≠ cid →
    KeptCall c.id q db db'

theorem cache_split {save : Nat → SDB B R → Except Err Unit × SDB B R} {dirty : Bool}
    {funId : Option Nat} {f : FunName} {code : Digest} {deps : List FunName} {cid0 : Option Nat}
    {b : B} {r : R} {digs : List (Nat × FileName × Digest)}
    (he : cache (SDB.storage B R) save dirty funId f code deps cid0 b r digs db = (.ok (), db')) :
    ∃ fid db1 cid db2 db3, recordFunS dirty funId f code deps db = (.ok (some fid), db1) ∧
      SDB.saveCall cid0 fid b r db1 = (.ok cid, db2) ∧
      saveCallFiles (SDB.storage B R) cid digs db2 = (.ok (), db3) ∧
      save cid db3 = (.ok (), db') := by
  unfold cache at he
  unfold recordFunS
  cases dirty with
  | false =>
    simp only [Bool.false_eq_true, if_false] at he ⊢
    cases funId with
    | none => simp at he
    | some fid =>
      simp only at he
      have hs2 : (SDB.storage B R).saveCall cid0 fid b r db = SDB.saveCall cid0 fid b r db := rfl
      rw [hs2] at he
      clear hs2
      generalize hsc : SDB.saveCall cid0 fid b r db = X at he
      obtain ⟨o, db2⟩ := X
      cases o with
      | error e => simp at he
      | ok cid =>
        simp only at he
        generalize hcf : saveCallFiles (SDB.storage B R) cid digs db2 = Y at he
        obtain ⟨o2, db3⟩ := Y
        cases o2 with
        | error e => simp at he
        | ok u => exact ⟨fid, db, cid, db2, db3, rfl, hsc, hcf, he⟩
  | true =>
    simp only [if_true] at he ⊢
    have hs : (SDB.storage B R).saveFunction none f code deps
        (if funId.isSome = true then ((SDB.storage B R).deleteFunction f db).2 else db) =
        SDB.saveFunction none f code deps
        (if funId.isSome = true then (SDB.deleteFunction f db).2 else db) := rfl
    rw [hs] at he
    generalize SDB.saveFunction none f code deps
      (if funId.isSome = true then (SDB.deleteFunction f db).2 else db) = X at he
    obtain ⟨o, db1⟩ := X
    cases o with
    | error e => simp at he
    | ok fid =>
      simp only at he
      have hs2 : (SDB.storage B R).saveCall cid0 fid b r db1 = SDB.saveCall cid0 fid b r db1 := rfl
      rw [hs2] at he
      clear hs2
      generalize hsc : SDB.saveCall cid0 fid b r db1 = X at he
      obtain ⟨o, db2⟩ := X
      cases o with
      | error e => simp at he
      | ok cid =>
        simp only at he
        generalize hcf : saveCallFiles (SDB.storage B R) cid digs db2 = Y at he
        obtain ⟨o2, db3⟩ := Y
        cases o2 with
        | error e => simp at he
        | ok u => exact ⟨fid, db1, cid, db2, db3, rfl, hsc, hcf, he⟩

theorem cache_sql_at {dirty : Bool} {funId : Option Nat} {f : FunName} {code : Digest}
    {deps : List FunName} {cid0 : Option Nat} {b : B} {r : R}
    {digs : List (Nat × FileName × Digest)} {ext extDsts : List FileName} {fid cid : Nat}
    {db1 db2 db3 : SDB B R}
    (h : SWF vers env.md5 db) (hv : Faithful vers env.fs)
    (hdigs : ∀ u ∈ digs, ∀ u' ∈ digs, u.1 = u'.1 → u.2.2 = u'.2.2)
    (hr : recordFunS dirty funId f code deps db = (.ok (some fid), db1))
    (hsc : SDB.saveCall cid0 fid b r db1 = (.ok cid, db2))
    (hcf : saveCallFiles (SDB.storage B R) cid digs db2 = (.ok (), db3))
    (he : SDB.saveExternal env ext extDsts cid db3 = (.ok (), db')) :
    SWF vers env.md5 db3 ∧
      SStored vers env dirty funId f code cid0 b r digs ext extDsts fid cid db db' := by
  have k := recordFunS_ok h hr
  obtain ⟨m1, ⟨e1, e2, e3, e4, e5, e6, e7, e8⟩, m2, m3, m4, m5, m6⟩ := saveCall_sql k.wf hsc
  have hset := saveCallFiles_sql hcf
  have hwf3 : SWF vers env.md5 db3 := by
    refine hset.wf ?_ m1
    intro u hu u' hu' heq
    obtain ⟨t, ht, rfl⟩ := List.mem_map.1 hu
    obtain ⟨t', ht', rfl⟩ := List.mem_map.1 hu'
    exact hdigs t ht t' ht' heq
  have hr3 := hset.rest
  have f1 : db3.functions = db2.functions := by rw [hr3]
  have f2 : db3.calls = db2.calls := by rw [hr3]
  have f3 : db3.lastFun = db2.lastFun := by rw [hr3]
  have f4 : db3.lastCall = db2.lastCall := by rw [hr3]
  have f5 : db3.lastFile = db2.lastFile := by rw [hr3]
  have f6 : db3.files = db2.files := by rw [hr3]
  have f7 : db3.externalSrcs = db2.externalSrcs := by rw [hr3]
  have f8 : db3.externalDsts = db2.externalDsts := by rw [hr3]
  clear hr3
  have x := saveExternal_sql hwf3 hv he
  obtain ⟨s1, s2, s3, s4⟩ := k.same
  have hcalls : db'.calls = db2.calls := by rw [x.calls, f2]
  have hfuns : db'.functions = db1.functions := by rw [x.functions, f1, e1]
  refine ⟨hwf3, x.wf, ?_, ?_, ?_, ?_, ?_, ?_, ?_, ?_, ?_, ?_, ?_, ?_, ?_, x.esNew, ?_, x.edNew, x.linkSrc, x.linkDst, ?_⟩
  · rw [x.lastFun, f3, e7]; exact s4
  · rw [x.lastCall, f4]; omega
  · have := x.lastFile; omega
  · rcases m2 with m2 | ⟨m2, m7⟩
    · exact Or.inl m2
    · refine Or.inr ⟨m2, by omega, ?_⟩
      rw [hcalls]; exact m6 m2
  · cases hd : dirty with
    | false => exact Or.inl ⟨rfl, (k.clean hd).2⟩
    | true => exact Or.inr ⟨rfl, (k.fid hd).1⟩
  · intro c hc hne
    rw [hcalls] at hc
    exact k.calls c (m3 c hc hne)
  · intro c hc hid
    rw [hcalls] at hc
    obtain ⟨n1, n2⟩ := m5 c hc hid
    refine ⟨n1, n2.imp_right ?_⟩
    rintro ⟨c0, n3, n4, n5, n6⟩
    exact ⟨c0, (k.calls c0 n3).1, n4, n5, n6, (k.calls c0 n3).2⟩
  · rw [hfuns]; exact k.funs
  · intro q hq
    rcases x.files q hq with ⟨q', n1, n2⟩ | hlt
    · rw [f6, e2, s1] at n1; exact Or.inl ⟨q', n1, n2⟩
    · right; omega
  · intro t ht hne
    rcases hset.sub t (x.cfOther t ht hne) with ⟨n1, _⟩ | ⟨n1, _⟩
    · rw [e3] at n1; exact k.cf t n1
    · exact absurd n1 hne
  · intro t ht hid q hq hqid
    obtain ⟨n1, n2⟩ := x.cfNew t ht hid q hq hqid
    refine ⟨n1, fun hx => ?_⟩
    have n3 := n2 hx
    constructor
    · rcases x.files q hq with ⟨q', p1, p2⟩ | hlt
      · rw [f6, e2, s1] at p1; exact ⟨q', p1, p2⟩
      · have := hwf3.cfFile t n3; omega
    · rcases hset.sub t n3 with ⟨p1, p2⟩ | ⟨_, u, hu, p1, p2⟩
      · right
        rw [e3] at p1
        refine ⟨k.cf t p1, ?_⟩
        intro u hu hux
        exact p2 ⟨hid, _, List.mem_map.2 ⟨u, hu, rfl⟩, hux⟩
      · left
        obtain ⟨w, hw, rfl⟩ := List.mem_map.1 hu
        exact ⟨w, hw, p1, p2⟩
  · intro u hu
    obtain ⟨⟨q, p1, p2⟩, _⟩ := hset.refs _ (List.mem_map.2 ⟨u, hu, rfl⟩)
    rw [e2, s1] at p1
    exact ⟨q, p1, p2⟩
  · intro t ht hne
    have ht := x.esOther t ht hne
    rw [f7, e4] at ht; exact k.es t ht
  · intro t ht hne
    have ht := x.edOther t ht hne
    rw [f8, e5] at ht; exact k.ed t ht
  · intro q hq hsync c hc hne
    rw [hcalls] at hc
    obtain ⟨p1, p2, p3⟩ := k.keep c (m3 c hc hne)
    have q3 : KeptCall c.id q db db3 := by
      refine ⟨⟨q, by rw [f6, e2, s1]; exact hq, rfl, rfl, rfl⟩, ?_, ?_, ?_⟩
      · intro d hd
        refine hset.keep _ (by rw [e3]; exact p1 _ hd rfl) ?_
        rintro ⟨h1, _⟩; exact hne h1
      · intro hm; rw [f7, e4]; exact p2 _ hm rfl
      · intro hm; rw [f8, e5]; exact p3 _ hm rfl
    refine q3.trans ?_
    intro r3 hr3 g1 g2 g3
    exact x.keep r3 hr3 (hsync.congr g2 g3) c.id hne

theorem cache_sql {dirty : Bool} {funId : Option Nat} {f : FunName} {code : Digest}
    {deps : List FunName} {cid0 : Option Nat} {b : B} {r : R}
    {digs : List (Nat × FileName × Digest)} {ext extDsts : List FileName}
    (h : SWF vers env.md5 db) (hv : Faithful vers env.fs)
    (hdigs : ∀ u ∈ digs, ∀ u' ∈ digs, u.1 = u'.1 → u.2.2 = u'.2.2)
    (he : cache (SDB.storage B R) (SDB.saveExternal env ext extDsts) dirty funId f code deps cid0
      b r digs db = (.ok (), db')) :
    ∃ fid cid, SStored vers env dirty funId f code cid0 b r digs ext extDsts fid cid db db' := by
  obtain ⟨fid, db1, cid, db2, db3, hr, hsc, hcf, he⟩ := cache_split he
  exact ⟨fid, cid, (cache_sql_at h hv hdigs hr hsc hcf he).2⟩

end Verif.DB
