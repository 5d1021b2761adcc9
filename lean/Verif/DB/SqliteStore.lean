import Verif.DB.SqliteLemmas
/-! Lemmas about the sqlite tables: what storing a result can change. -/
namespace Verif.DB
open SDB
set_option linter.unusedSectionVars false

variable {B R : Type} [DecidableEq B] {vers : FileName → Nat → Option Content}
  {md5 : Content → Digest} {db db' : SDB B R}

/-- `delete_function` -/
theorem deleteFunction_sql (h : SWF vers md5 db) (f : FunName)
    (he : (SDB.deleteFunction f db).2 = db') :
    SWF vers md5 db' ∧
      (db'.files = db.files ∧ db'.lastFile = db.lastFile ∧ db'.lastCall = db.lastCall ∧
        db'.lastFun = db.lastFun) ∧
      (∀ g, g ∈ db'.functions ↔ g ∈ db.functions ∧ g.name ≠ f) ∧
      (∀ c, c ∈ db'.calls ↔ c ∈ db.calls ∧ ∀ g ∈ db.functions, g.id = c.fn → g.name ≠ f) ∧
      ((∀ t ∈ db'.callFiles, t ∈ db.callFiles) ∧ (∀ t ∈ db'.externalSrcs, t ∈ db.externalSrcs) ∧
        ∀ t ∈ db'.externalDsts, t ∈ db.externalDsts) ∧
      (∀ c ∈ db'.calls, (∀ t ∈ db.callFiles, t.1 = c.id → t ∈ db'.callFiles) ∧
        (∀ t ∈ db.externalSrcs, t.1 = c.id → t ∈ db'.externalSrcs) ∧
        ∀ t ∈ db.externalDsts, t.1 = c.id → t ∈ db'.externalDsts) := by
  have hfun : ∀ g, g ∈ db'.functions ↔ g ∈ db.functions ∧ g.name ≠ f := by
    subst he; intro g; simp [SDB.deleteFunction]
  have hcall : ∀ c, c ∈ db'.calls ↔ c ∈ db.calls ∧ ∀ g ∈ db.functions, g.id = c.fn → g.name ≠ f := by
    subst he; intro c
    simp only [SDB.deleteFunction, List.mem_filter, List.mem_map, decide_eq_true_eq, not_exists,
      not_and]
    constructor
    · rintro ⟨h1, h2⟩; exact ⟨h1, fun g hg hid hn => h2 g ⟨hg, hn⟩ hid⟩
    · rintro ⟨h1, h2⟩; exact ⟨h1, fun g hg hid => h2 g hg.1 hid hg.2⟩
  have hdead : ∀ i, i ∈ (db.calls.filter (fun c => c.fn ∈
      (db.functions.filter (fun r => r.name = f)).map FunRow.id)).map CallRow.id →
      ∃ c ∈ db.calls, c.id = i ∧ c ∉ db'.calls := by
    intro i hi
    simp only [List.mem_map, List.mem_filter, decide_eq_true_eq] at hi
    obtain ⟨c, ⟨hc, g, ⟨hg, hn⟩, hid⟩, rfl⟩ := hi
    refine ⟨c, hc, rfl, ?_⟩
    rw [hcall]
    rintro ⟨_, h2⟩
    exact h2 g hg hid hn
  have hcf : ∀ t ∈ db'.callFiles, t ∈ db.callFiles ∧ ∃ c ∈ db'.calls, c.id = t.1 := by
    intro t ht
    have ht' : t ∈ db.callFiles := by subst he; exact (List.mem_filter.1 ht).1
    refine ⟨ht', ?_⟩
    obtain ⟨c, hc, hid⟩ := h.cfCall t ht'
    refine ⟨c, ?_, hid⟩
    rw [hcall]
    refine ⟨hc, fun g hg hgid hn => ?_⟩
    subst he
    have := (List.mem_filter.1 ht).2
    simp only [List.mem_map, List.mem_filter, decide_eq_true_eq] at this
    exact this ⟨c, ⟨hc, g, ⟨hg, hn⟩, hgid⟩, hid⟩
  have hkeep : ∀ c ∈ db'.calls, c.id ∉ (db.calls.filter (fun c => c.fn ∈
      (db.functions.filter (fun r => r.name = f)).map FunRow.id)).map CallRow.id := by
    intro c hc hm
    obtain ⟨c', h1, h2, h3⟩ := hdead _ hm
    have := h.callId c' h1 c ((hcall c).1 hc).1 h2
    subst this; exact h3 hc
  have hes : ∀ t ∈ db'.externalSrcs, t ∈ db.externalSrcs := by
    subst he; intro t ht; exact (List.mem_filter.1 ht).1
  have hed : ∀ t ∈ db'.externalDsts, t ∈ db.externalDsts := by
    subst he; intro t ht; exact (List.mem_filter.1 ht).1
  have hsame : db'.files = db.files ∧ db'.lastFile = db.lastFile ∧ db'.lastCall = db.lastCall ∧
      db'.lastFun = db.lastFun := by subst he; exact ⟨rfl, rfl, rfl, rfl⟩
  have hk : ∀ c ∈ db'.calls, (∀ t ∈ db.callFiles, t.1 = c.id → t ∈ db'.callFiles) ∧
        (∀ t ∈ db.externalSrcs, t.1 = c.id → t ∈ db'.externalSrcs) ∧
        ∀ t ∈ db.externalDsts, t.1 = c.id → t ∈ db'.externalDsts := by
    intro c hc
    have hd := hkeep c hc
    subst he
    refine ⟨?_, ?_, ?_⟩
    all_goals
      intro t ht hid
      refine List.mem_filter.2 ⟨ht, ?_⟩
      rw [hid]
      exact decide_eq_true hd
  clear he
  obtain ⟨e1, e2, e3, e4⟩ := hsame
  refine ⟨?_, ⟨e1, e2, e3, e4⟩, hfun, hcall, ⟨fun t ht => (hcf t ht).1, hes, hed⟩, hk⟩
  constructor
  · rw [e1, e2]; exact h.fileLe
  · rw [e1]; exact h.fileId
  · rw [e1]; exact h.fileName
  · rw [e1]; exact h.filesOK
  · intro t ht; rw [e2]; exact h.cfFile t (hcf t ht).1
  · intro t ht; exact (hcf t ht).2
  · intro t ht t' ht'; exact h.cfKey t (hcf t ht).1 t' (hcf t' ht').1
  · intro c hc; rw [e3]; exact h.callLe c ((hcall c).1 hc).1
  · intro c hc c' hc'; exact h.callId c ((hcall c).1 hc).1 c' ((hcall c').1 hc').1
  · intro c hc
    obtain ⟨h1, h2⟩ := (hcall c).1 hc
    obtain ⟨g, hg, hid⟩ := h.callFun c h1
    exact ⟨g, (hfun g).2 ⟨hg, h2 g hg hid⟩, hid⟩
  · intro g hg; rw [e4]; exact h.funLe g ((hfun g).1 hg).1
  · intro g hg g' hg'; exact h.funId g ((hfun g).1 hg).1 g' ((hfun g').1 hg').1
  · intro g hg g' hg'; exact h.funName g ((hfun g).1 hg).1 g' ((hfun g').1 hg').1
  · intro t ht; rw [e2]; exact h.esFile t (hes t ht)
  · intro t ht; rw [e2]; exact h.edFile t (hed t ht)

/-- the part of `cache` up to `save_function` -/
def recordFunS (dirty : Bool) (funId : Option Nat) (f : FunName) (code : Digest)
    (deps : List FunName) (db : SDB B R) : Except Err (Option Nat) × SDB B R :=
  if dirty then
    let s1 := if funId.isSome then (SDB.deleteFunction f db).2 else db
    match SDB.saveFunction none f code deps s1 with
    | (.error e, s2) => (.error e, s2)
    | (.ok fid, s2) => (.ok (some fid), s2)
  else (.ok funId, db)

/-- What recording the function does. -/
structure FunRecorded (vers : FileName → Nat → Option Content) (md5 : Content → Digest)
    (dirty : Bool) (funId : Option Nat) (f : FunName) (code : Digest) (fid : Nat)
    (db db' : SDB B R) : Prop where
  wf : SWF vers md5 db'
  same : db'.files = db.files ∧ db'.lastFile = db.lastFile ∧ db'.lastCall = db.lastCall ∧
    db.lastFun ≤ db'.lastFun
  clean : dirty = false → db' = db ∧ funId = some fid
  fid : dirty = true → fid = db.lastFun + 1 ∧ ∃ g ∈ db'.functions, g.id = fid
  calls : ∀ c ∈ db'.calls, c ∈ db.calls ∧
    (dirty = true → ∀ g ∈ db.functions, g.id = c.fn → g.name ≠ f)
  funs : ∀ g ∈ db'.functions, (g ∈ db.functions ∧ (dirty = true → g.name ≠ f)) ∨
    (dirty = true ∧ g.id = db.lastFun + 1 ∧ g.name = f ∧ g.digest = code)
  cf : ∀ t ∈ db'.callFiles, t ∈ db.callFiles
  es : ∀ t ∈ db'.externalSrcs, t ∈ db.externalSrcs
  ed : ∀ t ∈ db'.externalDsts, t ∈ db.externalDsts
  keep : ∀ c ∈ db'.calls, (∀ t ∈ db.callFiles, t.1 = c.id → t ∈ db'.callFiles) ∧
        (∀ t ∈ db.externalSrcs, t.1 = c.id → t ∈ db'.externalSrcs) ∧
        ∀ t ∈ db.externalDsts, t.1 = c.id → t ∈ db'.externalDsts

theorem recordFunS_ok {dirty : Bool} {funId : Option Nat} {f : FunName} {code : Digest}
    {deps : List FunName} {fid : Nat} (h : SWF vers md5 db)
    (he : recordFunS dirty funId f code deps db = (.ok (some fid), db')) :
    FunRecorded vers md5 dirty funId f code fid db db' := by
  unfold recordFunS at he
  cases dirty with
  | false =>
    simp only [Bool.false_eq_true, if_false, Prod.mk.injEq, Except.ok.injEq] at he
    obtain ⟨rfl, rfl⟩ := he
    exact ⟨h, ⟨rfl, rfl, rfl, Nat.le_refl _⟩, fun _ => ⟨rfl, rfl⟩, fun h => (nomatch h),
      fun c hc => ⟨hc, fun h => nomatch h⟩, fun g hg => Or.inl ⟨hg, fun h => nomatch h⟩,
      fun _ h => h, fun _ h => h, fun _ h => h,
      fun c hc => ⟨fun _ h _ => h, fun _ h _ => h, fun _ h _ => h⟩⟩
  | true =>
    simp only [if_true] at he
    -- the tables after a possible deletion
    have hpre : ∃ db1, (if funId.isSome then (SDB.deleteFunction f db).2 else db) = db1 ∧
        SWF vers md5 db1 ∧
        (db1.files = db.files ∧ db1.lastFile = db.lastFile ∧ db1.lastCall = db.lastCall ∧
          db1.lastFun = db.lastFun) ∧
        (∀ g ∈ db1.functions, g ∈ db.functions) ∧
        (∀ c ∈ db1.calls, c ∈ db.calls ∧ ((∀ g ∈ db1.functions, g.name ≠ f) →
          ∀ g ∈ db.functions, g.id = c.fn → g.name ≠ f)) ∧
        ((∀ t ∈ db1.callFiles, t ∈ db.callFiles) ∧ (∀ t ∈ db1.externalSrcs, t ∈ db.externalSrcs) ∧
          ∀ t ∈ db1.externalDsts, t ∈ db.externalDsts) ∧
        (∀ c ∈ db1.calls, (∀ t ∈ db.callFiles, t.1 = c.id → t ∈ db1.callFiles) ∧
          (∀ t ∈ db.externalSrcs, t.1 = c.id → t ∈ db1.externalSrcs) ∧
          ∀ t ∈ db.externalDsts, t.1 = c.id → t ∈ db1.externalDsts) := by
      cases funId with
      | none =>
        exact ⟨db, rfl, h, ⟨rfl, rfl, rfl, rfl⟩, fun _ h => h, fun c hc => ⟨hc, fun hx g hg _ => hx g hg⟩,
          ⟨fun _ h => h, fun _ h => h, fun _ h => h⟩,
          fun c hc => ⟨fun _ h _ => h, fun _ h _ => h, fun _ h _ => h⟩⟩
      | some i =>
        obtain ⟨k1, k2, k3, k4, k5, k6⟩ := deleteFunction_sql h f rfl
        exact ⟨_, rfl, k1, k2, fun g hg => ((k3 g).1 hg).1,
          fun c hc => ⟨((k4 c).1 hc).1, fun _ => ((k4 c).1 hc).2⟩, k5, k6⟩
    obtain ⟨db1, hdb1, k1, ⟨e1, e2, e3, e4⟩, k3, k4, ⟨k5, k6, k7⟩, k8⟩ := hpre
    rw [hdb1] at he
    unfold SDB.saveFunction at he
    simp only at he
    by_cases hany : db1.functions.any (fun r => r.name = f)
    · rw [if_pos hany] at he; simp at he
    · rw [if_neg hany] at he
      simp only [Prod.mk.injEq, Except.ok.injEq, Option.some.injEq] at he
      obtain ⟨rfl, rfl⟩ := he
      have hn : ∀ g ∈ db1.functions, g.name ≠ f := by
        intro g hg hn
        exact hany (List.any_eq_true.2 ⟨g, hg, by simpa using hn⟩)
      have hcase : ∀ g ∈ db1.functions ++ [(⟨db1.lastFun + 1, f, code, deps⟩ : FunRow)],
          g ∈ db1.functions ∨ g = ⟨db1.lastFun + 1, f, code, deps⟩ := by
        intro g hg; simpa using hg
      refine ⟨?_, ⟨e1, e2, e3, by simp only; omega⟩, fun h => (nomatch h), fun _ => ⟨by rw [e4], ?_⟩,
        fun c hc => ⟨(k4 c hc).1, fun _ => (k4 c hc).2 hn⟩, ?_, k5, k6, k7, k8⟩
      · constructor
        · exact k1.fileLe
        · exact k1.fileId
        · exact k1.fileName
        · exact k1.filesOK
        · exact k1.cfFile
        · exact k1.cfCall
        · exact k1.cfKey
        · exact k1.callLe
        · exact k1.callId
        · intro c hc
          obtain ⟨g, hg, hid⟩ := k1.callFun c hc
          exact ⟨g, List.mem_append_left _ hg, hid⟩
        · intro g hg
          rcases hcase g hg with hg | rfl
          · have := k1.funLe g hg; simp only; omega
          · exact Nat.le_refl _
        · intro g hg g' hg' heq
          rcases hcase g hg with hg | rfl <;> rcases hcase g' hg' with hg' | rfl
          · exact k1.funId g hg g' hg' heq
          · have := k1.funLe g hg; simp only at heq; omega
          · have := k1.funLe g' hg'; simp only at heq; omega
          · rfl
        · intro g hg g' hg' heq
          rcases hcase g hg with hg | rfl <;> rcases hcase g' hg' with hg' | rfl
          · exact k1.funName g hg g' hg' heq
          · exact absurd heq (hn g hg)
          · exact absurd heq.symm (hn g' hg')
          · rfl
        · exact k1.esFile
        · exact k1.edFile
      · exact ⟨_, List.mem_append_right _ (List.mem_singleton.2 rfl), rfl⟩
      · intro g hg
        rcases hcase g hg with hg | rfl
        · exact Or.inl ⟨k3 g hg, fun _ => hn g hg⟩
        · exact Or.inr ⟨rfl, by rw [e4], rfl, rfl⟩

/-- What `save_call` does. -/
theorem saveCall_sql {cid0 : Option Nat} {fid : Nat} {b : B} {r : R} {cid : Nat}
    (h : SWF vers md5 db) (he : SDB.saveCall cid0 fid b r db = (.ok cid, db')) :
    SWF vers md5 db' ∧
      (db'.functions = db.functions ∧ db'.files = db.files ∧ db'.callFiles = db.callFiles ∧
        db'.externalSrcs = db.externalSrcs ∧ db'.externalDsts = db.externalDsts ∧
        db'.lastFile = db.lastFile ∧ db'.lastFun = db.lastFun ∧ db.lastCall ≤ db'.lastCall) ∧
      (cid0 = some cid ∨ (cid0 = none ∧ cid = db.lastCall + 1)) ∧
      (∀ c ∈ db'.calls, c.id ≠ cid → c ∈ db.calls) ∧
      (∀ c ∈ db.calls, c.id ≠ cid → c ∈ db'.calls) ∧
      (∀ c ∈ db'.calls, c.id = cid → c.result = r ∧
        ((cid0 = none ∧ c.fn = fid ∧ c.bound = b) ∨
          ∃ c0 ∈ db.calls, c0.id = cid ∧ c0.fn = c.fn ∧ c0.bound = c.bound)) ∧
      (cid0 = none → ∃ c ∈ db'.calls, c.id = cid) := by
  unfold SDB.saveCall at he
  cases cid0 with
  | none =>
    simp only at he
    by_cases hany : db.functions.any (fun f => f.id = fid)
    · rw [if_pos hany] at he
      simp only [Prod.mk.injEq, Except.ok.injEq] at he
      obtain ⟨rfl, rfl⟩ := he
      have hcase : ∀ c ∈ db.calls ++ [(⟨db.lastCall + 1, fid, b, r⟩ : CallRow B R)],
          c ∈ db.calls ∨ c = ⟨db.lastCall + 1, fid, b, r⟩ := by intro c hc; simpa using hc
      refine ⟨?_, ⟨rfl, rfl, rfl, rfl, rfl, rfl, rfl, Nat.le_succ _⟩, Or.inr ⟨rfl, rfl⟩, ?_, ?_, ?_, ?_⟩
      · constructor
        · exact h.fileLe
        · exact h.fileId
        · exact h.fileName
        · exact h.filesOK
        · exact h.cfFile
        · intro t ht
          obtain ⟨c, hc, hid⟩ := h.cfCall t ht
          exact ⟨c, List.mem_append_left _ hc, hid⟩
        · exact h.cfKey
        · intro c hc
          rcases hcase c hc with hc | rfl
          · have := h.callLe c hc; simp only; omega
          · exact Nat.le_refl _
        · intro c hc c' hc' heq
          rcases hcase c hc with hc | rfl <;> rcases hcase c' hc' with hc' | rfl
          · exact h.callId c hc c' hc' heq
          · have := h.callLe c hc; simp only at heq; omega
          · have := h.callLe c' hc'; simp only at heq; omega
          · rfl
        · intro c hc
          rcases hcase c hc with hc | rfl
          · exact h.callFun c hc
          · obtain ⟨g, hg, hid⟩ := List.any_eq_true.1 hany
            exact ⟨g, hg, by simpa using hid⟩
        · exact h.funLe
        · exact h.funId
        · exact h.funName
        · exact h.esFile
        · exact h.edFile
      · intro c hc hne
        rcases hcase c hc with hc | rfl
        · exact hc
        · exact absurd rfl hne
      · intro c hc _; exact List.mem_append_left _ hc
      · intro c hc hid
        rcases hcase c hc with hc | rfl
        · have := h.callLe c hc; omega
        · exact ⟨rfl, Or.inl ⟨rfl, rfl, rfl⟩⟩
      · intro _; exact ⟨_, List.mem_append_right _ (List.mem_singleton.2 rfl), rfl⟩
    · rw [if_neg hany] at he; simp at he
  | some i =>
    simp only [Prod.mk.injEq, Except.ok.injEq] at he
    obtain ⟨rfl, rfl⟩ := he
    have hmap : ∀ c ∈ db.calls.map (fun c => if c.id = i then { c with result := r } else c),
        ∃ c0 ∈ db.calls, c.id = c0.id ∧ c.fn = c0.fn ∧ c.bound = c0.bound ∧
          (c.id = i → c.result = r) ∧ (c.id ≠ i → c = c0) ∧
          c = if c0.id = i then { c0 with result := r } else c0 := by
      intro c hc
      obtain ⟨c0, hc0, rfl⟩ := List.mem_map.1 hc
      refine ⟨c0, hc0, ?_⟩
      split
      · rename_i hid; exact ⟨rfl, rfl, rfl, fun _ => rfl, fun hx => absurd hid hx, rfl⟩
      · rename_i hid; exact ⟨rfl, rfl, rfl, fun hx => absurd hx hid, fun _ => rfl, rfl⟩
    refine ⟨?_, ⟨rfl, rfl, rfl, rfl, rfl, rfl, rfl, Nat.le_refl _⟩, Or.inl rfl, ?_, ?_, ?_, ?_⟩
    · constructor
      · exact h.fileLe
      · exact h.fileId
      · exact h.fileName
      · exact h.filesOK
      · exact h.cfFile
      · intro t ht
        obtain ⟨c, hc, hid⟩ := h.cfCall t ht
        refine ⟨_, List.mem_map.2 ⟨c, hc, rfl⟩, ?_⟩
        split <;> exact hid
      · exact h.cfKey
      · intro c hc
        obtain ⟨c0, h1, h2, _⟩ := hmap c hc
        rw [h2]; exact h.callLe c0 h1
      · intro c hc c' hc' heq
        obtain ⟨c0, h1, h2, _, _, _, _, h3⟩ := hmap c hc
        obtain ⟨c0', h1', h2', _, _, _, _, h3'⟩ := hmap c' hc'
        have := h.callId c0 h1 c0' h1' (by rw [← h2, ← h2', heq])
        subst this
        rw [h3, h3']
      · intro c hc
        obtain ⟨c0, h1, h2, h3, _⟩ := hmap c hc
        rw [h3]; exact h.callFun c0 h1
      · exact h.funLe
      · exact h.funId
      · exact h.funName
      · exact h.esFile
      · exact h.edFile
    · intro c hc hne
      obtain ⟨c0, h1, _, _, _, _, h2, _⟩ := hmap c hc
      rw [h2 hne]; exact h1
    · intro c hc hne
      exact List.mem_map.2 ⟨c, hc, by rw [if_neg hne]⟩
    · intro c hc hid
      obtain ⟨c0, h1, h2, h3, h4, h5, _⟩ := hmap c hc
      exact ⟨h5 hid, Or.inr ⟨c0, h1, by rw [← h2]; exact hid, h3.symm, h4.symm⟩⟩
    · intro h; cases h

/-- some of the rows `(call_id, file_id, digest)` of one call are inserted or replaced -/
structure CallFilesSet (cid : Nat) (us : List (Nat × Digest)) (db db' : SDB B R) : Prop where
  rest : db' = { db with callFiles := db'.callFiles }
  sub : ∀ t ∈ db'.callFiles, (t ∈ db.callFiles ∧ ¬ (t.1 = cid ∧ ∃ u ∈ us, u.1 = t.2.1)) ∨
    (t.1 = cid ∧ ∃ u ∈ us, u.1 = t.2.1 ∧ u.2 = t.2.2)
  keep : ∀ t ∈ db.callFiles, ¬ (t.1 = cid ∧ ∃ u ∈ us, u.1 = t.2.1) → t ∈ db'.callFiles
  has : ∀ u ∈ us, ∃ u' ∈ us, u'.1 = u.1 ∧ (cid, u'.1, u'.2) ∈ db'.callFiles
  refs : ∀ u ∈ us, (∃ r ∈ db.files, r.id = u.1) ∧ ∃ c ∈ db.calls, c.id = cid

theorem CallFilesSet.nil (cid : Nat) (db : SDB B R) : CallFilesSet cid [] db db :=
  ⟨rfl, fun t ht => Or.inl ⟨ht, by simp⟩, fun t ht _ => ht, by simp, by simp⟩

/-- `save_call_file`, then more -/
theorem CallFilesSet.cons {cid fid : Nat} {d : Digest} {us : List (Nat × Digest)}
    {db1 : SDB B R} (he : SDB.saveCallFile cid fid d db = (.ok (), db1))
    (h : CallFilesSet cid us db1 db') : CallFilesSet cid ((fid, d) :: us) db db' := by
  unfold SDB.saveCallFile at he
  by_cases hr : refsOk cid fid db
  · rw [if_pos hr] at he
    simp only [Prod.mk.injEq, true_and] at he
    have hr' : (∃ r ∈ db.files, r.id = fid) ∧ ∃ c ∈ db.calls, c.id = cid := by
      unfold refsOk at hr
      simp only [Bool.and_eq_true, List.any_eq_true, decide_eq_true_eq] at hr
      exact ⟨hr.2, hr.1⟩
    have hmem : ∀ t, t ∈ db1.callFiles ↔
        (t ∈ db.callFiles ∧ ¬ (t.1 = cid ∧ t.2.1 = fid)) ∨ t = (cid, fid, d) := by
      intro t; subst he
      simp only [List.mem_append, List.mem_filter, decide_eq_true_eq, List.mem_singleton]
    have hfiles : db1.files = db.files ∧ db1.calls = db.calls := by subst he; exact ⟨rfl, rfl⟩
    refine ⟨?_, ?_, ?_, ?_, ?_⟩
    · have := h.rest
      subst he
      exact this
    · intro t ht
      rcases h.sub t ht with ⟨h1, h2⟩ | ⟨h1, u, hu, h2⟩
      · rcases (hmem t).1 h1 with ⟨h3, h4⟩ | rfl
        · refine Or.inl ⟨h3, ?_⟩
          rintro ⟨h5, u, hu, h6⟩
          rcases List.mem_cons.1 hu with rfl | hu
          · exact h4 ⟨h5, h6.symm⟩
          · exact h2 ⟨h5, u, hu, h6⟩
        · exact Or.inr ⟨rfl, _, List.mem_cons_self .., rfl, rfl⟩
      · exact Or.inr ⟨h1, u, List.mem_cons_of_mem _ hu, h2⟩
    · intro t ht hn
      refine h.keep t ((hmem t).2 (Or.inl ⟨ht, ?_⟩)) ?_
      · rintro ⟨h1, h2⟩; exact hn ⟨h1, _, List.mem_cons_self .., h2.symm⟩
      · rintro ⟨h1, u, hu, h2⟩; exact hn ⟨h1, u, List.mem_cons_of_mem _ hu, h2⟩
    · intro u hu
      by_cases hex : ∃ v ∈ us, v.1 = u.1
      · obtain ⟨v, hv, hvu⟩ := hex
        obtain ⟨v', hv', h1, h2⟩ := h.has v hv
        exact ⟨v', List.mem_cons_of_mem _ hv', h1.trans hvu, h2⟩
      · rcases List.mem_cons.1 hu with rfl | hu
        · refine ⟨_, List.mem_cons_self .., rfl, ?_⟩
          refine h.keep _ ((hmem _).2 (Or.inr rfl)) ?_
          rintro ⟨_, v, hv, hvu⟩
          exact hex ⟨v, hv, hvu⟩
        · exact absurd ⟨u, hu, rfl⟩ hex
    · intro u hu
      rcases List.mem_cons.1 hu with rfl | hu
      · exact hr'
      · have := h.refs u hu
        rw [hfiles.1, hfiles.2] at this
        exact this
  · rw [if_neg hr] at he; simp at he

theorem saveCallFiles_sql {cid : Nat} {digs : List (Nat × FileName × Digest)}
    (he : saveCallFiles (SDB.storage B R) cid digs db = (.ok (), db')) :
    CallFilesSet cid (digs.map (fun t => (t.1, t.2.2))) db db' := by
  induction digs generalizing db with
  | nil =>
    simp only [saveCallFiles, Prod.mk.injEq, true_and] at he
    subst he; exact .nil _ _
  | cons t digs ih =>
    obtain ⟨fid, x, d⟩ := t
    unfold saveCallFiles at he
    generalize hs : (SDB.storage B R).saveCallFile cid fid d db = X at he
    obtain ⟨o, db1⟩ := X
    cases o with
    | error e => simp at he
    | ok u => exact .cons hs (ih he)

theorem saveDirty_sql {cid : Nat} {ts : List (Bool × Nat × Digest)}
    (he : SDB.saveDirty cid ts db = (.ok (), db')) :
    CallFilesSet cid ((ts.filter (fun t => t.1)).map (fun t => t.2)) db db' := by
  induction ts generalizing db with
  | nil =>
    simp only [SDB.saveDirty, Prod.mk.injEq, true_and] at he
    subst he; exact .nil _ _
  | cons t ts ih =>
    obtain ⟨dirty, fid, d⟩ := t
    unfold SDB.saveDirty at he
    cases dirty with
    | false =>
      simp only [Bool.false_eq_true, if_false] at he
      simpa using ih he
    | true =>
      simp only [if_true] at he
      generalize hs : SDB.saveCallFile cid fid d db = X at he
      obtain ⟨o, db1⟩ := X
      cases o with
      | error e => simp at he
      | ok u => simpa using CallFilesSet.cons hs (ih he)

theorem CallFilesSet.wf {cid : Nat} {us : List (Nat × Digest)} (hs : CallFilesSet cid us db db')
    (hu : ∀ u ∈ us, ∀ u' ∈ us, u.1 = u'.1 → u.2 = u'.2)
    (h : SWF vers md5 db) : SWF vers md5 db' := by
  have hr := hs.rest
  have e1 : db'.files = db.files := by rw [hr]
  have e2 : db'.calls = db.calls := by rw [hr]
  have e3 : db'.functions = db.functions := by rw [hr]
  have e4 : db'.lastFile = db.lastFile := by rw [hr]
  have e5 : db'.lastCall = db.lastCall := by rw [hr]
  have e6 : db'.lastFun = db.lastFun := by rw [hr]
  have e7 : db'.externalSrcs = db.externalSrcs := by rw [hr]
  have e8 : db'.externalDsts = db.externalDsts := by rw [hr]
  constructor
  · rw [e1, e4]; exact h.fileLe
  · rw [e1]; exact h.fileId
  · rw [e1]; exact h.fileName
  · rw [e1]; exact h.filesOK
  · intro t ht
    rw [e4]
    rcases hs.sub t ht with ⟨h1, _⟩ | ⟨_, u, hu, h1, _⟩
    · exact h.cfFile t h1
    · obtain ⟨⟨r, h2, h3⟩, _⟩ := hs.refs u hu
      rw [← h1, ← h3]; exact h.fileLe r h2
  · intro t ht
    rw [e2]
    rcases hs.sub t ht with ⟨h1, _⟩ | ⟨h0, u, hu, h1, _⟩
    · exact h.cfCall t h1
    · obtain ⟨_, c, h2, h3⟩ := hs.refs u hu
      exact ⟨c, h2, h3.trans h0.symm⟩
  · intro t ht t' ht' h1 h2
    rcases hs.sub t ht with ⟨k1, k2⟩ | ⟨k0, u, hu1, k1, k2⟩ <;>
      rcases hs.sub t' ht' with ⟨m1, m2⟩ | ⟨m0, u', hu2, m1, m2⟩
    · exact h.cfKey t k1 t' m1 h1 h2
    · exact absurd ⟨h1.trans m0, u', hu2, m1.trans h2.symm⟩ k2
    · exact absurd ⟨h1.symm.trans k0, u, hu1, k1.trans h2⟩ m2
    · have := hu u hu1 u' hu2 (by rw [k1, m1, h2])
      obtain ⟨a, b, c⟩ := t
      obtain ⟨a', b', c'⟩ := t'
      simp only at h1 h2 k2 m2
      rw [h1, h2, ← k2, ← m2, this]
  · rw [e2, e5]; exact h.callLe
  · rw [e2]; exact h.callId
  · rw [e2, e3]; exact h.callFun
  · rw [e3, e6]; exact h.funLe
  · rw [e3]; exact h.funId
  · rw [e3]; exact h.funName
  · rw [e7, e4]; exact h.esFile
  · rw [e8, e4]; exact h.edFile

theorem insertExternal_ok {cid : Nat} {is : List Nat} {t rows : List (Nat × Nat)}
    (he : SDB.insertExternal cid db is t = .ok rows) :
    rows = t ++ is.map (fun i => (cid, i)) ∧ ∀ i ∈ is, ∃ r ∈ db.files, r.id = i := by
  induction is generalizing t with
  | nil =>
    simp only [SDB.insertExternal, Except.ok.injEq] at he
    subst he; simp
  | cons i is ih =>
    unfold SDB.insertExternal at he
    split at he
    · cases he
    · rename_i hn
      simp only [not_or] at hn
      obtain ⟨h1, h2⟩ := ih he
      refine ⟨by rw [h1]; simp, ?_⟩
      intro j hj
      rcases List.mem_cons.1 hj with rfl | hj
      · have hr := hn.2
        simp only [Bool.not_eq_false] at hr
        unfold refsOk at hr
        simp only [Bool.and_eq_true, List.any_eq_true, decide_eq_true_eq] at hr
        exact hr.2
      · exact h2 j hj

end Verif.DB
