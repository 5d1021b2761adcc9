import Verif.DB.SqliteStore2
/-! Lemmas about the sqlite tables: what `prepare` finds and changes. -/
namespace Verif.DB
open SDB
set_option linter.unusedSectionVars false

variable {B R : Type} [DecidableEq B] {vers : FileName → Nat → Option Content}
  {env : Env} {db db' : SDB B R}

theorem checkFunction_sql {n : Nat} {f : FunName} {dirty : Bool} {fid : Option Nat}
    (h : checkFunction (SDB.storage B R) env db n f = .ok (dirty, fid)) :
    ∃ digest, env.funDigest f = some digest ∧
      ((dirty = true ∧ fid = none ∧ ∀ g ∈ db.functions, g.name ≠ f) ∨
       (dirty = true ∧ ∃ g ∈ db.functions, g.name = f ∧ fid = some g.id) ∨
       (dirty = false ∧ ∃ g ∈ db.functions, g.name = f ∧ fid = some g.id ∧ g.digest = digest)) := by
  cases n with
  | zero => simp [checkFunction] at h
  | succ n =>
    unfold checkFunction at h
    cases hd : env.funDigest f with
    | none => rw [hd] at h; cases h
    | some digest =>
      rw [hd] at h
      refine ⟨digest, rfl, ?_⟩
      have hff : (SDB.storage B R).findFunction f db = SDB.findFunction f db := rfl
      simp only [hff, SDB.findFunction] at h
      cases hf : db.functions.find? (fun r => r.name = f) with
      | none =>
        rw [hf] at h
        simp only [Option.map_none] at h
        simp only [Except.ok.injEq, Prod.mk.injEq] at h
        left
        refine ⟨h.1.symm, h.2.symm, ?_⟩
        intro g hg; simpa using List.find?_eq_none.1 hf g hg
      | some g =>
        have hg : g ∈ db.functions := List.mem_of_find?_eq_some hf
        have hgn : g.name = f := by simpa using List.find?_some hf
        rw [hf] at h
        simp only [Option.map_some] at h
        split at h
        · simp only [Except.ok.injEq, Prod.mk.injEq] at h
          right; left; exact ⟨h.1.symm, g, hg, hgn, h.2.symm⟩
        · rename_i hne
          split at h
          · cases h
          · rename_i b hb
            simp only [Except.ok.injEq, Prod.mk.injEq] at h
            cases dirty with
            | true => right; left; exact ⟨rfl, g, hg, hgn, h.2.symm⟩
            | false =>
              right; right
              simp only [ne_eq, Decidable.not_not] at hne
              exact ⟨rfl, g, hg, hgn, h.2.symm, hne.symm⟩

theorem findCall_sql_some {fid : Nat} {b : B} {cid : Nat} {r : R}
    (h : SDB.findCall fid b db = some (cid, r)) :
    ∃ c ∈ db.calls, c.id = cid ∧ c.result = r ∧ c.bound = b ∧ c.fn = fid := by
  unfold SDB.findCall at h
  cases hf : db.calls.find? (fun c => c.fn = fid ∧ b = c.bound) with
  | none => rw [hf] at h; cases h
  | some c =>
    rw [hf] at h
    simp only [Option.map_some, Option.some.injEq, Prod.mk.injEq] at h
    have h2 := List.find?_some hf
    simp only [decide_eq_true_eq] at h2
    exact ⟨c, List.mem_of_find?_eq_some hf, h.1, h.2, h2.2.symm, h2.1⟩

theorem findCall_sql_none {fid : Nat} {b : B} (h : SDB.findCall fid b db = none) :
    ∀ c ∈ db.calls, ¬ (c.fn = fid ∧ c.bound = b) := by
  unfold SDB.findCall at h
  intro c hc hcc
  have := List.find?_eq_none.1 (Option.map_eq_none_iff.1 h) c hc
  simp only [decide_eq_true_eq] at this
  exact this ⟨hcc.1, hcc.2.symm⟩

theorem mem_findExternal {t : List (Nat × Nat)} {cid : Nat} {x : FileName} :
    x ∈ SDB.findExternal t cid db ↔ ∃ r ∈ db.files, (cid, r.id) ∈ t ∧ r.name = x := by
  unfold SDB.findExternal
  simp only [List.mem_map, List.mem_filter, decide_eq_true_eq, and_assoc]

/-- What `prepare` finds. -/
structure SFound (env : Env) (f : FunName) (b : B) (srcs : List FileName) (db db' : SDB B R)
    (p : Prep Nat Nat Nat R) : Prop where
  fn : checkFunction (SDB.storage B R) env db env.recursionLimit f = .ok (p.funDirty, p.funId)
  dirty : p.funDirty = true → p.found = none
  clean : p.funDirty = false → ∃ g ∈ db.functions, g.name = f ∧ p.funId = some g.id ∧
    env.funDigest f = some g.digest
  found : ∀ cid r, p.found = some (cid, r) →
    ∃ c ∈ db.calls, c.id = cid ∧ c.result = r ∧ c.bound = b ∧ p.funId = some c.fn
  notFound : p.funDirty = false → p.found = none → ∀ c ∈ db.calls,
    ¬ (p.funId = some c.fn ∧ c.bound = b)
  digs : ∀ t ∈ p.callFileDigests, t.2.1 ∈ srcs ∧ Seen env db' t.2.1 t.1 t.2.2
  cover : ∀ x ∈ srcs, ∃ fid d, Seen env db' x fid d ∧
    ((∃ t ∈ p.callFileDigests, t.2.1 = x) ∨
      ∃ cid r, p.found = some (cid, r) ∧ (cid, fid, d) ∈ db'.callFiles)
  ext : ∀ cid r, p.found = some (cid, r) → p.externalDigests = [] →
    ∀ q ∈ db.files, (cid, q.id) ∈ db.externalSrcs → InSync env srcs q →
      ∀ c, env.fs.content q.name = some c →
      ∃ fid, Seen env db' q.name fid (env.md5 c) ∧ (cid, fid, env.md5 c) ∈ db'.callFiles
  extSrcs : ∀ cid r, p.found = some (cid, r) → ∀ q ∈ db.files, (cid, q.id) ∈ db.externalSrcs →
    InSync env srcs q → q.name ∈ p.externalSrcs
  extDsts : ∀ cid r, p.found = some (cid, r) → ∀ q ∈ db.files, (cid, q.id) ∈ db.externalDsts →
    InSync env srcs q → q.name ∈ p.externalDsts

/-- What `prepare` changes: besides the declared sources only files linked to the call are checked. -/
structure SPrepared (vers : FileName → Nat → Option Content) (env : Env) (f : FunName) (b : B)
    (srcs : List FileName) (db db' : SDB B R) : Prop where
  wf : SWF vers env.md5 db'
  touch : STouch db db'
  keep : ∃ xs, KeptFor env (srcs ++ xs) db db' ∧
    ∀ y ∈ xs, ∃ c ∈ db.calls, c.bound = b ∧ (∃ g ∈ db.functions, g.id = c.fn ∧ g.name = f) ∧
      ∃ q ∈ db.files, q.name = y ∧ (c.id, q.id) ∈ db.externalSrcs

theorem prepare_sql {f : FunName} {b : B} {srcs : List FileName}
    {out : Except Err (Prep Nat Nat Nat R)} (h : SWF vers env.md5 db) (hv : Faithful vers env.fs)
    (he : prepare (SDB.storage B R) env f b srcs db = (out, db')) :
    SPrepared vers env f b srcs db db' ∧ ∀ p, out = .ok p → SFound env f b srcs db db' p := by
  unfold prepare at he
  generalize hcf : checkFunction (SDB.storage B R) env db env.recursionLimit f = X at he
  cases X with
  | error e =>
    simp only [Prod.mk.injEq] at he
    obtain ⟨rfl, rfl⟩ := he
    exact ⟨⟨h, .refl _, [], .refl _ _ _, fun _ h => nomatch h⟩, fun _ h => nomatch h⟩
  | ok t =>
    obtain ⟨dirty, funId⟩ := t
    simp only at he
    obtain ⟨digest, hdg, hcase⟩ := checkFunction_sql hcf
    have hclean : dirty = false → ∃ g ∈ db.functions, g.name = f ∧ funId = some g.id ∧
        env.funDigest f = some g.digest := by
      intro hd
      rcases hcase with ⟨h1, _⟩ | ⟨h1, _⟩ | ⟨_, g, h1, h2, h3, h4⟩
      · rw [hd] at h1; cases h1
      · rw [hd] at h1; cases h1
      · exact ⟨g, h1, h2, h3, by rw [h4]; exact hdg⟩
    generalize hlk : lookupCall (SDB.storage B R) dirty funId b db = found at he
    have hdirty : dirty = true → found = none := by
      intro hd; subst hd; rw [← hlk]; rfl
    have hfound : ∀ cid r, found = some (cid, r) → dirty = false ∧
        ∃ c ∈ db.calls, c.id = cid ∧ c.result = r ∧ c.bound = b ∧ funId = some c.fn := by
      intro cid r hx
      cases dirty with
      | true => rw [hdirty rfl] at hx; cases hx
      | false =>
        refine ⟨rfl, ?_⟩
        rw [hx] at hlk
        cases funId with
        | none => cases hlk
        | some i =>
          obtain ⟨c, h1, h2, h3, h4, h5⟩ := findCall_sql_some (db := db) (b := b) hlk
          exact ⟨c, h1, h2, h3, h4, by rw [h5]⟩
    have hnot : dirty = false → found = none → ∀ c ∈ db.calls,
        ¬ (funId = some c.fn ∧ c.bound = b) := by
      intro hd hx c hc hcc
      subst hd
      rw [hx, hcc.1] at hlk
      exact findCall_sql_none (db := db) (b := b) hlk c hc ⟨rfl, hcc.2⟩
    clear hlk
    generalize hcc : checkCallFiles (SDB.storage B R) env (found.map Prod.fst) srcs db = Y at he
    obtain ⟨o, db1⟩ := Y
    obtain ⟨k1, k2, k3, k4⟩ := checkCallFiles_sql h hv hcc
    cases o with
    | error e =>
      simp only [Prod.mk.injEq] at he
      obtain ⟨rfl, rfl⟩ := he
      exact ⟨⟨k1, k2, [], by simpa using k3, fun _ h => nomatch h⟩, fun _ h => nomatch h⟩
    | ok digs =>
      simp only at he
      obtain ⟨k5, k6⟩ := k4 digs rfl
      cases hfo : found with
      | none =>
        rw [hfo] at he k6
        simp only [Option.map_none, Prod.mk.injEq] at he
        obtain ⟨rfl, rfl⟩ := he
        refine ⟨⟨k1, k2, [], by simpa using k3, fun _ h => nomatch h⟩, ?_⟩
        intro p hp
        simp only [Except.ok.injEq] at hp
        subst hp
        refine ⟨hcf, fun _ => rfl, hclean, fun _ _ h => (nomatch h), fun hd _ => hnot hd hfo, k5, ?_,
          fun _ _ h => (nomatch h), fun _ _ h => (nomatch h), fun _ _ h => (nomatch h)⟩
        intro x hx
        obtain ⟨fid, d, h1, h2⟩ := k6 x hx
        refine ⟨fid, d, h1, h2.imp_right ?_⟩
        rintro ⟨c, h3, _⟩; cases h3
      | some cr =>
        obtain ⟨cid, r⟩ := cr
        rw [hfo] at he k6
        obtain ⟨hd, c, hc1, hc2, hc3, hc4, hc5⟩ := hfound cid r hfo
        simp only [Option.map_some] at he
        have hxe : (SDB.storage B R).findExternalSrcs cid db1 =
          SDB.findExternal db1.externalSrcs cid db1 := rfl
        have hxd : (SDB.storage B R).findExternalDsts cid db1 =
          SDB.findExternal db1.externalDsts cid db1 := rfl
        rw [hxe, hxd] at he
        generalize hel : checkExternalLoop (SDB.storage B R) env cid
          (SDB.findExternal db1.externalSrcs cid db1) db1 = Z at he
        obtain ⟨ed, db2⟩ := Z
        simp only [Prod.mk.injEq] at he
        obtain ⟨rfl, rfl⟩ := he
        obtain ⟨m1, m2, m3, m4⟩ := checkExternal_sql k1 hv hel
        have hkeptE : ∀ q ∈ db.files, InSync env srcs q → KeptRow q db db1 := k3
        have hmemE : ∀ q ∈ db.files, (cid, q.id) ∈ db.externalSrcs → InSync env srcs q →
            q.name ∈ SDB.findExternal db1.externalSrcs cid db1 := by
          intro q hq hm hs
          have hk := hkeptE q hq hs
          obtain ⟨q', n1, n2, n3, _⟩ := hk.row
          rw [mem_findExternal]
          exact ⟨q', n1, by rw [n2]; exact hk.es _ hm rfl, n3⟩
        have hmemD : ∀ q ∈ db.files, (cid, q.id) ∈ db.externalDsts → InSync env srcs q →
            q.name ∈ SDB.findExternal db1.externalDsts cid db1 := by
          intro q hq hm hs
          have hk := hkeptE q hq hs
          obtain ⟨q', n1, n2, n3, _⟩ := hk.row
          rw [mem_findExternal]
          exact ⟨q', n1, by rw [n2]; exact hk.ed _ hm rfl, n3⟩
        refine ⟨⟨m1, k2.trans m2, SDB.findExternal db1.externalSrcs cid db1,
          k3.trans m3 (by simp +contextual) (by simp +contextual), ?_⟩, ?_⟩
        · intro y hy
          obtain ⟨q, n1, n2, n3⟩ := mem_findExternal.1 hy
          have n4 := k2.es _ n2
          refine ⟨c, hc1, hc4, ?_, ?_⟩
          · obtain ⟨g, g1, g2, g3, _⟩ := hclean hd
            rw [g3] at hc5
            exact ⟨g, g1, Option.some.inj hc5, g2⟩
          · rcases k2.files q n1 with ⟨q', p1, p2, p3, _⟩ | hlt
            · exact ⟨q', p1, p3.trans n3, by rw [p2, hc2]; exact n4⟩
            · have := h.esFile _ n4; simp only at this; omega
        · intro p hp
          simp only [Except.ok.injEq] at hp
          subst hp
          refine ⟨hcf, fun hd' => (by rw [hd] at hd'; cases hd'), hclean, ?_, fun _ h => (nomatch h), ?_, ?_, ?_, ?_, ?_⟩
          · intro cid' r' hx
            rw [← hfo] at hx
            exact (hfound cid' r' hx).2
          · intro t ht
            exact ⟨(k5 t ht).1, ((k5 t ht).2.kept m3).1⟩
          · intro x hx
            obtain ⟨fid, d, h1, h2⟩ := k6 x hx
            obtain ⟨h3, h4⟩ := h1.kept m3
            refine ⟨fid, d, h3, h2.imp_right ?_⟩
            rintro ⟨c', h5, h6⟩
            cases h5
            exact ⟨cid, r, rfl, h4 _ h6⟩
          · intro cid' r' hx hed q hq hm hs cc hcont
            simp only [Option.some.injEq, Prod.mk.injEq] at hx
            obtain ⟨rfl, rfl⟩ := hx
            exact m4 hed q.name (hmemE q hq hm hs) cc hcont
          · intro cid' r' hx q hq hm hs
            simp only [Option.some.injEq, Prod.mk.injEq] at hx
            obtain ⟨rfl, rfl⟩ := hx
            exact hmemE q hq hm hs
          · intro cid' r' hx q hq hm hs
            simp only [Option.some.injEq, Prod.mk.injEq] at hx
            obtain ⟨rfl, rfl⟩ := hx
            exact hmemD q hq hm hs

end Verif.DB
