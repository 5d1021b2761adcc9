import Verif.Props.DBSqlite2
import Verif.Props.DBFunctions
/-!
# The sqlite engine: editing a cached function runs the functions that call it (C133)
-/
namespace Verif.DB
open SDB
set_option linter.unusedSectionVars false

section
variable {B R : Type} [DecidableEq B] {sg : Sig B R} {vers : FileName → Nat → Option Content}
  {tr : STrace B R} {s : SSys B R}

/-! ### Specification -/

/-- Every execution of `f` whose result was stored reported a direct call of `g`. -/
def SAlwaysCalls (sg : Sig B R) (tr : STrace B R) (f g : FunName) : Prop :=
  ∀ newer s0 s1 older id b r deps ext extDsts,
    tr = newer ++ (s1, .complete id r deps ext extDsts) :: older →
    SRunning sg older id f b s0 → (SSys.step sg s1 (.complete id r deps ext extDsts)).1 = .done → g ∈ deps

/-- `f` calls `g` through a chain of such calls (no calls at all: `f = g`). -/
inductive SAlwaysReaches (sg : Sig B R) (tr : STrace B R) : FunName → FunName → Prop
  | refl (f) : SAlwaysReaches sg tr f f
  | step {f g h} (hc : SAlwaysCalls sg tr f g) (hr : SAlwaysReaches sg tr g h) : SAlwaysReaches sg tr f h

/-- The execution of `g` (with any arguments) that was stored last started in `s0`. -/
def SLastOf (sg : Sig B R) (tr : STrace B R) (g : FunName) (s0 : SSys B R) : Prop :=
  ∃ newer s1 older id b r deps ext extDsts,
    tr = newer ++ (s1, .complete id r deps ext extDsts) :: older ∧
    SRunning sg older id g b s0 ∧ (SSys.step sg s1 (.complete id r deps ext extDsts)).1 = .done ∧
    ∀ n2 s0' s1' o2 id' b' r' deps' ext' extDsts',
      tr = n2 ++ (s1', .complete id' r' deps' ext' extDsts') :: o2 → SRunning sg o2 id' g b' s0' →
      (SSys.step sg s1' (.complete id' r' deps' ext' extDsts')).1 = .done → newer.length ≤ n2.length

/-! ### What is recorded about functions -/

/-- the row of a function is what an execution stored, and executions stored since had the same text -/
def SFInv (db : SDB B R) (log : List (Exec B R)) : Prop :=
  ∀ g ∈ db.functions, ∃ pre e post, log = pre ++ e :: post ∧ e.ok = true ∧ e.fn = g.name ∧ e.deps = g.deps ∧ e.code = g.digest ∧
    ∀ e' ∈ pre, e'.ok = true → e'.fn = g.name → e'.code = g.digest

theorem SFInv.sub {db db' : SDB B R} {log : List (Exec B R)} (h : SFInv db log) (hs : ∀ g ∈ db'.functions, g ∈ db.functions) :
    SFInv db' log := fun g hg => h g (hs g hg)

theorem SFInv.failed {db : SDB B R} {log : List (Exec B R)} (h : SFInv db log) (e : Exec B R) (he : e.ok = false) :
    SFInv db (e :: log) := by
  intro g hg
  obtain ⟨pre, e0, post, h1, h2, h3, h4, h5, h6⟩ := h g hg
  refine ⟨e :: pre, e0, post, by rw [h1]; rfl, h2, h3, h4, h5, ?_⟩
  intro e' he' hok hn
  rcases List.mem_cons.1 he' with rfl | he'
  · rw [he] at hok; cases hok
  · exact h6 e' he' hok hn

theorem recordFunS_deps {dirty : Bool} {funId : Option Nat} {f : FunName} {code : Digest} {deps : List FunName} {fid : Nat}
    {db db' : SDB B R} (he : recordFunS dirty funId f code deps db = (.ok (some fid), db')) :
    ∀ g ∈ db'.functions, g ∈ db.functions ∨ g.deps = deps := by
  unfold recordFunS at he
  cases dirty with
  | false =>
    simp only [Bool.false_eq_true, if_false, Prod.mk.injEq] at he
    obtain ⟨_, rfl⟩ := he
    exact fun g hg => .inl hg
  | true =>
    simp only [if_true] at he
    generalize hdb1 : (if funId.isSome then (SDB.deleteFunction f db).2 else db) = db1 at he
    have hsub : ∀ g ∈ db1.functions, g ∈ db.functions := by
      subst hdb1
      split
      · intro g hg
        simp only [SDB.deleteFunction, List.mem_filter] at hg
        exact hg.1
      · exact fun g hg => hg
    unfold SDB.saveFunction at he
    simp only at he
    by_cases hany : db1.functions.any (fun r => r.name = f)
    · rw [if_pos hany] at he; simp at he
    · rw [if_neg hany] at he
      simp only [Prod.mk.injEq, Except.ok.injEq, Option.some.injEq] at he
      obtain ⟨_, rfl⟩ := he
      intro g hg
      simp only [List.mem_append, List.mem_singleton] at hg
      rcases hg with hg | rfl
      · exact .inl (hsub g hg)
      · exact .inr rfl

theorem cache_deps {env : Env} {db db' : SDB B R} {dirty : Bool} {funId : Option Nat} {f : FunName} {code : Digest}
    {deps : List FunName} {cid0 : Option Nat} {b : B} {r : R} {digs : List (Nat × FileName × Digest)} {ext extDsts : List FileName}
    (h : SWF vers env.md5 db) (hv : Faithful vers env.fs)
    (hdigs : ∀ u ∈ digs, ∀ u' ∈ digs, u.1 = u'.1 → u.2.2 = u'.2.2)
    (he : cache (SDB.storage B R) (SDB.saveExternal env ext extDsts) dirty funId f code deps cid0
      b r digs db = (.ok (), db')) :
    ∀ g ∈ db'.functions, g ∈ db.functions ∨ g.deps = deps := by
  obtain ⟨fid, db1, cid, db2, db3, hr, hsc, hcf, he⟩ := cache_split he
  obtain ⟨hwf3, _⟩ := cache_sql_at h hv hdigs hr hsc hcf he
  have k := recordFunS_ok h hr
  obtain ⟨_, ⟨e1, _⟩, _⟩ := saveCall_sql k.wf hsc
  have hset := (saveCallFiles_sql hcf).rest
  have f1 : db3.functions = db2.functions := by rw [hset]
  have x := saveExternal_sql hwf3 hv he
  have hfuns : db'.functions = db1.functions := by rw [x.functions, f1, e1]
  rw [hfuns]
  exact recordFunS_deps hr

theorem prepare_funs {env : Env} {f : FunName} {b : B} {srcs : List FileName} {db db' : SDB B R}
    {out : Except Err (Prep Nat Nat Nat R)} (h : SWF vers env.md5 db) (hv : Faithful vers env.fs)
    (he : prepare (SDB.storage B R) env f b srcs db = (out, db')) : ∀ g ∈ db'.functions, g ∈ db.functions := by
  have := (prepare_sql h hv he).1.touch
  intro g hg
  rw [this.functions] at hg
  exact hg

theorem SHistory.finv (h : SHistory sg vers tr s) : SFInv s.db s.log ∧ SFInv s.committed s.log := by
  induction h with
  | init env h => exact ⟨fun g hg => (nomatch hg), fun g hg => (nomatch hg)⟩
  | step ev hs ha ih =>
    rename_i tr s
    have hI := hs.inv
    cases ev with
    | prepare id f b =>
      simp only [SSys.step]
      unfold SSys.stepPrepare
      cases hcode : s.env.funDigest f with
      | none => exact ih
      | some code =>
        simp only
        generalize hpr : prepare (SDB.storage B R) s.env f b (sg.srcs f code b) s.db = X
        obtain ⟨o, db1⟩ := X
        have hsub := ih.1.sub (prepare_funs hI.db.wf hI.faithful hpr)
        cases o with
        | error e => exact ⟨hsub, ih.2⟩
        | ok p =>
          simp only
          cases hit s.env (sg.dsts f code b) (sg.returnDsts f code) p with
          | some r => exact ⟨hsub, ih.2⟩
          | none => exact ⟨hsub, ih.2⟩
    | complete id r deps ext extDsts =>
      simp only [SSys.step]
      unfold SSys.stepComplete
      cases hp : s.inflight.get? id with
      | none => exact ih
      | some p =>
        simp only
        obtain ⟨_, hcode, hpi⟩ := hI.pending id p hp
        have hpi := hpi (ha p hp)
        generalize hca : cache (SDB.storage B R) (SDB.saveExternal s.env ext extDsts) p.prep.funDirty
            p.prep.funId p.fn p.code deps (p.prep.found.map Prod.fst) p.bound r
            p.prep.callFileDigests s.db = X
        obtain ⟨o, db1⟩ := X
        cases o with
        | error e => exact ⟨ih.2.failed _ rfl, ih.2.failed _ rfl⟩
        | ok u =>
          obtain ⟨fid, cid, k⟩ := cache_sql hI.db.wf hI.faithful hpi.digsKey hca
          have hdeps := cache_deps hI.db.wf hI.faithful hpi.digsKey hca
          have key : SFInv db1 ((⟨p.fn, p.code, p.bound, r, p.prep.funDirty, p.fs0, s.env.fs, deps, ext, extDsts, true⟩ : Exec B R) ::
              s.log) := by
            intro g hg
            rcases k.funs g hg with ⟨h1, h2⟩ | ⟨h1, h2, h3, h4⟩
            · obtain ⟨pre, e0, post, k1, k2, k3, k4, k5, k6⟩ := ih.1 g h1
              refine ⟨_ :: pre, e0, post, by rw [k1]; rfl, k2, k3, k4, k5, ?_⟩
              intro e' he' hok hn
              rcases List.mem_cons.1 he' with rfl | he'
              · simp only at hn ⊢
                cases hd : p.prep.funDirty with
                | true => exact absurd hn.symm (h2 hd)
                | false => exact (hpi.cleanCode hd g h1 hn.symm).symm
              · exact k6 e' he' hok hn
            · refine ⟨[], _, s.log, rfl, rfl, h3.symm, ?_, h4.symm, by simp⟩
              rcases hdeps g hg with h5 | h5
              · have := hI.db.wf.funLe g h5
                omega
              · exact h5.symm
          exact ⟨key, key⟩
    | fail id => exact ih
    | edit x st => exact ih
    | tick n => exact ih
    | restart ds => exact ⟨ih.1, ih.1⟩
    | crash ds =>
      have : SFInv (if s.stamped = true then s.committed else {}) s.log := by
        split
        · exact ih.2
        · exact fun g hg => (nomatch hg)
      exact ⟨this, this⟩
    | deleteFunction f =>
      simp only [SSys.step]
      split
      · refine ⟨ih.1.sub ?_, ih.2⟩
        intro g hg
        simp only [SDB.deleteFunction, List.mem_filter] at hg
        exact hg.1
      · exact ih
    | deleteFile x =>
      simp only [SSys.step]
      split
      · refine ⟨ih.1.sub ?_, ih.2⟩
        obtain ⟨_, k2, _⟩ := deleteFile_sql hI.db.wf x rfl
        intro g hg
        simp only at hg
        rw [k2.functions] at hg
        exact hg
      · exact ih

/-- the row of a function, as an execution in the trace -/
theorem srecorded_exec (h : SHistory sg vers tr s) {g : FunRow} (hg : g ∈ s.db.functions) :
    ∃ newer s0 s1 older id b r ext extDsts,
      tr = newer ++ (s1, .complete id r g.deps ext extDsts) :: older ∧ SRunning sg older id g.name b s0 ∧
      (SSys.step sg s1 (.complete id r g.deps ext extDsts)).1 = .done ∧ s0.env.funDigest g.name = some g.digest ∧
      ∀ n2 s0' s1' o2 id' b' r' deps' ext' extDsts',
        tr = n2 ++ (s1', .complete id' r' deps' ext' extDsts') :: o2 → SRunning sg o2 id' g.name b' s0' →
        (SSys.step sg s1' (.complete id' r' deps' ext' extDsts')).1 = .done →
        n2.length ≤ newer.length → s0'.env.funDigest g.name = some g.digest := by
  obtain ⟨pre, e, post, h1, h2, h3, h4, h5, h6⟩ := h.finv.1 g hg
  rw [h.log_eq] at h1
  obtain ⟨newer, ⟨s1, ev⟩, older, h7, h8, h9, _⟩ := filterMap_split h1
  have hp := h.prefix h7
  obtain ⟨s0, m1, _, _, m4, m5⟩ := sexecOf_execution hp h8
  obtain ⟨id, deps, hev, hrun⟩ := m1.ended
  simp only at hev m5 m4
  subst hev
  have hdeps : deps = e.deps := by
    simp only [sexecOf] at h8
    cases hq : s1.inflight.get? id with
    | none => rw [hq] at h8; simp at h8
    | some p =>
      rw [hq] at h8
      simp only [Option.some.injEq] at h8
      rw [← h8]
  rw [hdeps, h4] at h7 m5
  rw [h3] at hrun
  rw [h3, h5] at m4
  refine ⟨newer, s0, s1, older, id, e.bound, e.result, e.ext, e.extDsts, h7, hrun, m5.1 h2, m4, ?_⟩
  intro n2 s0' s1' o2 id' b' r' deps' ext' extDsts' ht hx hd hl
  obtain ⟨e2, p1, p2, _, _, _, _, _, _, p4, p5⟩ := SExecution.execOf (h.prefix ht) (⟨⟨id', deps', rfl, hx⟩⟩ :
    SExecution sg o2 s0' s1' (.complete id' r' deps' ext' extDsts') g.name b' r' ext' extDsts')
  by_cases hlt : n2.length < newer.length
  · have hmem : (s1', Event.complete id' r' deps' ext' extDsts') ∈ newer := by
      have : tr[n2.length]? = some (s1', Event.complete id' r' deps' ext' extDsts') := by
        rw [ht]; simp
      rw [h7, List.getElem?_append_left hlt] at this
      exact List.mem_of_getElem? this
    have hex := h6 e2 (by rw [← h9]; exact List.mem_filterMap.2 ⟨_, hmem, p1⟩) (p5.2 hd) p2
    rw [p4, hex]
  · have hlen : n2.length = newer.length := by omega
    have heq := List.append_inj (ht.symm.trans h7) hlen
    simp only [List.cons.injEq, Prod.mk.injEq, Event.complete.injEq] at heq
    obtain ⟨_, ⟨rfl, rfl, rfl, rfl, rfl, rfl⟩, rfl⟩ := heq
    rw [hdeps, h4] at h8
    rw [h8] at p1
    cases p1
    rw [p4, h5]

theorem shit_checked (h : SHistory sg vers tr s) {id : Nat} {f : FunName} {b : B} {r : R}
    (hh : (SSys.step sg s (.prepare id f b)).1 = .hit r) :
    ∃ n i, checkFunction (SDB.storage B R) s.env s.db n f = .ok (false, i) := by
  have hI := h.inv
  simp only [SSys.step, SSys.stepPrepare] at hh
  cases hcode : s.env.funDigest f with
  | none => rw [hcode] at hh; simp at hh
  | some code =>
    rw [hcode] at hh
    simp only at hh
    generalize hpr : prepare (SDB.storage B R) s.env f b (sg.srcs f code b) s.db = X at hh
    obtain ⟨o, db1⟩ := X
    cases o with
    | error e => simp at hh
    | ok p =>
      simp only at hh
      cases hhit : hit s.env (sg.dsts f code b) (sg.returnDsts f code) p with
      | none => rw [hhit] at hh; simp at hh
      | some r' =>
        have := ((prepare_sql hI.db.wf hI.faithful hpr).2 p rfl).fn
        exact ⟨_, _, by rw [this, (hit_some hhit).1]⟩

theorem sfind {db : SDB B R} {f : FunName} {i : Nat} {d : Digest} {deps : List FunName}
    (h : (SDB.storage B R).findFunction f db = some (i, d, deps)) :
    ∃ g ∈ db.functions, g.name = f ∧ g.digest = d ∧ g.deps = deps := by
  have h : SDB.findFunction f db = some (i, d, deps) := h
  simp only [SDB.findFunction, Option.map_eq_some_iff] at h
  obtain ⟨g, h1, h2⟩ := h
  simp only [Prod.mk.injEq] at h2
  have h3 := List.find?_some h1
  exact ⟨g, List.mem_of_find?_eq_some h1, by simpa using h3, h2.2.1, h2.2.2⟩

/-- **C133** (partial).  If every stored execution of `f` (directly or through other functions all of whose stored executions do so)
called `g`, and the text of `g` differs from the one that the last stored execution of `g` used, then no stored value of `f` is
returned.  Missing: the case that `g` was called with the new text before `f` (`C133_violated`), callees that only some executions of
`f` call (`C133_branch_violated`), and histories in which a store raised while another call was running (`SAllowed`). -/
theorem C133_partial (h : SHistory sg vers tr s) {f g : FunName} (hfg : SAlwaysReaches sg tr f g) {s0 : SSys B R}
    (hl : SLastOf sg tr g s0) (hedit : s.env.funDigest g ≠ s0.env.funDigest g) (id : Nat) (b : B) (r : R) :
    (SSys.step sg s (.prepare id f b)).1 ≠ .hit r := by
  intro hh
  obtain ⟨n, i, hcf⟩ := shit_checked h hh
  have hreach : ∀ n i, checkFunction (SDB.storage B R) s.env s.db n f = .ok (false, i) →
      RecReach (SDB.storage B R) s.db f g := by
    clear hcf n i hh hl hedit
    induction hfg with
    | refl f => exact fun _ _ _ => .refl f
    | step hc hr ih =>
      rename_i f g h'
      intro n i hcf
      obtain ⟨fid, d, deps, m, h1, h2, h3⟩ := checkFunction_one _ hcf
      obtain ⟨row, k1, rfl, rfl, rfl⟩ := sfind h1
      obtain ⟨newer, s0', s1, older, id', b', r', ext, extDsts, h4, h5, h6, _⟩ := srecorded_exec h k1
      have hg := hc newer s0' s1 older id' b' r' row.deps ext extDsts h4 h5 h6
      refine .step ⟨fid, row.digest, row.deps, h1, hg⟩ ?_
      by_cases hgf : g = row.name
      · subst hgf; exact ih n i hcf
      · obtain ⟨j, hj⟩ := h3 g hg hgf
        exact ih m j hj
  obtain ⟨fid, d, deps, h1, h2⟩ := checkFunction_clean _ (hreach n i hcf) hcf
  obtain ⟨row, k1, rfl, rfl, rfl⟩ := sfind h1
  obtain ⟨newer, s0', s1, older, id', b', r', ext, extDsts, h4, h5, h6, _, h7⟩ := srecorded_exec h k1
  obtain ⟨n2, s1', o2, id'', b'', r'', deps'', ext', extDsts', q1, q2, q3, q4⟩ := hl
  have := q4 newer s0' s1 older id' b' r' row.deps ext extDsts h4 h5 h6
  exact hedit (by rw [h2, h7 n2 s0 s1' o2 id'' b'' r'' deps'' ext' extDsts' q1 q2 q3 this])

end

/-! ### The hypotheses can be met -/

namespace Ex
/-- an execution of `f` that could not be stored and did not call `g`, then `f` calls `g`, then `g` is edited -/
def sevsFG : List (Event Nat Nat) :=
  [.prepare 0 "f" 2, .complete 0 5 [] ["missing"] []] ++ evsFG ++ [editG]

def sFG : STrace Nat Nat × SSys Nat Nat := srunEvents sg [] (SSys.init env) sevsFG
theorem shistoryFG : SHistory sg vers sFG.1 sFG.2 := sstart.run _ (by decide)

/-- what was stored, by which function, how long ago -/
def stored (sg : Sig Nat Nat) : STrace Nat Nat → List (Nat × FunName × List FunName)
  | [] => []
  | (s1, .complete id r deps ext extDsts) :: older =>
    match s1.inflight.get? id, (SSys.step sg s1 (.complete id r deps ext extDsts)).1 with
    | some p, .done => (0, p.fn, deps) :: (stored sg older).map fun q => (q.1 + 1, q.2)
    | _, _ => (stored sg older).map fun q => (q.1 + 1, q.2)
  | _ :: older => (stored sg older).map fun q => (q.1 + 1, q.2)

theorem stored_mem {tr : STrace Nat Nat} {newer s0 s1 older id f b r deps ext extDsts} {s : SSys Nat Nat} (h : SHistory sg vers tr s)
    (ht : tr = newer ++ (s1, .complete id r deps ext extDsts) :: older) (hr : SRunning sg older id f b s0)
    (hd : (SSys.step sg s1 (.complete id r deps ext extDsts)).1 = .done) : (newer.length, f, deps) ∈ stored sg tr := by
  have hp := h.prefix ht
  obtain ⟨p, h1, h2, _⟩ := hp.running_inflight hr
  clear h hp
  induction newer generalizing tr with
  | nil =>
    subst ht
    simp only [List.nil_append, stored, List.length_nil]
    split
    · rename_i q h3 h4
      rw [h1] at h3; cases h3
      rw [h2]; exact List.mem_cons_self
    · rename_i h3
      exact absurd hd (h3 p h1)
  | cons a newer ih =>
    subst ht
    have ih := ih rfl
    obtain ⟨a1, a2⟩ := a
    simp only [List.cons_append, List.length_cons]
    have hm := List.mem_map_of_mem (f := fun q : Nat × FunName × List FunName => (q.1 + 1, q.2)) ih
    cases a2 with
    | complete id' r' d' e' x' =>
      simp only [stored]
      split
      · exact List.mem_cons_of_mem _ hm
      · exact hm
    | _ => exact hm

theorem stored_FG : stored sg sFG.1 = [(1, "f", ["g"]), (2, "g", [])] := by decide

example : ∃ s0, SHistory sg vers sFG.1 sFG.2 ∧ SAlwaysReaches sg sFG.1 "f" "g" ∧ SLastOf sg sFG.1 "g" s0 ∧
    sFG.2.env.funDigest "g" ≠ s0.env.funDigest "g" := by
  refine ⟨(srunEvents sg [] (SSys.init env) (sevsFG.take 3)).2, shistoryFG, .step ?_ (.refl _),
    ⟨sFG.1.take 2, (srunEvents sg [] (SSys.init env) (sevsFG.take 5)).2, (srunEvents sg [] (SSys.init env) (sevsFG.take 5)).1, 2, 1, 1,
      [], [], [], rfl, ⟨[_], [_, _, _], rfl, by decide, ?_⟩, by decide, ?_⟩, by decide⟩
  · intro newer s0 s1 older id b r deps ext extDsts ht hr hd
    have := stored_mem shistoryFG ht hr hd
    rw [stored_FG] at this
    simp at this
    rw [this.2]; simp
  · intro q hq
    simp at hq; subst hq; rfl
  · intro n2 s0' s1' o2 id' b' r' deps' ext' extDsts' ht hr hd
    have := stored_mem shistoryFG ht hr hd
    rw [stored_FG] at this
    simp at this
    rw [this.1]; decide
end Ex

/-! ### Violations -/

/-- **C133** is false: f(2) called g; then g is edited; g is called (and stored with the new text); f(2) is answered with the old
value without running. -/
theorem C133_violated :
    ∃ evs : List (Event Nat Nat), evs = Ex.evsFG ++ [Ex.editG, .prepare 3 "g" 1, .complete 3 77 [] [] []] ∧
      SHistory Ex.sg Ex.vers (srunEvents Ex.sg [] (SSys.init Ex.env) evs).1 (srunEvents Ex.sg [] (SSys.init Ex.env) evs).2 ∧
      (SSys.step Ex.sg (srunEvents Ex.sg [] (SSys.init Ex.env) evs).2 (.prepare 4 "f" 2)).1 = .hit 2 :=
  ⟨_, rfl, Ex.sstart.run _ (by decide), by decide⟩

/-- **C133** is false also when g is not called in between: f(1) calls nothing and is stored first; f(2) calls g, which is not
recorded because f was already recorded; g is edited; f(2) is answered without running. -/
theorem C133_branch_violated :
    ∃ evs : List (Event Nat Nat), evs =
        [.prepare 1 "f" 1, .edit "o" (some (Ex.file 3)), .complete 1 1 [] [] [],
         .prepare 2 "f" 2, .prepare 3 "g" 1, .complete 3 1 [] [] [], .complete 2 2 ["g"] [] [], Ex.editG] ∧
      SHistory Ex.sg Ex.vers (srunEvents Ex.sg [] (SSys.init Ex.env) evs).1 (srunEvents Ex.sg [] (SSys.init Ex.env) evs).2 ∧
      (SSys.step Ex.sg (srunEvents Ex.sg [] (SSys.init Ex.env) evs).2 (.prepare 4 "f" 2)).1 = .hit 2 :=
  ⟨_, rfl, Ex.sstart.run _ (by decide), by decide⟩

end Verif.DB
