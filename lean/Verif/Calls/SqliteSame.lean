import Verif.Calls.Sqlite
import Verif.Props.DBEngines
import Verif.DB.SqliteHistory
/-!
# Builds with the engines `cache`/`pickle` and `sqlite` go the same way

For scripts that report no files: both interpreters take the same steps, and sqlite can store every result.
-/
namespace Verif.Calls
open Verif.DB Verif.DB.Engines
set_option linter.unusedSectionVars false
variable {B R : Type} [DecidableEq B]

/-! ### sqlite can store the result -/

theorem saveCallFiles_ok {kid : Nat} {digs : List (Nat × FileName × Digest)} {s : SDB B R}
    (hk : ∃ k ∈ s.calls, k.id = kid) (hd : ∀ t ∈ digs, ∃ r ∈ s.files, r.id = t.1) :
    ∃ s', saveCallFiles (SDB.storage B R) kid digs s = (.ok (), s') := by
  induction digs generalizing s with
  | nil => exact ⟨s, rfl⟩
  | cons t digs ih =>
    obtain ⟨fid, x, d⟩ := t
    obtain ⟨r, h1, h2⟩ := hd _ List.mem_cons_self
    obtain ⟨k, h3, h4⟩ := hk
    have hrefs : SDB.refsOk kid fid s = true := by
      simp only [SDB.refsOk, Bool.and_eq_true, List.any_eq_true, decide_eq_true_eq]
      exact ⟨⟨k, h3, h4⟩, r, h1, h2⟩
    unfold saveCallFiles
    have h5 : ∃ s1 : SDB B R, (SDB.storage B R).saveCallFile kid fid d s = (.ok (), s1) ∧ s1.calls = s.calls ∧
        s1.files = s.files := by
      show ∃ s1 : SDB B R, SDB.saveCallFile kid fid d s = _ ∧ _
      unfold SDB.saveCallFile
      rw [if_pos hrefs]
      exact ⟨_, rfl, rfl, rfl⟩
    obtain ⟨s1, h5, h6, h7⟩ := h5
    rw [h5]
    exact ih (by rw [h6]; exact ⟨k, h3, h4⟩) fun t ht => by rw [h7]; exact hd t (List.mem_cons_of_mem _ ht)

theorem saveExternal_ok (env : Env) (kid : Nat) (s : SDB B R) : ∃ s', SDB.saveExternal env [] [] kid s = (.ok (), s') := by
  unfold SDB.saveExternal
  simp only [SDB.checkAll, List.map_nil, SDB.insertExternal, SDB.saveDirty, List.filter_nil]
  exact ⟨_, rfl⟩

theorem storeRest_ok (env : Env) {fid : Nat} {cid : Option Nat} {b : B} {r : R} {digs : List (Nat × FileName × Digest)} {s : SDB B R}
    (hf : ∃ g ∈ s.functions, g.id = fid) (hc : ∀ i, cid = some i → ∃ k ∈ s.calls, k.id = i)
    (hd : ∀ t ∈ digs, ∃ q ∈ s.files, q.id = t.1) :
    ∃ s', storeRest (SDB.storage B R) (SDB.saveExternal env [] []) fid cid b r digs s = (.ok (), s') := by
  have call : ∃ kid s2, (SDB.storage B R).saveCall cid fid b r s = (.ok kid, s2) ∧ (∃ k ∈ s2.calls, k.id = kid) ∧
      s2.files = s.files := by
    cases cid with
    | none =>
      obtain ⟨g, h1, h2⟩ := hf
      have : s.functions.any (fun f => f.id = fid) = true := List.any_eq_true.2 ⟨g, h1, by simp [h2]⟩
      refine ⟨s.lastCall + 1, { s with calls := s.calls ++ [⟨s.lastCall + 1, fid, b, r⟩], lastCall := s.lastCall + 1 },
        ?_, ⟨⟨s.lastCall + 1, fid, b, r⟩, by simp, rfl⟩, rfl⟩
      show SDB.saveCall none fid b r s = _
      simp only [SDB.saveCall, this, if_true]
    | some i =>
      obtain ⟨k, h1, h2⟩ := hc i rfl
      refine ⟨i, { s with calls := s.calls.map (fun c => if c.id = i then { c with result := r } else c) }, rfl, ?_, rfl⟩
      exact ⟨{ k with result := r }, List.mem_map.2 ⟨k, h1, by simp [h2]⟩, h2⟩
  obtain ⟨kid, s2, h1, h2, h3⟩ := call
  unfold storeRest
  rw [h1]
  obtain ⟨s3, h4⟩ := saveCallFiles_ok h2 (digs := digs) (by rw [h3]; exact hd)
  simp only [h4]
  exact saveExternal_ok env kid s3

theorem cache_ok {c : CDB B R} {s : SDB B R} (h : Rel c s) (env : Env) {f : FunName} {b : B}
    {p : Prep FunName (FunName × Nat) FileName R} {q : Prep Nat Nat Nat R} (hp : SamePrep s f b p q) (code : Digest)
    (deps : List FunName) (r : R) (hd : ∀ t ∈ q.callFileDigests, ∃ r ∈ s.files, r.id = t.1)
    (hnew : q.funDirty = true → q.funId = none → ∀ g ∈ s.functions, g.name ≠ f) :
    ∃ s', cache (SDB.storage B R) (SDB.saveExternal env [] []) q.funDirty q.funId f code deps (q.found.map Prod.fst) b r
      q.callFileDigests s = (.ok (), s') := by
  cases hdirty : q.funDirty with
  | false =>
    obtain ⟨_, g, h2, h3, h4⟩ := hp.clean hdirty
    rw [h4, cache_clean]
    refine storeRest_ok env ⟨g, h2, rfl⟩ ?_ hd
    intro i hi
    have hf := hp.found
    generalize p.found = a at hf
    generalize q.found = d at hf hi
    match a, d, hf with
    | none, none, _ => cases hi
    | some ((f', i'), r0), some (kid, r'), hf =>
      obtain ⟨_, _, g', _, _, k, a3, a4, _⟩ := hf
      simp only [Option.map_some, Option.some.injEq] at hi
      subst hi
      have hk : k ∈ rows s g'.id := List.mem_of_getElem? a3
      exact ⟨k, (List.mem_filter.1 hk).1, a4⟩
  | true =>
    rw [cache_dirty]
    obtain ⟨_, f2⟩ := hp.dirtyFound hdirty
    rw [f2]
    have hdel : ∃ s0, (if q.funId.isSome then ((SDB.storage B R).deleteFunction f s).2 else s) = s0 ∧
        (∀ g ∈ s0.functions, g.name ≠ f) ∧ s0.files = s.files := by
      cases hi : q.funId with
      | none => exact ⟨s, by simp, hnew hdirty hi, rfl⟩
      | some i =>
        refine ⟨_, rfl, ?_, rfl⟩
        intro g hg
        have : g ∈ s.functions.filter (fun r => ¬ r.name = f) := hg
        simpa using (List.mem_filter.1 this).2
    obtain ⟨s0, e1, e2, e3⟩ := hdel
    rw [e1]
    have hany : s0.functions.any (fun r => r.name = f) = false := by
      rw [List.any_eq_false]
      intro g hg
      simp [e2 g hg]
    have hsave : (SDB.storage B R).saveFunction none f code deps s0 = (.ok (s0.lastFun + 1), { s0 with
        functions := s0.functions ++ [⟨s0.lastFun + 1, f, code, deps⟩], lastFun := s0.lastFun + 1 }) := by
      show SDB.saveFunction none f code deps s0 = _
      simp only [SDB.saveFunction, hany, Bool.false_eq_true, if_false]
    rw [hsave]
    refine storeRest_ok env ⟨⟨s0.lastFun + 1, f, code, deps⟩, by simp, rfl⟩ (fun i hi => by cases hi) ?_
    intro t ht
    show ∃ q ∈ s0.files, _
    rw [e3]
    exact hd t ht

/-! ### One step -/

/-- what is true between the steps of a build -/
structure Steady (sg : Sig B R) (vers : FileName → Nat → Option Content) (s : SSys B R) : Prop where
  inv : SSysInv sg vers s
  held : ∀ id q, s.inflight.get? id = some q → (∀ t ∈ q.prep.callFileDigests, Seen s.env s.db t.2.1 t.1 t.2.2) ∧
    (q.prep.funDirty = true → q.prep.funId = none → ∀ g ∈ s.db.functions, g.name ≠ q.fn) ∧ q.epoch = s.epoch

/-- what may happen -/
def SNext (sg : Sig B R) (vers : FileName → Nat → Option Content) (s : SSys B R) : Event B R → Prop
  | .prepare id f _ => s.inflight.get? id = none ∧ ∀ id' q, s.inflight.get? id' = some q → q.fn ≠ f
  | .complete id _ _ ext extDsts => ext = [] ∧ extDsts = [] ∧ ∀ p, s.inflight.get? id = some p →
      ∀ id' q, id' ≠ id → s.inflight.get? id' = some q → q.fn ≠ p.fn
  | .edit x st => (∀ f, st = some f → vers x f.mtime = f.content) ∧
      ∀ id q, s.inflight.get? id = some q → x ∉ sg.srcs q.fn q.code q.bound
  | .crash _ => False
  | _ => True

variable {sg : Sig B R} {vers : FileName → Nat → Option Content}

theorem SNext.allowed {s : SSys B R} {ev : Event B R} (h : SNext sg vers s ev) (hs : Steady sg vers s) : SAllowed vers s ev := by
  cases ev with
  | prepare id f b => exact ⟨h.1, fun id' p hp hx => h.2 id' p hp hx.1⟩
  | complete id r deps ext extDsts => exact fun p hp => (hs.held id p hp).2.2
  | edit x st => exact h.1
  | _ => trivial

theorem SNext.stores {c : Sys B R} {s : SSys B R} (hr : SysRel c s) (hs : Steady sg vers s) {id : Nat} {q : SPending B R}
    (hq : s.inflight.get? id = some q) (deps : List FunName) (r : R) :
    ∃ s', cache (SDB.storage B R) (SDB.saveExternal s.env [] []) q.prep.funDirty q.prep.funId q.fn q.code deps
      (q.prep.found.map Prod.fst) q.bound r q.prep.callFileDigests s.db = (.ok (), s') := by
  cases hp : c.inflight.get? id with
  | none =>
    rw [Dict.get?_eq_none_iff, hr.keys, ← Dict.get?_eq_none_iff, hq] at hp
    cases hp
  | some p =>
    obtain ⟨_, _, _, a4⟩ := hr.calls id p q hp hq
    obtain ⟨h1, h2, _⟩ := hs.held id q hq
    refine cache_ok hr.db s.env a4 q.code deps r ?_ h2
    intro t ht
    obtain ⟨_, _, _, r0, k1, k2, _⟩ := h1 t ht
    exact ⟨r0, k1, k2⟩

theorem SNext.fine {c : Sys B R} {s : SSys B R} {ev : Event B R} (h : SNext sg vers s ev) (hr : SysRel c s) (hs : Steady sg vers s) :
    FineStep sg s ev := by
  cases ev with
  | complete id r deps ext extDsts =>
    obtain ⟨rfl, rfl, h3⟩ := h
    refine ⟨rfl, rfl, ?_, ?_⟩
    · intro e he
      simp only [SSys.step, SSys.stepComplete] at he
      cases hq : s.inflight.get? id with
      | none => rw [hq] at he; cases he
      | some q =>
        obtain ⟨s', h4⟩ := SNext.stores hr hs hq deps r
        rw [hq] at he
        simp only [h4] at he
        cases he
    · intro p hp hd id' q hq hfn
      by_cases hid : id' = id
      · subst hid
        rw [hp] at hq
        cases hq
        exact hd
      · exact absurd hfn (h3 p hp id' q hid hq)
  | crash ds => exact h
  | _ => trivial

theorem Steady.next {c : Sys B R} {s : SSys B R} {ev : Event B R} (hs : Steady sg vers s) (hr : SysRel c s)
    (h : SNext sg vers s ev) : Steady sg vers (SSys.step sg s ev).2 := by
  refine ⟨hs.inv.step ev (h.allowed hs), ?_⟩
  cases ev with
  | prepare id f b =>
    simp only [SSys.step, SSys.stepPrepare]
    cases hcode : s.env.funDigest f with
    | none => exact hs.held
    | some code =>
      simp only
      have hext : s.db.externalSrcs = [] := hr.db.ssrcs
      generalize hpr : Verif.DB.prepare (SDB.storage B R) s.env f b (sg.srcs f code b) s.db = X
      obtain ⟨o, db1⟩ := X
      obtain ⟨k1, k2⟩ := prepare_sql hs.inv.db.wf hs.inv.faithful hpr
      have hold : ∀ id q, s.inflight.get? id = some q → (∀ t ∈ q.prep.callFileDigests, Seen s.env db1 t.2.1 t.1 t.2.2) ∧
          (q.prep.funDirty = true → q.prep.funId = none → ∀ g ∈ db1.functions, g.name ≠ q.fn) ∧ q.epoch = s.epoch := by
        intro id q hq
        obtain ⟨h1, h2, h3⟩ := hs.held id q hq
        obtain ⟨xs, k3, _⟩ := k1.keep
        exact ⟨fun t ht => ((h1 t ht).kept k3).1, by rw [k1.touch.functions]; exact h2, h3⟩
      cases o with
      | error e => exact hold
      | ok p =>
        simp only
        cases hit s.env (sg.dsts f code b) (sg.returnDsts f code) p with
        | some r => exact hold
        | none =>
          intro id' q' hq'
          simp only [Dict.get?_set] at hq'
          split at hq'
          · cases hq'
            have hF := k2 p rfl
            refine ⟨fun t ht => (hF.digs t ht).2, ?_, rfl⟩
            intro _ hn g hg
            simp only at hn hg ⊢
            rw [k1.touch.functions] at hg
            obtain ⟨_, _, hcase⟩ := checkFunction_sql hF.fn
            rcases hcase with ⟨_, h2, h3⟩ | ⟨_, g', h1, h2, h3⟩ | ⟨_, g', h1, h2, h3, _⟩
            · exact h3 g hg
            · rw [hn] at h3; cases h3
            · rw [hn] at h3; cases h3
          · exact hold id' q' hq'
  | complete id r deps ext extDsts =>
    obtain ⟨rfl, rfl, h3⟩ := h
    simp only [SSys.step, SSys.stepComplete]
    cases hq : s.inflight.get? id with
    | none => exact hs.held
    | some q =>
      obtain ⟨s', h4⟩ := SNext.stores hr hs hq deps r
      simp only [h4]
      intro id' q' hq'
      simp only [Dict.get?_erase] at hq'
      split at hq'
      · cases hq'
      · rename_i hne
        obtain ⟨h5, h6, h7⟩ := hs.held id' q' hq'
        obtain ⟨_, _, hpi⟩ := hs.inv.pending id q hq
        have hpi := hpi (hs.held id q hq).2.2
        obtain ⟨fid, cid, k⟩ := cache_sql hs.inv.db.wf hs.inv.faithful hpi.digsKey h4
        have hfiles : s'.files = s.db.files := by
          cases hp : c.inflight.get? id with
          | none =>
            rw [Dict.get?_eq_none_iff, hr.keys, ← Dict.get?_eq_none_iff, hq] at hp
            cases hp
          | some p =>
            obtain ⟨_, _, _, a4⟩ := hr.calls id p q hp hq
            obtain ⟨_, _, _, hg⟩ := hr.db.cache s.env a4 q.code deps r h4
            exact hg.files
        refine ⟨?_, ?_, h7⟩
        · intro t ht
          obtain ⟨c, k1, k2, r0, k3⟩ := h5 t ht
          exact ⟨c, k1, k2, r0, by simpa [hfiles] using k3⟩
        · intro hd hn g hg
          rcases k.funs g hg with ⟨h8, _⟩ | ⟨_, _, h8, _⟩
          · exact h6 hd hn g h8
          · rw [h8]
            exact fun he => h3 q hq id' q' (fun e => hne e.symm) hq' he.symm
  | fail id =>
    intro id' q' hq'
    simp only [SSys.step, Dict.get?_erase] at hq'
    split at hq'
    · cases hq'
    · exact hs.held id' q' hq'
  | edit x st =>
    intro id q hq
    obtain ⟨h1, h2, h3⟩ := hs.held id q hq
    refine ⟨?_, h2, h3⟩
    intro t ht
    obtain ⟨c, k1, k2, k3⟩ := h1 t ht
    obtain ⟨_, _, hpi⟩ := hs.inv.pending id q hq
    have hne : t.2.1 ≠ x := by
      intro he
      exact h.2 id q hq (he ▸ (hpi h3).digsSrc t ht)
    refine ⟨c, ?_, k2, k3⟩
    rw [← k1]
    simp only [SSys.step, FS.content, hne, if_false]
  | tick n => exact hs.held
  | restart ds => intro id q hq; simp [SSys.step] at hq
  | crash ds => exact h.elim
  | deleteFunction f =>
    simp only [SSys.step]
    split
    · rename_i he
      intro id q hq
      have he : s.inflight = [] := by simpa using he
      simp only [he] at hq
      cases hq
    · exact hs.held
  | deleteFile x =>
    simp only [SSys.step]
    split
    · rename_i he
      intro id q hq
      have he : s.inflight = [] := by simpa using he
      simp only [he] at hq
      cases hq
    · exact hs.held

/-! ### Programs -/

/-- the two processes are in the same state -/
structure SSame (m : Mach B R) (n : SMach B R) : Prop where
  sys : SysRel m.sys n.sys
  stack : m.stack = n.stack
  next : m.next = n.next
  trace : m.trace.map Prod.snd = n.trace

theorem SSame.event {m : Mach B R} {n : SMach B R} (h : SSame m n) (hs : Steady sg vers n.sys) {ev : Event B R}
    (hn : SNext sg vers n.sys ev) :
    besidesDeleted (m.event sg ev).1 = besidesDeleted (n.event sg ev).1 ∧ SSame (m.event sg ev).2 (n.event sg ev).2 ∧
      Steady sg vers (n.event sg ev).2.sys := by
  obtain ⟨h1, h2⟩ := h.sys.next sg ev (hn.fine h.sys hs)
  refine ⟨h1, ⟨h2, h.stack, h.next, ?_⟩, hs.next h.sys hn⟩
  simp only [Mach.event, SMach.event, List.map_cons, h.trace]

theorem SSame.files {m : Mach B R} {n : SMach B R} (h : SSame m n) : m.files = n.files := by
  unfold Mach.files SMach.files
  rw [h.sys.env]

/-- between two steps of a build -/
structure Ready (sg : Sig B R) (vers : FileName → Nat → Option Content) (ρ : Layout B) (n : SMach B R) : Prop where
  steady : Steady sg vers n.sys
  respects : ρ.Respects n.sys.env.funDigest
  fresh : ∀ id q, n.sys.inflight.get? id = some q → id < n.next

/-- a piece of a program has run -/
structure Stays (n n' : SMach B R) : Prop where
  digests : n'.sys.env.funDigest = n.sys.env.funDigest
  next : n.next ≤ n'.next
  calls : ∀ id, n'.sys.inflight.get? id = n.sys.inflight.get? id

theorem Stays.refl (n : SMach B R) : Stays n n := ⟨rfl, Nat.le_refl _, fun _ => rfl⟩

theorem Stays.trans {a b c : SMach B R} (h1 : Stays a b) (h2 : Stays b c) : Stays a c :=
  ⟨h2.digests.trans h1.digests, Nat.le_trans h1.next h2.next, fun id => (h2.calls id).trans (h1.calls id)⟩

/-- the events so far were the events before, and some more -/
def Longer (n n' : SMach B R) : Prop := ∃ new, n'.trace = new ++ n.trace

theorem Longer.refl (n : SMach B R) : Longer n n := ⟨[], rfl⟩
theorem Longer.trans {a b c : SMach B R} (h1 : Longer a b) (h2 : Longer b c) : Longer a c := by
  obtain ⟨x, h1⟩ := h1
  obtain ⟨y, h2⟩ := h2
  exact ⟨y ++ x, by rw [h2, h1, List.append_assoc]⟩
theorem Longer.event (sg : Sig B R) (n : SMach B R) (ev : Event B R) : Longer n (n.event sg ev).2 := ⟨[ev], rfl⟩
theorem Longer.edits {n n' : SMach B R} (h : Longer n n') (he : SEditsOk vers n'.trace) : SEditsOk vers n.trace := by
  obtain ⟨x, h⟩ := h
  intro y st hy
  exact he y st (by rw [h]; exact List.mem_append_right _ hy)

theorem longer_write (clk : Nat → Nat) (x : FileName) (c : Option Content) (n : SMach B R) : Longer n (n.writeFile sg clk x c) :=
  ⟨[_, _], rfl⟩

theorem longer_prog {clk : Nat → Nat} {callN : FunName → B → SMach B R → SOutcome B R}
    (hc : ∀ g c n, Longer n (callN g c n).2.2) (p : Prog B R) (n : SMach B R) : Longer n (SMach.runProg sg clk callN p n).2.2 := by
  induction p generalizing n with
  | ret r => exact .refl _
  | raise => exact .refl _
  | callD d f b k ih =>
    simp only [SMach.runProg]
    exact (hc f b n).trans (ih _ _)
  | report srcs dsts k ih => exact ih n
  | read x k ih => exact ih _ n
  | write x c k ih => exact (longer_write clk x c n).trans (ih _)

theorem longer_run {run : SMach B R → SOutcome B R} (hr : ∀ n, Longer n (run n).2.2) (id : Nat) (n : SMach B R) :
    Longer n (SMach.runCall sg run id n).2.2 := by
  have h1 : Longer n (run { n with stack := [] :: n.stack }).2.2 := hr _
  unfold SMach.runCall
  generalize run { n with stack := [] :: n.stack } = X at *
  obtain ⟨o, rep, n1⟩ := X
  cases o with
  | none => exact h1.trans (.event sg n1 _)
  | some r =>
    simp only at h1 ⊢
    cases n1.stack with
    | nil => exact h1.trans (.event sg n1 _)
    | cons deps rest =>
      simp only
      have h2 : Longer n1 (({ n1 with stack := rest } : SMach B R).event sg (.complete id r deps rep.srcs rep.dsts)).2 := ⟨[_], rfl⟩
      generalize ({ n1 with stack := rest } : SMach B R).event sg (.complete id r deps rep.srcs rep.dsts) = Y at *
      obtain ⟨o2, n2⟩ := Y
      cases o2 <;> exact h1.trans h2

theorem longer_ask {clk : Nat → Nat} {run : SMach B R → SOutcome B R} (hr : ∀ n, Longer n (run n).2.2) (f : FunName) (b : B)
    (n : SMach B R) : Longer n (SMach.askCall sg clk run f b n).2.2 := by
  unfold SMach.askCall
  simp only
  have h2 : Longer n (((({ n with stack := noteCall f n.stack, next := n.next + 1 } : SMach B R).event sg (.tick (clk n.next))).2).event sg
      (.prepare n.next f b)).2 := ⟨[_, _], rfl⟩
  generalize ((({ n with stack := noteCall f n.stack, next := n.next + 1 } : SMach B R).event sg (.tick (clk n.next))).2).event sg
      (.prepare n.next f b) = Y at *
  obtain ⟨o, n2⟩ := Y
  cases o with
  | run => exact h2.trans (longer_run hr _ _)
  | _ => exact h2

theorem longer_call {script : Script B R} {clk : Nat → Nat} (k : Nat) (f : FunName) (b : B) (n : SMach B R) :
    Longer n (SMach.callFn sg script clk k f b n).2.2 := by
  induction k generalizing f b n with
  | zero => exact longer_ask (fun n => .refl n) f b n
  | succ k ih =>
    unfold SMach.callFn
    exact longer_ask (fun n => longer_prog ih _ n) f b n

/-- the outcomes are the same, and no files were reported -/
structure Together (sg : Sig B R) (vers : FileName → Nat → Option Content) (ρ : Layout B) (n : SMach B R) (x : Outcome B R)
    (y : SOutcome B R) : Prop where
  value : x.1 = y.1
  quiet : x.2.1 = .none
  quiet' : y.2.1 = .none
  same : SSame x.2.2 y.2.2
  ready : Ready sg vers ρ y.2.2
  stays : Stays n y.2.2

/-- The call of `f` with `b` may be made: the calls that are running are of functions of higher rank, and do not have the files of the
call among their sources. -/
structure May (sg : Sig B R) (ρ : Layout B) (f : FunName) (b : B) (n : SMach B R) : Prop where
  rank : ∀ id q, n.sys.inflight.get? id = some q → ρ.rank f < ρ.rank q.fn
  apart : ∀ id q, n.sys.inflight.get? id = some q → ∀ x, ρ.owner x = some (f, b) → x ∉ sg.srcs q.fn q.code q.bound

def CallSame (sg : Sig B R) (vers : FileName → Nat → Option Content) (ρ : Layout B) (f : FunName) (b : B)
    (callM : Mach B R → Outcome B R) (callN : SMach B R → SOutcome B R) : Prop :=
  ∀ m n, SSame m n → Ready sg vers ρ n → May sg ρ f b n → SEditsOk vers (callN n).2.2.trace →
    Together sg vers ρ n (callM m) (callN n)

theorem write_same {ρ : Layout B} {m : Mach B R} {n : SMach B R} (h : SSame m n) (hr : Ready sg vers ρ n) (clk : Nat → Nat)
    (x : FileName) (c : Option Content) (he : SEditsOk vers (n.writeFile sg clk x c).trace)
    (hx : ∀ id q, n.sys.inflight.get? id = some q → x ∉ sg.srcs q.fn q.code q.bound) :
    SSame (m.writeFile sg clk x c) (n.writeFile sg clk x c) ∧ Ready sg vers ρ (n.writeFile sg clk x c) ∧
      Stays n (n.writeFile sg clk x c) := by
  have h0 : SSame ({ m with next := n.next + 1 } : Mach B R) ({ n with next := n.next + 1 } : SMach B R) :=
    ⟨h.sys, h.stack, rfl, h.trace⟩
  have h1 := h0.event (sg := sg) (vers := vers) hr.steady (ev := .tick (clk n.next)) trivial
  have h2 := h1.2.1.event (sg := sg) (vers := vers) h1.2.2 (ev := .edit x (c.map fun c => ⟨clk n.next, some c⟩)) ⟨?_, hx⟩
  · refine ⟨?_, ⟨h2.2.2, hr.respects, fun id q hq => Nat.lt_succ_of_lt (hr.fresh id q hq)⟩, rfl, Nat.le_succ _, fun _ => rfl⟩
    unfold Mach.writeFile SMach.writeFile
    rw [h.next]
    exact h2.2.1
  · intro f hf
    refine he x f ?_
    show _ ∈ Event.edit x (c.map fun c => ⟨clk n.next, some c⟩) :: _
    rw [hf]
    exact List.mem_cons_self

theorem body_same {script : Script B R} {ρ : Layout B} (hw : WellBehaved sg script ρ) {clk : Nat → Nat} {f : FunName} {b : B}
    {callM : FunName → B → Mach B R → Outcome B R} {callN : FunName → B → SMach B R → SOutcome B R}
    (hc : ∀ g c, CallSame sg vers ρ g c (callM g c) (callN g c)) (hlong : ∀ g c n, Longer n (callN g c n).2.2) (p : Prog B R)
    (hb : ρ.Body f b p) (hq : Silent p) (m : Mach B R) (n : SMach B R) (h : SSame m n) (hr : Ready sg vers ρ n)
    (hrank : ∀ id q, n.sys.inflight.get? id = some q → ρ.rank f ≤ ρ.rank q.fn)
    (hapart : ∀ id q, n.sys.inflight.get? id = some q → ∀ x, ρ.owner x = some (f, b) → x ∉ sg.srcs q.fn q.code q.bound)
    (he : SEditsOk vers (SMach.runProg sg clk callN p n).2.2.trace) :
    Together sg vers ρ n (runProg sg clk callM p m) (SMach.runProg sg clk callN p n) := by
  induction p generalizing m n with
  | ret r => exact ⟨rfl, rfl, rfl, h, hr, .refl _⟩
  | raise => exact ⟨rfl, rfl, rfl, h, hr, .refl _⟩
  | callD d g c k ih =>
    obtain ⟨b1, b2, b3, _, b5⟩ := hb
    obtain ⟨rfl, q2⟩ := hq
    simp only [SMach.runProg] at he
    have hmay : May sg ρ g c n := by
      refine ⟨fun id q hq => Nat.lt_of_lt_of_le b2 (hrank id q hq), fun id q _ x hx => ?_⟩
      rcases hw.pure x g c hx with h1 | h1
      · rw [h1] at b1; cases b1
      · exact absurd (b3.2 h1) (by simp)
    have h1 := hc g c m n h hr hmay (((longer_prog hlong _ _).edits he))
    simp only [runProg, SMach.runProg]
    generalize callM g c m = X at h1 ⊢
    generalize callN g c n = Y at h1 he ⊢
    obtain ⟨o, rep, m1⟩ := X
    obtain ⟨o', rep', n1⟩ := Y
    obtain ⟨e1, e2, e3, e4, e5, e6⟩ := h1
    simp only at e1 e2 e3 e4 e5 e6 he ⊢
    subst e1 e2 e3
    have h2 := ih o (b5 o) (q2 o) m1 n1 e4 e5 (fun id q hq => hrank id q (by rw [← e6.calls]; exact hq))
      (fun id q hq => hapart id q (by rw [← e6.calls]; exact hq)) he
    have hd1 : deepFiles sg false g c o m1 = .none := by cases o <;> rfl
    have hd2 : SMach.deepFiles sg false g c o n1 = .none := by cases o <;> rfl
    rw [hd1, hd2]
    refine ⟨h2.value, ?_, ?_, h2.same, h2.ready, e6.trans h2.stays⟩
    · simp only [h2.quiet]; rfl
    · simp only [h2.quiet']; rfl
  | report srcs dsts k ih => exact hq.elim
  | read x k ih =>
    simp only [runProg, SMach.runProg] at he ⊢
    have : m.sys.env.fs.content x = n.sys.env.fs.content x := by rw [h.sys.env]
    rw [this]
    exact ih _ (hb _) (hq _) m n h hr hrank hapart he
  | write x c k ih =>
    obtain ⟨b1, _, b3⟩ := hb
    simp only [runProg, SMach.runProg] at he ⊢
    obtain ⟨h1, h2, h3⟩ := write_same h hr clk x c ((longer_prog hlong _ _).edits he) (fun id q hq => hapart id q hq x b1)
    have h4 := ih b3 hq _ _ h1 h2 (fun id q hq => hrank id q (by rw [← h3.calls]; exact hq))
      (fun id q hq => hapart id q (by rw [← h3.calls]; exact hq)) he
    exact ⟨h4.value, h4.quiet, h4.quiet', h4.same, h4.ready, h3.trans h4.stays⟩

/-! ### Calls -/

theorem prepare_step (sg : Sig B R) (s : SSys B R) (id : Nat) (f : FunName) (b : B) :
    (SSys.step sg s (.prepare id f b)).2.env = s.env ∧
    (((SSys.step sg s (.prepare id f b)).1 ≠ .run ∧ (SSys.step sg s (.prepare id f b)).2.inflight = s.inflight) ∨
      ((SSys.step sg s (.prepare id f b)).1 = .run ∧ ∃ code p, s.env.funDigest f = some code ∧
        (SSys.step sg s (.prepare id f b)).2.inflight = s.inflight.set id ⟨f, code, b, p, s.env.fs, s.epoch⟩)) := by
  simp only [SSys.step, SSys.stepPrepare]
  cases hcode : s.env.funDigest f with
  | none => exact ⟨rfl, .inl ⟨by simp, rfl⟩⟩
  | some code =>
    simp only
    generalize Verif.DB.prepare (SDB.storage B R) s.env f b (sg.srcs f code b) s.db = X
    obtain ⟨o, db1⟩ := X
    cases o with
    | error e => exact ⟨rfl, .inl ⟨by simp, rfl⟩⟩
    | ok p =>
      simp only
      cases hit s.env (sg.dsts f code b) (sg.returnDsts f code) p with
      | some r => exact ⟨rfl, .inl ⟨by simp, rfl⟩⟩
      | none => exact ⟨rfl, .inr ⟨rfl, code, p, rfl, rfl⟩⟩

theorem complete_step (sg : Sig B R) (s : SSys B R) (id : Nat) (r : R) (deps : List FunName) (xs ys : List FileName) :
    (SSys.step sg s (.complete id r deps xs ys)).2.env = s.env ∧
    ∀ i, (SSys.step sg s (.complete id r deps xs ys)).2.inflight.get? i = if id = i then none else s.inflight.get? i := by
  simp only [SSys.step, SSys.stepComplete]
  cases hq : s.inflight.get? id with
  | none =>
    refine ⟨rfl, fun i => ?_⟩
    by_cases h : id = i
    · rw [if_pos h, ← h]; exact hq
    · rw [if_neg h]
  | some q =>
    simp only
    generalize Verif.DB.cache (SDB.storage B R) (SDB.saveExternal s.env xs ys) q.prep.funDirty q.prep.funId q.fn q.code deps
      (q.prep.found.map Prod.fst) q.bound r q.prep.callFileDigests s.db = X
    obtain ⟨o, db1⟩ := X
    cases o with
    | error e => exact ⟨rfl, fun i => by simp only [Dict.get?_erase]⟩
    | ok u => exact ⟨rfl, fun i => by simp only [Dict.get?_erase]⟩

/-- the body of a function, if it may run -/
def RunSame (sg : Sig B R) (vers : FileName → Nat → Option Content) (ρ : Layout B) (f : FunName) (b : B)
    (runM : Mach B R → Outcome B R) (runN : SMach B R → SOutcome B R) : Prop :=
  ∀ m n, SSame m n → Ready sg vers ρ n → (∀ id q, n.sys.inflight.get? id = some q → ρ.rank f ≤ ρ.rank q.fn) →
    (∀ id q, n.sys.inflight.get? id = some q → ∀ x, ρ.owner x = some (f, b) → x ∉ sg.srcs q.fn q.code q.bound) →
    SEditsOk vers (runN n).2.2.trace → Together sg vers ρ n (runM m) (runN n)

theorem finish_same {ρ : Layout B} {n0 n : SMach B R} {m : Mach B R} {f : FunName} {id : Nat} (h : SSame m n) (hr : Ready sg vers ρ n)
    (hrank : ∀ i q, n0.sys.inflight.get? i = some q → ρ.rank f < ρ.rank q.fn) (hid : n0.sys.inflight.get? id = none)
    (hcalls : ∀ i, i ≠ id → n.sys.inflight.get? i = n0.sys.inflight.get? i)
    (hfn : ∀ q, n.sys.inflight.get? id = some q → q.fn = f) (hdig : n.sys.env.funDigest = n0.sys.env.funDigest)
    (hnext : n0.next ≤ n.next) {ev : Event B R}
    (hev : ev = .fail id ∨ ∃ r deps, ev = .complete id r deps [] []) :
    SSame (m.event sg ev).2 (n.event sg ev).2 ∧ Ready sg vers ρ (n.event sg ev).2 ∧ Stays n0 (n.event sg ev).2 ∧
      besidesDeleted (m.event sg ev).1 = besidesDeleted (n.event sg ev).1 := by
  have hN : SNext sg vers n.sys ev := by
    rcases hev with rfl | ⟨r, deps, rfl⟩
    · trivial
    · refine ⟨rfl, rfl, ?_⟩
      intro p hp i q hi hq he
      rw [hcalls i hi] at hq
      have := hrank i q hq
      rw [he, hfn p hp] at this
      exact absurd this (Nat.lt_irrefl _)
  have h1 := h.event (sg := sg) (vers := vers) hr.steady hN
  have henv : (n.event sg ev).2.sys.env = n.sys.env ∧
      ∀ i, (n.event sg ev).2.sys.inflight.get? i = if id = i then none else n.sys.inflight.get? i := by
    rcases hev with rfl | ⟨r, deps, rfl⟩
    · exact ⟨rfl, fun i => by simp only [SMach.event, SSys.step, Dict.get?_erase]⟩
    · exact complete_step sg n.sys id r deps [] []
  refine ⟨h1.2.1, ⟨h1.2.2, by rw [henv.1]; exact hr.respects, ?_⟩, ⟨by rw [henv.1, hdig], hnext, ?_⟩, h1.1⟩
  · intro i q hq
    rw [henv.2] at hq
    split at hq
    · cases hq
    · exact hr.fresh i q hq
  · intro i
    rw [henv.2]
    split
    · rename_i h; rw [← h, hid]
    · rename_i h; exact hcalls i fun e => h e.symm

theorem run_same {ρ : Layout B} {f : FunName} {b : B} {runM : Mach B R → Outcome B R} {runN : SMach B R → SOutcome B R}
    (hrun : RunSame sg vers ρ f b runM runN) (hlong : ∀ n, Longer n (runN n).2.2)
    {n0 n : SMach B R} {m : Mach B R} {id : Nat} (h : SSame m n) (hr : Ready sg vers ρ n)
    (hrank : ∀ i q, n0.sys.inflight.get? i = some q → ρ.rank f < ρ.rank q.fn) (hid : n0.sys.inflight.get? id = none)
    (hapart : ∀ i q, n.sys.inflight.get? i = some q → ∀ x, ρ.owner x = some (f, b) → x ∉ sg.srcs q.fn q.code q.bound)
    (hcalls : ∀ i, i ≠ id → n.sys.inflight.get? i = n0.sys.inflight.get? i)
    (hfn : ∀ q, n.sys.inflight.get? id = some q → q.fn = f) (hdig : n.sys.env.funDigest = n0.sys.env.funDigest)
    (hnext : n0.next ≤ n.next) (he : SEditsOk vers (SMach.runCall sg runN id n).2.2.trace) :
    Together sg vers ρ n0 (runCall sg runM id m) (SMach.runCall sg runN id n) := by
  have hrank' : ∀ i q, n.sys.inflight.get? i = some q → ρ.rank f ≤ ρ.rank q.fn := by
    intro i q hq
    by_cases hi : i = id
    · subst hi; rw [hfn q hq]; exact Nat.le_refl _
    · rw [hcalls i hi] at hq; exact Nat.le_of_lt (hrank i q hq)
  have h0 : SSame ({ m with stack := [] :: m.stack } : Mach B R) ({ n with stack := [] :: n.stack } : SMach B R) :=
    ⟨h.sys, by rw [h.stack], h.next, h.trace⟩
  have hr0 : Ready sg vers ρ ({ n with stack := [] :: n.stack } : SMach B R) := ⟨hr.steady, hr.respects, hr.fresh⟩
  have hbefore : Longer (runN { n with stack := [] :: n.stack }).2.2 (SMach.runCall sg runN id n).2.2 := by
    unfold SMach.runCall
    generalize runN { n with stack := [] :: n.stack } = X
    obtain ⟨o, rep, n1⟩ := X
    cases o with
    | none => exact .event sg n1 _
    | some r =>
      simp only
      cases n1.stack with
      | nil => exact .event sg n1 _
      | cons deps rest =>
        simp only
        have h2 : Longer n1 (({ n1 with stack := rest } : SMach B R).event sg (.complete id r deps rep.srcs rep.dsts)).2 := ⟨[_], rfl⟩
        generalize ({ n1 with stack := rest } : SMach B R).event sg (.complete id r deps rep.srcs rep.dsts) = Y at *
        obtain ⟨o2, n2⟩ := Y
        cases o2 <;> exact h2
  have h1 := hrun _ _ h0 hr0 hrank' hapart (hbefore.edits he)
  unfold runCall SMach.runCall
  generalize runM { m with stack := [] :: m.stack } = X at h1 ⊢
  generalize runN { n with stack := [] :: n.stack } = Y at h1 ⊢
  obtain ⟨o, rep, m1⟩ := X
  obtain ⟨o', rep', n1⟩ := Y
  obtain ⟨e1, e2, e3, e4, e5, e6⟩ := h1
  simp only at e1 e2 e3 e4 e5 e6 ⊢
  subst e1 e2 e3
  have fin := fun {m1 : Mach B R} {n1 : SMach B R} (e4 : SSame m1 n1) (e5 : Ready sg vers ρ n1)
      (e6 : Stays ({ n with stack := [] :: n.stack } : SMach B R) n1) {ev : Event B R}
      (hev : ev = .fail id ∨ ∃ r deps, ev = .complete id r deps [] []) =>
    finish_same (sg := sg) (vers := vers) (n0 := n0) e4 e5 hrank hid (fun i hi => (e6.calls i).trans (hcalls i hi))
      (fun q hq => hfn q ((e6.calls id).symm.trans hq)) (e6.digests.trans hdig) (Nat.le_trans hnext e6.next) hev
  cases o with
  | none =>
    obtain ⟨k1, k2, k3, _⟩ := fin e4 e5 e6 (.inl rfl)
    exact ⟨rfl, rfl, rfl, k1, k2, k3⟩
  | some r =>
    simp only [e4.stack]
    cases hst : n1.stack with
    | nil =>
      obtain ⟨k1, k2, k3, _⟩ := fin e4 e5 e6 (.inl rfl)
      exact ⟨rfl, rfl, rfl, k1, k2, k3⟩
    | cons deps rest =>
      simp only
      have s4 : SSame ({ m1 with stack := rest } : Mach B R) ({ n1 with stack := rest } : SMach B R) :=
        ⟨e4.sys, rfl, e4.next, e4.trace⟩
      have r5 : Ready sg vers ρ ({ n1 with stack := rest } : SMach B R) := ⟨e5.steady, e5.respects, e5.fresh⟩
      obtain ⟨k1, k2, k3, k4⟩ := fin s4 r5 ⟨e6.digests, e6.next, e6.calls⟩ (ev := .complete id r deps [] []) (.inr ⟨r, deps, rfl⟩)
      show Together sg vers ρ n0 (match ({ m1 with stack := rest } : Mach B R).event sg (.complete id r deps [] []) with
        | (.done, m2) => (some r, Reports.none, m2) | (_, m2) => (none, Reports.none, m2))
        (match ({ n1 with stack := rest } : SMach B R).event sg (.complete id r deps [] []) with
        | (.done, m2) => (some r, Reports.none, m2) | (_, m2) => (none, Reports.none, m2))
      generalize ({ m1 with stack := rest } : Mach B R).event sg (.complete id r deps [] []) = X at *
      generalize ({ n1 with stack := rest } : SMach B R).event sg (.complete id r deps [] []) = Y at *
      obtain ⟨o1, m2⟩ := X
      obtain ⟨o2, n2⟩ := Y
      simp only at k1 k2 k3 k4
      cases o1 <;> cases o2 <;> simp only [besidesDeleted] at k4 <;>
        first
        | exact ⟨rfl, rfl, rfl, k1, k2, k3⟩
        | cases k4

theorem ask_same {ρ : Layout B} {f : FunName} {b : B} {script : Script B R} (hd : Declared sg script ρ) {clk : Nat → Nat}
    {runM : Mach B R → Outcome B R} {runN : SMach B R → SOutcome B R} (hrun : RunSame sg vers ρ f b runM runN)
    (hlong : ∀ n, Longer n (runN n).2.2) :
    CallSame sg vers ρ f b (askCall sg clk runM f b) (SMach.askCall sg clk runN f b) := by
  intro m n h hr hmay he
  unfold askCall SMach.askCall at *
  simp only at he ⊢
  rw [h.stack, h.next]
  have h0 : SSame ({ m with stack := noteCall f n.stack, next := n.next + 1 } : Mach B R)
      ({ n with stack := noteCall f n.stack, next := n.next + 1 } : SMach B R) := ⟨h.sys, rfl, rfl, h.trace⟩
  have h1 := h0.event (sg := sg) (vers := vers) hr.steady (ev := .tick (clk n.next)) trivial
  generalize hn1 : (({ n with stack := noteCall f n.stack, next := n.next + 1 } : SMach B R).event sg (.tick (clk n.next))).2 = n1 at *
  generalize (({ m with stack := noteCall f n.stack, next := n.next + 1 } : Mach B R).event sg (.tick (clk n.next))).2 = m1 at *
  have i1 : n1.sys.inflight = n.sys.inflight := by rw [← hn1]; rfl
  have d1 : n1.sys.env.funDigest = n.sys.env.funDigest := by rw [← hn1]; rfl
  have x1 : n1.next = n.next + 1 := by rw [← hn1]; rfl
  have hnone : n.sys.inflight.get? n.next = none := by
    cases hq : n.sys.inflight.get? n.next with
    | none => rfl
    | some q => exact absurd (hr.fresh _ q hq) (Nat.lt_irrefl _)
  have hN : SNext sg vers n1.sys (.prepare n.next f b) := by
    refine ⟨by rw [i1]; exact hnone, ?_⟩
    intro i q hq he
    rw [i1] at hq
    have := hmay.rank i q hq
    rw [he] at this
    exact absurd this (Nat.lt_irrefl _)
  have h2 := h1.2.1.event (sg := sg) (vers := vers) h1.2.2 hN
  obtain ⟨p1, p2⟩ := prepare_step sg n1.sys n.next f b
  have x2 : (n1.event sg (.prepare n.next f b)).2.next = n.next + 1 := x1
  have p1 : (n1.event sg (.prepare n.next f b)).2.sys.env = n1.sys.env := p1
  have p2 : ((n1.event sg (.prepare n.next f b)).1 ≠ .run ∧ (n1.event sg (.prepare n.next f b)).2.sys.inflight = n1.sys.inflight) ∨
      ((n1.event sg (.prepare n.next f b)).1 = .run ∧ ∃ code p, n1.sys.env.funDigest f = some code ∧
        (n1.event sg (.prepare n.next f b)).2.sys.inflight = n1.sys.inflight.set n.next ⟨f, code, b, p, n1.sys.env.fs, n1.sys.epoch⟩) := p2
  generalize m1.event sg (.prepare n.next f b) = X at *
  generalize n1.event sg (.prepare n.next f b) = Y at *
  obtain ⟨o, m2⟩ := X
  obtain ⟨o', n2⟩ := Y
  obtain ⟨h3, h4, h5⟩ := h2
  simp only at h3 h4 h5 x2 p1 p2 he
  have quiet : o' ≠ .run → Ready sg vers ρ n2 ∧ Stays n n2 := by
    intro hne
    rcases p2 with ⟨_, q⟩ | ⟨q, _⟩
    · refine ⟨⟨h5, by rw [p1, d1]; exact hr.respects, ?_⟩, by rw [p1, d1], by omega, fun i => by rw [q, i1]⟩
      intro i p hp
      rw [q, i1] at hp
      have := hr.fresh i p hp
      omega
    · exact absurd q hne
  cases o' with
  | run =>
    have ho : o = .run := by cases o <;> simp only [besidesDeleted] at h3 <;> first | rfl | cases h3
    subst ho
    simp only at he ⊢
    rcases p2 with ⟨q, _⟩ | ⟨_, code, p, q1, q2⟩
    · exact absurd rfl q
    rw [i1] at q2
    have g2 : ∀ i, n2.sys.inflight.get? i = if n.next = i then some ⟨f, code, b, p, n1.sys.env.fs, n1.sys.epoch⟩
        else n.sys.inflight.get? i := fun i => by rw [q2, Dict.get?_set]
    refine run_same hrun hlong (n0 := n) h4 ⟨h5, by rw [p1, d1]; exact hr.respects, ?_⟩ hmay.rank hnone ?_ ?_ ?_ (by rw [p1, d1])
      (by omega) he
    · intro i q hq
      rw [g2] at hq
      split at hq
      · omega
      · have := hr.fresh i q hq
        omega
    · intro i q hq x hx
      rw [g2] at hq
      split at hq
      · cases hq
        exact hd.own x f b code hx
      · exact hmay.apart i q hq x hx
    · intro i hi
      rw [g2, if_neg fun e => hi e.symm]
    · intro q hq
      rw [g2, if_pos rfl] at hq
      cases hq
      rfl
  | hit r =>
    have ho : o = .hit r := by
      cases o <;> simp only [besidesDeleted] at h3 <;> first | (cases h3; rfl) | cases h3
    subst ho
    exact ⟨rfl, rfl, rfl, h4, (quiet (by simp)).1, (quiet (by simp)).2⟩
  | done =>
    have q := quiet (by simp)
    cases o <;> simp only [besidesDeleted] at h3 <;> first | exact ⟨rfl, rfl, rfl, h4, q.1, q.2⟩ | cases h3
  | raised e =>
    have q := quiet (by simp)
    cases o <;> simp only [besidesDeleted] at h3 <;> first | exact ⟨rfl, rfl, rfl, h4, q.1, q.2⟩ | cases h3
  | deleted e =>
    have q := quiet (by simp)
    cases o <;> simp only [besidesDeleted] at h3 <;> first | exact ⟨rfl, rfl, rfl, h4, q.1, q.2⟩ | cases h3

theorem call_same {ρ : Layout B} {script : Script B R} (hw : WellBehaved sg script ρ) (hd : Declared sg script ρ) {clk : Nat → Nat}
    (k : Nat) (f : FunName) (b : B) :
    CallSame sg vers ρ f b (callFn sg script clk k f b) (SMach.callFn sg script clk k f b) := by
  induction k generalizing f b with
  | zero =>
    have e1 : callFn sg script clk 0 f b = askCall sg clk (fun m => (none, .none, m)) f b := by funext m; rw [callFn]
    have e2 : SMach.callFn sg script clk 0 f b = SMach.askCall sg clk (fun m => (none, .none, m)) f b := by funext m; rw [SMach.callFn]
    rw [e1, e2]
    exact ask_same hd (fun m n h hr _ _ _ => ⟨rfl, rfl, rfl, h, hr, .refl _⟩) (fun n => .refl n)
  | succ k ih =>
    have e1 : callFn sg script clk (k + 1) f b = askCall sg clk (fun m => runProg sg clk (callFn sg script clk k)
        (script f ((m.sys.env.funDigest f).getD "") b) m) f b := by funext m; rw [callFn]
    have e2 : SMach.callFn sg script clk (k + 1) f b = SMach.askCall sg clk (fun m => SMach.runProg sg clk (SMach.callFn sg script clk k)
        (script f ((m.sys.env.funDigest f).getD "") b) m) f b := by funext m; rw [SMach.callFn]
    rw [e1, e2]
    refine ask_same hd ?_ (fun n => longer_prog (fun g c n => longer_call k g c n) _ n)
    intro m n h hr hrank hapart he
    simp only at he ⊢
    have henv : m.sys.env = n.sys.env := h.sys.env
    rw [henv]
    have hcode : ∀ d, ρ.lib f = some d → (n.sys.env.funDigest f).getD "" = d := by
      intro d hl
      rw [hr.respects f d hl]
      rfl
    exact body_same hw ih (fun g c n => longer_call k g c n) _ (hw.body _ _ _ hcode) (hd.silent _ _ _ hcode) m n h hr hrank hapart he

/-! ### Builds -/

theorem main_same {ρ : Layout B} {script : Script B R} (hw : WellBehaved sg script ρ) (hd : Declared sg script ρ) {clk : Nat → Nat}
    {limit : Nat} (p : Prog B R) (m : Mach B R) (n : SMach B R) (h : SSame m n) (hr : Ready sg vers ρ n)
    (hin : ∀ id, n.sys.inflight.get? id = none)
    (he : SEditsOk vers (SMach.runProg sg clk (SMach.callFn sg script clk limit) p n).2.2.trace) :
    (runProg sg clk (callFn sg script clk limit) p m).1 = (SMach.runProg sg clk (SMach.callFn sg script clk limit) p n).1 ∧
    SSame (runProg sg clk (callFn sg script clk limit) p m).2.2 (SMach.runProg sg clk (SMach.callFn sg script clk limit) p n).2.2 ∧
    Ready sg vers ρ (SMach.runProg sg clk (SMach.callFn sg script clk limit) p n).2.2 ∧
    Stays n (SMach.runProg sg clk (SMach.callFn sg script clk limit) p n).2.2 := by
  have hlong : ∀ g c n, Longer n (SMach.callFn sg script clk limit g c n).2.2 := fun g c n => longer_call limit g c n
  induction p generalizing m n with
  | ret r => exact ⟨rfl, h, hr, .refl _⟩
  | raise => exact ⟨rfl, h, hr, .refl _⟩
  | callD d g c k ih =>
    simp only [runProg, SMach.runProg] at he ⊢
    have hmay : May sg ρ g c n := ⟨fun id q hq => (by rw [hin] at hq; cases hq), fun id q hq => (by rw [hin] at hq; cases hq)⟩
    have h1 := call_same hw hd (clk := clk) limit g c m n h hr hmay ((longer_prog hlong _ _).edits he)
    generalize callFn sg script clk limit g c m = X at h1 ⊢
    generalize SMach.callFn sg script clk limit g c n = Y at h1 he ⊢
    obtain ⟨o, rep, m1⟩ := X
    obtain ⟨o', rep', n1⟩ := Y
    obtain ⟨e1, _, _, e4, e5, e6⟩ := h1
    simp only at e1 e4 e5 e6 he ⊢
    subst e1
    obtain ⟨k1, k2, k3, k4⟩ := ih o m1 n1 e4 e5 (fun id => by rw [e6.calls]; exact hin id) he
    exact ⟨k1, k2, k3, e6.trans k4⟩
  | report srcs dsts k ih =>
    simp only [runProg, SMach.runProg] at he ⊢
    exact ih m n h hr hin he
  | read x k ih =>
    simp only [runProg, SMach.runProg] at he ⊢
    have : m.sys.env.fs.content x = n.sys.env.fs.content x := by rw [h.sys.env]
    rw [this]
    exact ih _ m n h hr hin he
  | write x c k ih =>
    simp only [runProg, SMach.runProg] at he ⊢
    obtain ⟨h1, h2, h3⟩ := write_same h hr clk x c ((longer_prog hlong _ _).edits he) (fun id q hq => by rw [hin] at hq; cases hq)
    obtain ⟨k1, k2, k3, k4⟩ := ih _ _ h1 h2 (fun id => by rw [h3.calls]; exact hin id) he
    exact ⟨k1, k2, k3, h3.trans k4⟩

theorem SSame.edits {m : Mach B R} {n : SMach B R} (h : SSame m n) (he : SEditsOk vers n.trace) : EditsOk vers m.trace := by
  intro s x st hx
  refine he x st ?_
  rw [← h.trace]
  exact List.mem_map.2 ⟨_, hx, rfl⟩

/-- a directory used with sqlite looks like one used with the other engines -/
theorem slife_same {ρ : Layout B} {script : Script B R} (hw : WellBehaved sg script ρ) (hd : Declared sg script ρ) {n : SMach B R}
    (h : SLife sg script ρ vers n) : ∃ m, Life sg script ρ vers m ∧ SSame m n ∧ Ready sg vers ρ n ∧
      ∀ id, n.sys.inflight.get? id = none := by
  induction h with
  | start env hv hds hlim hmd5 hplain =>
    refine ⟨_, .start env hv hds hlim hmd5 hplain, ⟨⟨Rel.init, rfl, rfl, fun _ _ _ h => by simp [Sys.init] at h⟩, rfl, rfl, rfl⟩,
      ⟨⟨SSysInv.init hv, ?_⟩, hds, ?_⟩, fun _ => rfl⟩
    · intro id q hq; simp [SSys.init] at hq
    · intro id q hq; simp [SSys.init] at hq
  | build h main hmain clk limit hl he ih =>
    obtain ⟨m, h1, h2, h3, h4⟩ := ih
    obtain ⟨_, k2, k3, k4⟩ := main_same hw hd main m _ h2 h3 h4 he
    exact ⟨_, .build h1 main hmain clk limit hl (k2.edits he), k2, k3, fun id => (k4.calls id).trans (h4 id)⟩
  | @user n h ev hu ih =>
    obtain ⟨m, h1, h2, h3, h4⟩ := ih
    have hN : SNext sg vers n.sys ev ∧ (n.event sg ev).2.sys.env.funDigest = n.sys.env.funDigest ∧
        (n.event sg ev).2.sys.inflight = n.sys.inflight := by
      cases ev with
      | edit x st => exact ⟨⟨hu.2.2, fun id q hq => by rw [h4] at hq; cases hq⟩, rfl, rfl⟩
      | tick t => exact ⟨trivial, rfl, rfl⟩
      | deleteFunction f =>
        refine ⟨trivial, ?_⟩
        simp only [SMach.event, SSys.step]
        split <;> exact ⟨rfl, rfl⟩
      | deleteFile f =>
        refine ⟨trivial, ?_⟩
        simp only [SMach.event, SSys.step]
        split <;> exact ⟨rfl, rfl⟩
      | _ => exact hu.elim
    obtain ⟨_, k2, k3⟩ := h2.event (sg := sg) h3.steady hN.1
    refine ⟨_, .user h1 ev hu, k2, ⟨k3, by rw [hN.2.1]; exact h3.respects, ?_⟩, fun id => by rw [hN.2.2]; exact h4 id⟩
    intro id q hq
    rw [hN.2.2, h4] at hq
    cases hq
  | @process n h ds hds ih =>
    obtain ⟨m, h1, h2, h3, h4⟩ := ih
    obtain ⟨_, k2, k3⟩ := h2.event (sg := sg) h3.steady (ev := .restart ds) trivial
    refine ⟨_, .process h1 ds hds, ⟨k2.sys, rfl, k2.next, k2.trace⟩, ⟨k3, hds, ?_⟩, fun id => rfl⟩
    intro id q hq
    cases hq

end Verif.Calls
