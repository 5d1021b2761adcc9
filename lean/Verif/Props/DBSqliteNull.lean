import Verif.DB.SqliteNull
/-!
# C06 with the sqlite engine: the null build

If nothing changed since a call was executed and stored, calling it again returns the stored
result without running the function; so repeating a build runs nothing.
-/
namespace Verif.DB
open SDB
set_option linter.unusedSectionVars false

variable {B R : Type} [DecidableEq B] {sg : Sig B R} {vers : FileName → Nat → Option Content}
  {tr : STrace B R} {s : SSys B R}

/-- the function is recorded -/
def SKnown (s : SSys B R) (f : FunName) : Prop := ∃ g ∈ s.db.functions, g.name = f

/-- `f`, or a cached function it is recorded to call (in any number of steps), is not recorded or has
another text than when it was recorded -/
def SStale (s : SSys B R) (f : FunName) : Prop :=
  ∃ g, RecReach (SDB.storage B R) s.db f g ∧ Changed (SDB.storage B R) s.env s.db g

/-- Recorded calls have no cycle other than direct recursion, and the depth is below the limit. -/
def SShallow (s : SSys B R) (f : FunName) : Prop :=
  ∃ rank : FunName → Nat, (∀ f g, RecCall (SDB.storage B R) s.db f g → g ≠ f → rank g < rank f) ∧
    rank f < s.env.recursionLimit

/-- The event is not the completion of a call of `f` that was started when `f` was recorded but
stale: it discards all results of `f`. -/
def SSparing (sg : Sig B R) (f : FunName) (older : STrace B R) : Event B R → Prop
  | .complete id _ _ _ _ => ∀ b' s0, SRunning sg older id f b' s0 → ¬ (SKnown s0 f ∧ SStale s0 f)
  | _ => True

/-- An event that concerns other calls: it may be anything, except the completion of an equal
call, the completion of a call of `f` that was started when `f` was stale, a crash before the
database was closed for the first time, or the removal of `f` or of one of the files from the
database. -/
def SElsewhere (sg : Sig B R) (f : FunName) (b : B) (xs : List FileName) (older : STrace B R)
    (s : SSys B R) : Event B R → Prop
  | .complete id _ _ _ _ => ∀ b' s0, SRunning sg older id f b' s0 →
      b' ≠ b ∧ ¬ (SKnown s0 f ∧ SStale s0 f)
  | .crash _ => s.stamped = true
  | .deleteFunction g => g ≠ f
  | .deleteFile x => x ∉ xs
  | _ => True

/-- The call `(f, b)` was executed and stored with result `r`, and nothing it depends on changed
since: not its declared sources since the execution began, not the external sources it reported
since it ended, not the text of `f` and of the functions it calls; all its destinations exist. -/
structure SSettled (sg : Sig B R) (tr : STrace B R) (s : SSys B R) (f : FunName) (b : B) (r : R) :
    Prop where
  exec : ∃ later s1 id deps ext extDsts mid s0 rest code,
    tr = later ++ (s1, .complete id r deps ext extDsts) :: (mid ++ (s0, .prepare id f b) :: rest) ∧
    -- the execution: started in s0, not interrupted, stored in s1
    (SSys.step sg s0 (.prepare id f b)).1 = .run ∧ (∀ q ∈ mid, q.2.ends id = false) ∧
    (SSys.step sg s1 (.complete id r deps ext extDsts)).1 = .done ∧
    -- results of `f` were not discarded meanwhile
    (¬ SStale s0 f → ∀ l1 q l2, mid = l1 ++ q :: l2 →
      SSparing sg f (l2 ++ (s0, .prepare id f b) :: rest) q.2) ∧
    -- same text
    s0.env.funDigest f = some code ∧ s.env.funDigest f = some code ∧
    -- same sources
    (∀ x ∈ sg.srcs f code b, (∀ q ∈ mid, q.1.env.fs.content x = s0.env.fs.content x) ∧
      s1.env.fs.content x = s0.env.fs.content x ∧
      (∀ q ∈ later, q.1.env.fs.content x = s0.env.fs.content x) ∧
      s.env.fs.content x = s0.env.fs.content x) ∧
    (∀ x ∈ ext, (∀ q ∈ later, q.1.env.fs.content x = s1.env.fs.content x) ∧
      s.env.fs.content x = s1.env.fs.content x) ∧
    -- what happened since concerns other calls
    (∀ l1 q l2, later = l1 ++ q :: l2 → SElsewhere sg f b (sg.srcs f code b ++ ext)
      (l2 ++ (s1, .complete id r deps ext extDsts) :: (mid ++ (s0, .prepare id f b) :: rest))
      q.1 q.2) ∧
    -- the destinations exist
    (∀ x ∈ sg.returnDsts f code r ++ sg.dsts f code b ++ extDsts, (s.env.fs x).isSome)
  notStale : ¬ SStale s f
  shallow : SShallow s f

theorem sstep_md5 (s : SSys B R) (ev : Event B R) : (SSys.step sg s ev).2.env.md5 = s.env.md5 := by
  cases ev with
  | prepare id f b =>
    simp only [SSys.step, SSys.stepPrepare]
    split
    · rfl
    · split
      · rfl
      · split <;> rfl
  | complete id r deps ext extDsts =>
    simp only [SSys.step, SSys.stepComplete]
    split
    · rfl
    · split <;> rfl
  | fail id => rfl
  | edit x st => rfl
  | tick n => rfl
  | restart ds => rfl
  | crash ds => rfl
  | deleteFunction f => simp only [SSys.step]; split <;> rfl
  | deleteFile f => simp only [SSys.step]; split <;> rfl

/-- the preparation of a running call -/
theorem SHistory.running_prep (h : SHistory sg vers tr s) {id : Nat} {f : FunName} {b : B}
    {s0 : SSys B R} (hr : SRunning sg tr id f b s0) {p : SPending B R}
    (hp : s.inflight.get? id = some p) :
    SSysInv sg vers s0 ∧ p.fn = f ∧ p.bound = b ∧ p.epoch = s0.epoch ∧
    (Verif.DB.prepare (SDB.storage B R) s0.env f b (sg.srcs f p.code b) s0.db).1 = .ok p.prep := by
  obtain ⟨mid, older, he, hrun, hmid⟩ := hr
  induction h generalizing mid with
  | init env h => simp at he
  | step ev hs ha ih =>
    rename_i tr' s'
    cases mid with
    | nil =>
      simp only [List.nil_append, List.cons.injEq, Prod.mk.injEq] at he
      obtain ⟨⟨rfl, rfl⟩, rfl⟩ := he
      refine ⟨hs.inv, ?_⟩
      simp only [SSys.step, SSys.stepPrepare] at hrun hp
      cases hc' : s'.env.funDigest f with
      | none => rw [hc'] at hrun; simp at hrun
      | some code =>
        rw [hc'] at hrun hp
        simp only at hrun hp
        cases hx : Verif.DB.prepare (SDB.storage B R) s'.env f b (sg.srcs f code b) s'.db with
        | mk y db =>
          rw [hx] at hrun hp
          cases y with
          | error e => simp at hrun
          | ok q =>
            simp only at hrun hp
            split at hrun
            · simp at hrun
            · rename_i hn
              rw [hn] at hp
              simp only [Dict.get?_set, if_true, Option.some.injEq] at hp
              subst hp
              rw [hx]
              exact ⟨rfl, rfl, rfl, rfl⟩
    | cons q mid =>
      simp only [List.cons_append, List.cons.injEq] at he
      obtain ⟨rfl, he⟩ := he
      have hr' : SRunning sg tr' id f b s0 :=
        ⟨mid, older, he, hrun, fun q hq => hmid q (List.mem_cons_of_mem _ hq)⟩
      obtain ⟨p', h1, _⟩ := hs.running_inflight hr'
      have h2 := sstep_keeps_inflight sg s' ev id p' h1 (hmid (s', ev) (List.mem_cons_self ..))
      rw [hp] at h2; cases h2
      exact ih h1 mid he (fun q hq => hmid q (List.mem_cons_of_mem _ hq))

/-- a call in flight that will discard the results of its function started when it was stale -/
theorem sdiscards_stale {s0 : SSys B R} {f : FunName} {b : B} {srcs : List FileName}
    {p : Prep Nat Nat Nat R} (hi : SSysInv sg vers s0)
    (h : (Verif.DB.prepare (SDB.storage B R) s0.env f b srcs s0.db).1 = .ok p)
    (hd : p.funDirty = true) (hn : p.funId ≠ none) : SKnown s0 f ∧ SStale s0 f := by
  have hf := (prepare_sql hi.db.wf hi.faithful (Prod.ext h rfl)).2 p rfl
  have hcf := hf.fn
  rw [hd] at hcf
  refine ⟨?_, checkFunction_dirty _ hcf⟩
  obtain ⟨dg, _, hc⟩ := checkFunction_sql hcf
  rcases hc with ⟨_, h2, _⟩ | ⟨_, g, h2, h3, _⟩ | ⟨h1, _⟩
  · exact absurd h2 hn
  · exact ⟨g, h2, h3⟩
  · cases h1

/-- events elsewhere keep the call answered -/
theorem SUp.step {f : FunName} {code : Digest} {b : B} {r : R} {ext extDsts : List FileName}
    (hh : SHistory sg vers tr s) (h : SUp sg f code b r ext extDsts s.env s.db)
    (h' : SUp sg f code b r ext extDsts s.env s.committed) (ev : Event B R)
    (ha : SAllowed vers s ev) (he : SElsewhere sg f b (sg.srcs f code b ++ ext) tr s ev)
    (hc : ∀ x ∈ sg.srcs f code b ++ ext,
      (SSys.step sg s ev).2.env.fs.content x = s.env.fs.content x) :
    SUp sg f code b r ext extDsts (SSys.step sg s ev).2.env (SSys.step sg s ev).2.db ∧
    SUp sg f code b r ext extDsts (SSys.step sg s ev).2.env (SSys.step sg s ev).2.committed := by
  have hI := hh.inv
  cases ev with
  | prepare id' g b' =>
    simp only [SSys.step, SSys.stepPrepare] at hc ⊢
    cases hg : s.env.funDigest g with
    | none => exact ⟨h, h'⟩
    | some code' =>
      simp only
      generalize hpr : Verif.DB.prepare (SDB.storage B R) s.env g b' (sg.srcs g code' b') s.db = X
      obtain ⟨o, db1⟩ := X
      obtain ⟨k1, _⟩ := prepare_sql hI.db.wf hI.faithful hpr
      obtain ⟨xs, hk, _⟩ := k1.keep
      have hn := h.touch hI.db.wf k1.touch hk
      cases o with
      | error e => exact ⟨hn, h'⟩
      | ok p =>
        simp only
        split <;> exact ⟨hn, h'⟩
  | complete id' r' deps ext' extDsts' =>
    simp only [SSys.step, SSys.stepComplete] at hc ⊢
    cases hq : s.inflight.get? id' with
    | none => exact ⟨h, h'⟩
    | some p =>
      simp only
      generalize hca : cache (SDB.storage B R) (SDB.saveExternal s.env ext' extDsts') p.prep.funDirty
        p.prep.funId p.fn p.code deps (p.prep.found.map Prod.fst) p.bound r'
        p.prep.callFileDigests s.db = X
      obtain ⟨o, db1⟩ := X
      cases o with
      | error e => exact ⟨h', h'⟩
      | ok u =>
        have hpi := (hI.pending id' p hq).2.2 (ha p hq)
        obtain ⟨fid, cid, k, k'⟩ := cache_keeps hI.db.wf hI.faithful hpi.digsKey hca
        have hn : SUp sg f code b r ext extDsts s.env db1 := by
          obtain ⟨s0, hr, _⟩ := hh.running id' p hq
          obtain ⟨hi0, _, _, _, hprep⟩ := hh.running_prep hr hq
          refine h.stored hI.db hpi k k' ?_ ?_
          · rintro ⟨h2, h3⟩
            rw [h2] at hr
            exact (he p.bound s0 hr).1 h3
          · intro h2
            by_cases hd : p.prep.funDirty = false
            · exact Or.inl hd
            · right
              refine Classical.byContradiction fun hx => ?_
              have hst := sdiscards_stale hi0 hprep (by simpa using hd) hx
              rw [h2] at hr hst
              exact (he p.bound s0 hr).2 hst
        exact ⟨hn, hn⟩
  | fail id' => exact ⟨h, h'⟩
  | edit y st => exact ⟨h.edited rfl hc, h'.edited rfl hc⟩
  | tick n => exact ⟨h.edited rfl hc, h'.edited rfl hc⟩
  | restart ds => exact ⟨h.edited rfl hc, h.edited rfl hc⟩
  | crash ds =>
    simp only [SElsewhere] at he
    simp only [SSys.step, he, if_true]
    exact ⟨h'.edited rfl hc, h'.edited rfl hc⟩
  | deleteFunction g =>
    simp only [SSys.step]
    split
    · exact ⟨h.deleteFunction hI.db.wf he, h'⟩
    · exact ⟨h, h'⟩
  | deleteFile y =>
    simp only [SSys.step]
    split
    · exact ⟨h.deleteFile hI.db.wf he, h'⟩
    · exact ⟨h, h'⟩

/-- while a call is running: the source is recorded with its content, and its digest is among those
to be stored or is stored for the call found -/
def SHeld (env : Env) (db : SDB B R) (p : SPending B R) (x : FileName) : Prop :=
  ∃ k, env.fs.content x = some k ∧ ∃ q ∈ db.files, q.name = x ∧ q.digest = env.md5 k ∧
    ((∃ t ∈ p.prep.callFileDigests, t.1 = q.id) ∨
      ∃ cid r, p.prep.found = some (cid, r) ∧ (cid, q.id, env.md5 k) ∈ db.callFiles)

/-- while a call is running: the row found is still there -/
def SFoundRow (db : SDB B R) (p : SPending B R) : Prop :=
  ∀ cid r, p.prep.found = some (cid, r) → ∃ c ∈ db.calls, c.id = cid

theorem SHeld.kept {env : Env} {db db' : SDB B R} {p : SPending B R} {x : FileName}
    {xs : List FileName} (h : SHeld env db p x) (hk : KeptFor env xs db db') : SHeld env db' p x := by
  obtain ⟨k, h1, q, h2, h3, h4, h5⟩ := h
  have hr := hk q h2 (Or.inr (Or.inr ⟨k, by rw [h3]; exact h1, h4.symm⟩))
  obtain ⟨q', m1, m2, m3, m4⟩ := hr.row
  refine ⟨k, h1, q', m1, m3.trans h3, m4.trans h4, ?_⟩
  rw [m2]
  exact h5.imp_right fun ⟨cid, r, g1, g2⟩ => ⟨cid, r, g1, hr.cf _ g2 rfl⟩

/-- from the start of a call until its end -/
theorem SHistory.held {f : FunName} {b : B} {s0 : SSys B R} {mid rest : STrace B R} {id : Nat}
    {p : SPending B R} (hh : SHistory sg vers tr s)
    (he : tr = mid ++ (s0, .prepare id f b) :: rest)
    (hrun : (SSys.step sg s0 (.prepare id f b)).1 = .run)
    (hmid : ∀ q ∈ mid, q.2.ends id = false)
    (hp : s.inflight.get? id = some p) (hep : p.epoch = s.epoch)
    (hspare : p.prep.funDirty = false → ∀ l1 q l2, mid = l1 ++ q :: l2 →
      SSparing sg f (l2 ++ (s0, .prepare id f b) :: rest) q.2)
    (hsame : ∀ q ∈ mid, ∀ x ∈ sg.srcs f p.code b, q.1.env.fs.content x = s0.env.fs.content x)
    (hnow : ∀ x ∈ sg.srcs f p.code b, s.env.fs.content x = s0.env.fs.content x) :
    (∀ x ∈ sg.srcs f p.code b, SHeld s.env s.db p x) ∧ SFoundRow s.db p := by
  induction hh generalizing mid with
  | init env h => simp at he
  | step ev hs ha ih =>
    rename_i tr' s'
    have hI := hs.inv
    cases mid with
    | nil =>
      simp only [List.nil_append, List.cons.injEq, Prod.mk.injEq] at he
      obtain ⟨⟨rfl, rfl⟩, rfl⟩ := he
      clear ih hsame hspare hmid
      simp only [SSys.step, SSys.stepPrepare] at hrun hp hnow ⊢
      cases hc' : s'.env.funDigest f with
      | none => rw [hc'] at hrun; simp at hrun
      | some code =>
        rw [hc'] at hrun hp hnow
        simp only at hrun hp hnow ⊢
        generalize hx : Verif.DB.prepare (SDB.storage B R) s'.env f b (sg.srcs f code b) s'.db = X
          at hrun hp hnow
        obtain ⟨y, db⟩ := X
        cases y with
        | error e => simp at hrun
        | ok q =>
          simp only at hrun hp ⊢
          obtain ⟨k1, k2⟩ := prepare_sql hI.db.wf hI.faithful hx
          have k2 := k2 q rfl
          split at hrun
          · simp at hrun
          · rename_i hn
            rw [hn] at hp
            simp only [Dict.get?_set, if_true, Option.some.injEq] at hp
            subst hp
            simp only
            constructor
            · intro x hxs
              obtain ⟨fid, d, ⟨kk, h1, h2, w, h3, h4, h5, h6⟩, h7⟩ := k2.cover x hxs
              refine ⟨kk, h1, w, h3, h5, by rw [h6, h2], ?_⟩
              rcases h7 with ⟨t, ht, htx⟩ | ⟨cid, r, g1, g2⟩
              · left
                refine ⟨t, ht, ?_⟩
                obtain ⟨_, _, _, _, w', m1, m2, m3, _⟩ := k2.digs t ht
                rw [← m2, k1.wf.fileName w' m1 w h3 (m3.trans (htx.trans h5.symm))]
              · right
                exact ⟨cid, r, g1, by rw [h4, ← h2]; exact g2⟩
            · intro cid r hfo
              obtain ⟨c, m1, m2, _⟩ := k2.found cid r hfo
              exact ⟨c, by rw [k1.touch.calls]; exact m1, m2⟩
    | cons q0 mid =>
      simp only [List.cons_append, List.cons.injEq] at he
      obtain ⟨rfl, he⟩ := he
      have hev : ev.ends id = false := hmid (s', ev) (List.mem_cons_self ..)
      have hr' : SRunning sg tr' id f b s0 :=
        ⟨mid, rest, he, hrun, fun q hq => hmid q (List.mem_cons_of_mem _ hq)⟩
      obtain ⟨p', hp1, hp2, hp3, _⟩ := hs.running_inflight hr'
      have h2 := sstep_keeps_inflight sg s' ev id p' hp1 hev
      rw [hp] at h2; cases h2
      have hle := (hI.pending id p hp1).1
      -- no rollback
      have hmono : s'.epoch ≤ (SSys.step sg s' ev).2.epoch ∧
          ((SSys.step sg s' ev).2.epoch = s'.epoch ∨ ∃ e, (SSys.step sg s' ev).1 = .raised e ∧
            (SSys.step sg s' ev).2.epoch = s'.epoch + 1) := by
        cases ev with
        | prepare id f b =>
          simp only [SSys.step, SSys.stepPrepare]
          split
          · exact ⟨Nat.le_refl _, Or.inl rfl⟩
          · split
            · exact ⟨Nat.le_refl _, Or.inl rfl⟩
            · split <;> exact ⟨Nat.le_refl _, Or.inl rfl⟩
        | complete id r deps ext extDsts =>
          simp only [SSys.step, SSys.stepComplete]
          split
          · exact ⟨Nat.le_refl _, Or.inl rfl⟩
          · split
            · exact ⟨Nat.le_succ _, Or.inr ⟨_, rfl, rfl⟩⟩
            · exact ⟨Nat.le_refl _, Or.inl rfl⟩
        | fail id => exact ⟨Nat.le_refl _, Or.inl rfl⟩
        | edit x st => exact ⟨Nat.le_refl _, Or.inl rfl⟩
        | tick n => exact ⟨Nat.le_refl _, Or.inl rfl⟩
        | restart ds => exact ⟨Nat.le_refl _, Or.inl rfl⟩
        | crash ds => exact ⟨Nat.le_refl _, Or.inl rfl⟩
        | deleteFunction f => simp only [SSys.step]; split <;> exact ⟨Nat.le_refl _, Or.inl rfl⟩
        | deleteFile f => simp only [SSys.step]; split <;> exact ⟨Nat.le_refl _, Or.inl rfl⟩
      have hep' : p.epoch = s'.epoch := by omega
      have hep2 : (SSys.step sg s' ev).2.epoch = s'.epoch := by omega
      have hcont : ∀ x ∈ sg.srcs f p.code b,
          (SSys.step sg s' ev).2.env.fs.content x = s'.env.fs.content x := by
        intro x hx
        rw [hnow x hx, hsame (s', ev) (List.mem_cons_self ..) x hx]
      have hmd := sstep_md5 (sg := sg) s' ev
      obtain ⟨ih1, ih2⟩ := ih he (fun q hq => hmid q (List.mem_cons_of_mem _ hq)) hp1 hep'
        (fun hd l1 q l2 hl => hspare hd ((s', ev) :: l1) q l2 (by rw [hl]; rfl))
        (fun q hq => hsame q (List.mem_cons_of_mem _ hq))
        (hsame (s', ev) (List.mem_cons_self ..))
      -- the files are as before
      have hedit : (SSys.step sg s' ev).2.db = s'.db →
          (∀ x ∈ sg.srcs f p.code b, SHeld (SSys.step sg s' ev).2.env (SSys.step sg s' ev).2.db p x) ∧
            SFoundRow (SSys.step sg s' ev).2.db p := by
        intro hdb
        rw [hdb]
        refine ⟨?_, ih2⟩
        intro x hx
        unfold SHeld
        rw [hmd, hcont x hx]
        exact ih1 x hx
      have hpi := (hI.pending id p hp1).2.2 hep'
      clear ih
      cases ev with
      | prepare id' g b' =>
        simp only [SSys.step, SSys.stepPrepare] at hedit ⊢
        cases hg : s'.env.funDigest g with
        | none => rw [hg] at hedit; exact hedit rfl
        | some code' =>
          simp only
          generalize hpr : Verif.DB.prepare (SDB.storage B R) s'.env g b' (sg.srcs g code' b') s'.db = X
          obtain ⟨o, db1⟩ := X
          obtain ⟨k1, _⟩ := prepare_sql hI.db.wf hI.faithful hpr
          obtain ⟨xs, hk, _⟩ := k1.keep
          have hn : (∀ x ∈ sg.srcs f p.code b, SHeld s'.env db1 p x) ∧ SFoundRow db1 p :=
            ⟨fun x hx => (ih1 x hx).kept hk, fun cid r hf => by rw [k1.touch.calls]; exact ih2 cid r hf⟩
          cases o with
          | error e => exact hn
          | ok p2 =>
            simp only
            split <;> exact hn
      | complete id' r' deps ext' extDsts' =>
        have hid : id' ≠ id := by simpa [Event.ends] using hev
        simp only [SSys.step, SSys.stepComplete] at hedit hep2 ⊢
        cases hq : s'.inflight.get? id' with
        | none => rw [hq] at hedit; exact hedit rfl
        | some p2 =>
          rw [hq] at hep2
          simp only at hep2 ⊢
          generalize hca : cache (SDB.storage B R) (SDB.saveExternal s'.env ext' extDsts')
            p2.prep.funDirty p2.prep.funId p2.fn p2.code deps (p2.prep.found.map Prod.fst) p2.bound r'
            p2.prep.callFileDigests s'.db = X at hep2
          obtain ⟨o, db1⟩ := X
          cases o with
          | error e => simp only at hep2; omega
          | ok u =>
            simp only
            have hpi2 := (hI.pending id' p2 hq).2.2 (ha p2 hq)
            obtain ⟨fid, cid2, k, k'⟩ := cache_keeps hI.db.wf hI.faithful hpi2.digsKey hca
            have hapart := hI.apart id' id p2 p hq hp1 hid
            -- the row found is kept
            have hrow : ∀ cid r, p.prep.found = some (cid, r) → ∃ c ∈ db1.calls, c.id = cid ∧ c.id ≠ cid2 := by
              intro cid r hfo
              have hd : p.prep.funDirty = false := by
                cases hd : p.prep.funDirty with
                | false => rfl
                | true => rw [hpi.dirty hd] at hfo; cases hfo
              obtain ⟨c, m1, m2⟩ := ih2 cid r hfo
              obtain ⟨_, m3⟩ := hpi.found cid r hfo
              obtain ⟨m4, m5⟩ := m3 c m1 m2
              obtain ⟨i, n1, _, n3⟩ := hpi.cleanId hd
              obtain ⟨g, hg, hgid⟩ := hI.db.wf.callFun c m1
              have hgn : g.name = p.fn := by
                rw [n1] at m5
                exact n3 g hg (hgid.trans (Option.some.inj m5).symm)
              have hne : c.id ≠ cid2 := by
                intro hx
                rcases k.cidIs with hy | ⟨_, hy, _⟩
                · cases hfo2 : p2.prep.found with
                  | none => rw [hfo2] at hy; cases hy
                  | some cr =>
                    obtain ⟨j, r0⟩ := cr
                    rw [hfo2] at hy
                    simp only [Option.map_some, Option.some.injEq] at hy
                    obtain ⟨_, w1⟩ := hpi2.found j r0 hfo2
                    obtain ⟨w2, w3⟩ := w1 c m1 (hx.trans hy.symm)
                    have hd2 : p2.prep.funDirty = false := by
                      cases hd2 : p2.prep.funDirty with
                      | false => rfl
                      | true => rw [hpi2.dirty hd2] at hfo2; cases hfo2
                    obtain ⟨i2, w4, _, w5⟩ := hpi2.cleanId hd2
                    rw [w4] at w3
                    have := w5 g hg (hgid.trans (Option.some.inj w3).symm)
                    exact hapart ⟨this.symm.trans hgn, w2.symm.trans m4⟩
                · have := hI.db.wf.callLe c m1; omega
              refine ⟨c, k'.calls c m1 hne ?_, m2, hne⟩
              by_cases hd2 : p2.prep.funDirty = false
              · exact Or.inl hd2
              · right
                intro g' hg' hgid' hgn'
                have := hI.db.wf.funId g' hg' g hg (hgid'.trans hgid.symm)
                subst this
                have hd2 : p2.prep.funDirty = true := by simpa using hd2
                by_cases hfi : p2.prep.funId = none
                · exact k'.unknown hd2 hfi g' hg' hgn'
                · obtain ⟨s2, hr2, _⟩ := hs.running id' p2 hq
                  obtain ⟨hi0, _, _, _, hprep⟩ := hs.running_prep hr2 hq
                  have hst := sdiscards_stale hi0 hprep hd2 hfi
                  have hff : p2.fn = f := by rw [← hgn', hgn, hp2]
                  have hsp := hspare hd [] _ mid rfl
                  rw [hff] at hr2 hst
                  rw [he] at hr2
                  exact hsp p2.bound s2 hr2 hst
            constructor
            · intro x hx
              obtain ⟨kk, h1, w, h2, h3, h4, h5⟩ := ih1 x hx
              have hsync : InSync s'.env (ext' ++ extDsts') w :=
                Or.inr (Or.inr ⟨kk, by rw [h3]; exact h1, h4.symm⟩)
              rcases h5 with h5 | ⟨cid, r, g1, g2⟩
              · obtain ⟨w', n1, n2, n3, n4⟩ := k'.rows w h2 hsync
                exact ⟨kk, h1, w', n1, n3.trans h3, n4.trans h4, Or.inl (by rw [n2]; exact h5)⟩
              · obtain ⟨c, c1, c2, c3⟩ := hrow cid r g1
                have hk := k.keep w h2 hsync c c1 c3
                obtain ⟨w', n1, n2, n3, n4⟩ := hk.row
                refine ⟨kk, h1, w', n1, n3.trans h3, n4.trans h4, Or.inr ⟨cid, r, g1, ?_⟩⟩
                rw [n2, ← c2]; exact hk.cf _ (by rw [c2]; exact g2)
            · intro cid r hfo
              obtain ⟨c, c1, c2, _⟩ := hrow cid r hfo
              exact ⟨c, c1, c2⟩
      | fail id' => exact hedit rfl
      | edit y st => exact hedit rfl
      | tick n => exact hedit rfl
      | restart ds => exact hedit rfl
      | crash ds => simp [Event.ends] at hev
      | deleteFunction g =>
        have hne : s'.inflight.isEmpty = false := by
          cases hi : s'.inflight with
          | nil => rw [hi] at hp1; simp at hp1
          | cons => rfl
        exact hedit (by simp [SSys.step, hne])
      | deleteFile y =>
        have hne : s'.inflight.isEmpty = false := by
          cases hi : s'.inflight with
          | nil => rw [hi] at hp1; simp at hp1
          | cons => rfl
        exact hedit (by simp [SSys.step, hne])

/-- when the call is stored, the tables hold it -/
theorem SUp.start {f : FunName} {b : B} {s0 : SSys B R} {mid rest : STrace B R} {id : Nat}
    {code : Digest} (hh : SHistory sg vers tr s)
    (he : tr = mid ++ (s0, .prepare id f b) :: rest)
    (hrun : (SSys.step sg s0 (.prepare id f b)).1 = .run)
    (hmid : ∀ q ∈ mid, q.2.ends id = false) (hcode : s0.env.funDigest f = some code)
    (hspare : ¬ SStale s0 f → ∀ l1 q l2, mid = l1 ++ q :: l2 →
      SSparing sg f (l2 ++ (s0, .prepare id f b) :: rest) q.2)
    (hsame : ∀ q ∈ mid, ∀ x ∈ sg.srcs f code b, q.1.env.fs.content x = s0.env.fs.content x)
    (hnow : ∀ x ∈ sg.srcs f code b, s.env.fs.content x = s0.env.fs.content x)
    (r : R) (deps : List FunName) (ext extDsts : List FileName)
    (ha : SAllowed vers s (.complete id r deps ext extDsts))
    (hdone : (SSys.step sg s (.complete id r deps ext extDsts)).1 = .done) :
    SUp sg f code b r ext extDsts s.env (SSys.step sg s (.complete id r deps ext extDsts)).2.db ∧
    (SSys.step sg s (.complete id r deps ext extDsts)).2.committed =
      (SSys.step sg s (.complete id r deps ext extDsts)).2.db ∧
    (SSys.step sg s (.complete id r deps ext extDsts)).2.env = s.env := by
  have hI := hh.inv
  have hr : SRunning sg tr id f b s0 := ⟨mid, rest, he, hrun, hmid⟩
  obtain ⟨p, hp, rfl, rfl, hfs0, hc⟩ := hh.running_inflight hr
  rw [hcode] at hc
  cases hc
  have hep := ha p hp
  have hpi := (hI.pending id p hp).2.2 hep
  obtain ⟨hi0, _, _, _, hprep⟩ := hh.running_prep hr hp
  have hspare' : p.prep.funDirty = false → ∀ l1 q l2, mid = l1 ++ q :: l2 →
      SSparing sg p.fn (l2 ++ (s0, .prepare id p.fn p.bound) :: rest) q.2 := by
    intro hd
    refine hspare ?_
    rintro ⟨g, h1, h2⟩
    have hf := ((prepare_sql hi0.db.wf hi0.faithful (Prod.ext hprep rfl)).2 p.prep rfl).fn
    rw [hd] at hf
    obtain ⟨fid, d, dd, h3, h4⟩ := checkFunction_clean _ h1 hf
    exact h2 fid d dd h3 h4
  obtain ⟨hheld, hrow⟩ := hh.held he hrun hmid hp hep hspare' hsame hnow
  simp only [SSys.step, SSys.stepComplete, hp] at hdone ⊢
  generalize hca : cache (SDB.storage B R) (SDB.saveExternal s.env ext extDsts) p.prep.funDirty
    p.prep.funId p.fn p.code deps (p.prep.found.map Prod.fst) p.bound r
    p.prep.callFileDigests s.db = X at hdone
  obtain ⟨o, db1⟩ := X
  cases o with
  | error e => simp at hdone
  | ok u =>
    simp only
    refine ⟨?_, trivial, trivial⟩
    obtain ⟨fid, cid, k, k'⟩ := cache_keeps hI.db.wf hI.faithful hpi.digsKey hca
    -- the row
    have hc : ∃ c ∈ db1.calls, c.id = cid := by
      rcases k.cidIs with hx | ⟨_, _, hx⟩
      · cases hfo : p.prep.found with
        | none => rw [hfo] at hx; cases hx
        | some cr =>
          obtain ⟨i, r0⟩ := cr
          have hd : p.prep.funDirty = false := by
            cases hd : p.prep.funDirty with
            | false => rfl
            | true => rw [hpi.dirty hd] at hfo; cases hfo
          obtain ⟨c, m1, m2⟩ := hrow i r0 hfo
          rw [hfo] at hx
          have hx' : i = cid := by simpa using hx
          exact k'.own hd (by rw [hfo]; exact hx) c m1 (m2.trans hx')
      · exact hx
    obtain ⟨c, hc, hid⟩ := hc
    obtain ⟨g, hg, hgid⟩ := k.wf.callFun c hc
    obtain ⟨h1, h2, h3⟩ := stored_row hI.db hpi k hc hid hg hgid
    refine ⟨g, hg, c, hc, h2, h3, hgid.symm, h1, (k.callNew c hc hid).1, ?_, ?_, ?_⟩
    · intro x hx
      rw [hid]
      by_cases hxe : x ∈ ext
      · obtain ⟨i, d, ⟨kk, m1, m2, q, m3, m4, m5, m6⟩, _, m7⟩ := k.linkSrc x hxe
        exact ⟨kk, m1, q, m3, m5, by rw [m6, m2], by rw [m4, ← m2]; exact m7⟩
      · have hx : x ∈ sg.srcs p.fn p.code p.bound := by
          rcases List.mem_append.1 hx with hx | hx
          · exact hx
          · exact absurd hx hxe
        obtain ⟨kk, m1, q, m2, m3, m4, m5⟩ := hheld x hx
        have hsync : InSync s.env (ext ++ extDsts) q :=
          Or.inr (Or.inr ⟨kk, by rw [m3]; exact m1, m4.symm⟩)
        obtain ⟨q', n1, n2, n3, n4⟩ := k'.rows q m2 hsync
        refine ⟨kk, m1, q', n1, n3.trans m3, n4.trans m4, ?_⟩
        rw [n2]
        have hq0 : q.name ∉ ext := by rw [m3]; exact hxe
        by_cases hdig : ∃ t ∈ p.prep.callFileDigests, t.1 = q.id
        · obtain ⟨t, ht, hti⟩ := hdig
          obtain ⟨_, w1, k0, w2, w3⟩ := hpi.digs t ht
          have w4 := w1 q m2 hti.symm
          rw [hfs0, ← w4, m3, ← hnow x hx, m1] at w2
          cases w2
          have := k'.new q m2 hq0 hsync t ht hti
          rw [hti, w3] at this
          exact this
        · rcases m5 with m5 | ⟨i, r0, g1, g2⟩
          · exact absurd m5 hdig
          · have hd : p.prep.funDirty = false := by
              cases hd : p.prep.funDirty with
              | false => rfl
              | true => rw [hpi.dirty hd] at g1; cases g1
            have hic : i = cid := by
              rcases k.cidIs with hx | ⟨hx, _⟩
              · rw [g1] at hx; simpa using hx
              · rw [g1] at hx; cases hx
            subst hic
            exact k'.old hd q m2 hq0 hsync (fun u hu hui => hdig ⟨u, hu, hui⟩) _ g2
    · intro q hq hm
      exact k.esNew _ hm hid q hq rfl
    · intro q hq hm
      exact k.edNew _ hm hid q hq rfl

theorem snot_stale_clean {f : FunName} (hn : ¬ SStale s f) (hs : SShallow s f) :
    ∃ i, checkFunction (SDB.storage B R) s.env s.db s.env.recursionLimit f = .ok (false, i) := by
  obtain ⟨rank, h1, h2⟩ := hs
  have hreg : ∀ g, RecReach (SDB.storage B R) s.db f g → (s.env.funDigest g).isSome := by
    intro g hg
    refine Classical.byContradiction fun hx => ?_
    refine hn ⟨g, hg, ?_⟩
    intro fid d deps _ hd
    rw [hd] at hx; exact hx rfl
  obtain ⟨⟨dirty, fid⟩, h3⟩ := checkFunction_terminates _ rank h1 hreg h2
  cases dirty with
  | true => exact absurd (checkFunction_dirty _ h3) hn
  | false => exact ⟨fid, h3⟩

/-- **C06** with the sqlite engine (partial): a call that was executed and stored, and for which
nothing it depends on changed since, is answered with the stored result, without running the
function, also after rollbacks and crashes.  Missing (and false): calls of functions that are
recorded to call a function which is not recorded (`SStale`), or with mutual recursion (not
`SShallow`), results discarded by a call that was running at the same time (not `SSparing`), and a
crash before the database was ever closed. -/
theorem C06_sqlite_null_call_partial (h : SHistory sg vers tr s) {f : FunName} {b : B} {r : R}
    (hs : SSettled sg tr s f b r) (id : Nat) : (SSys.step sg s (.prepare id f b)).1 = .hit r := by
  obtain ⟨⟨later, s1, id0, deps, ext, extDsts, mid, s0, rest, code, rfl, hrun, hmid, hdone, hspare,
    hc0, hc1, hsrc, hext, helse, hdst⟩, hns, hsh⟩ := hs
  suffices hup : SUp sg f code b r ext extDsts s.env s.db ∧
      SUp sg f code b r ext extDsts s.env s.committed from
    hup.1.hit h.inv hc1 (snot_stale_clean hns hsh) hdst id
  clear hdst hns hsh hc1
  generalize htr : later ++ (s1, .complete id0 r deps ext extDsts) ::
    (mid ++ (s0, .prepare id0 f b) :: rest) = tr at h
  have hsrc1 := fun x hx => (hsrc x hx).1
  have hsrc2 := fun x hx => (hsrc x hx).2.1
  have hsrc3 := fun x hx => (hsrc x hx).2.2.1
  have hsrc4 := fun x hx => (hsrc x hx).2.2.2
  have hext3 := fun x hx => (hext x hx).1
  have hext4 := fun x hx => (hext x hx).2
  clear hsrc hext
  induction h generalizing later with
  | init env h => simp at htr
  | step ev hh ha ih =>
    rename_i tr' s'
    cases later with
    | nil =>
      simp only [List.nil_append, List.cons.injEq, Prod.mk.injEq] at htr
      obtain ⟨⟨rfl, rfl⟩, rfl⟩ := htr
      obtain ⟨h1, h2, h3⟩ := SUp.start hh rfl hrun hmid hc0 hspare
        (fun q hq x hx => hsrc1 x hx q hq) hsrc2 r deps ext extDsts ha hdone
      rw [h2, h3]
      exact ⟨h1, h1⟩
    | cons q later =>
      simp only [List.cons_append, List.cons.injEq] at htr
      obtain ⟨rfl, rfl⟩ := htr
      have hm : ∀ q ∈ later, q ∈ (s', ev) :: later := fun q hq => List.mem_cons_of_mem _ hq
      obtain ⟨hi, hi'⟩ := ih later
        (fun l1 q l2 hl => helse ((s', ev) :: l1) q l2 (by rw [hl]; rfl)) rfl
        (fun x hx q hq => hsrc3 x hx q (hm q hq))
        (fun x hx => hsrc3 x hx (s', ev) (List.mem_cons_self ..))
        (fun x hx q hq => hext3 x hx q (hm q hq))
        (fun x hx => hext3 x hx (s', ev) (List.mem_cons_self ..))
      refine hi.step hh hi' ev ha (helse [] (s', ev) later rfl) ?_
      intro x hx
      rcases List.mem_append.1 hx with hx | hx
      · rw [hsrc4 x hx, hsrc3 x hx (s', ev) (List.mem_cons_self ..)]
      · rw [hext4 x hx, hext3 x hx (s', ev) (List.mem_cons_self ..)]

/-- A call that is answered from the database leaves other settled calls settled. -/
theorem SSettled.prepare {f g : FunName} {b b' : B} {r r' : R} (h : SHistory sg vers tr s)
    (hs : SSettled sg tr s f b r) {id : Nat} (hit : (SSys.step sg s (.prepare id g b')).1 = .hit r') :
    SSettled sg ((s, .prepare id g b') :: tr) (SSys.step sg s (.prepare id g b')).2 f b r ∧
    (SSys.step sg s (.prepare id g b')).2.env = s.env ∧
    (SSys.step sg s (.prepare id g b')).2.inflight = s.inflight := by
  have hI := h.inv
  obtain ⟨henv, hfun, hinf⟩ : (SSys.step sg s (.prepare id g b')).2.env = s.env ∧
      (SSys.step sg s (.prepare id g b')).2.db.functions = s.db.functions ∧
      (SSys.step sg s (.prepare id g b')).2.inflight = s.inflight := by
    simp only [SSys.step, SSys.stepPrepare] at hit ⊢
    cases hg : s.env.funDigest g with
    | none => exact ⟨rfl, rfl, rfl⟩
    | some code' =>
      rw [hg] at hit
      simp only at hit ⊢
      generalize hp : Verif.DB.prepare (SDB.storage B R) s.env g b' (sg.srcs g code' b') s.db = X
        at hit
      obtain ⟨o, db'⟩ := X
      have ht := (prepare_sql hI.db.wf hI.faithful hp).1.touch
      cases o with
      | error e => exact ⟨rfl, ht.functions, rfl⟩
      | ok p =>
        simp only at hit ⊢
        split at hit
        · exact ⟨rfl, ht.functions, rfl⟩
        · simp at hit
  have hff : ∀ k, (SDB.storage B R).findFunction k (SSys.step sg s (.prepare id g b')).2.db =
      (SDB.storage B R).findFunction k s.db := by
    intro k; simp only [SDB.storage, SDB.findFunction, hfun]
  have hrc : ∀ k l, RecCall (SDB.storage B R) (SSys.step sg s (.prepare id g b')).2.db k l →
      RecCall (SDB.storage B R) s.db k l := by
    rintro k l ⟨fid, d, deps, h1, h2⟩
    rw [hff] at h1; exact ⟨fid, d, deps, h1, h2⟩
  have hrr : ∀ k l, RecReach (SDB.storage B R) (SSys.step sg s (.prepare id g b')).2.db k l →
      RecReach (SDB.storage B R) s.db k l := by
    intro k l hkl
    induction hkl with
    | refl => exact .refl _
    | step hc _ ih => exact .step (hrc _ _ hc) ih
  refine ⟨⟨?_, ?_, ?_⟩, henv, hinf⟩
  · obtain ⟨later, s1, id0, deps, ext, extDsts, mid, s0, rest, code, rfl, hrun, hmid, hdone, hsp, hc0, hc1,
      hsrc, hext, helse, hdst⟩ := hs.exec
    refine ⟨(s, .prepare id g b') :: later, s1, id0, deps, ext, extDsts, mid, s0, rest, code, rfl,
      hrun, hmid, hdone, hsp, hc0, by rw [henv]; exact hc1, ?_, ?_, ?_, by rw [henv]; exact hdst⟩
    · intro x hx
      obtain ⟨h1, h2, h3, h4⟩ := hsrc x hx
      refine ⟨h1, h2, ?_, by rw [henv]; exact h4⟩
      intro q hq
      rcases List.mem_cons.1 hq with rfl | hq
      · exact h4
      · exact h3 q hq
    · intro x hx
      obtain ⟨h3, h4⟩ := hext x hx
      refine ⟨?_, by rw [henv]; exact h4⟩
      intro q hq
      rcases List.mem_cons.1 hq with rfl | hq
      · exact h4
      · exact h3 q hq
    · intro l1 q l2 hl
      cases l1 with
      | nil =>
        simp only [List.nil_append, List.cons.injEq] at hl
        obtain ⟨rfl, rfl⟩ := hl
        trivial
      | cons q' l1 =>
        simp only [List.cons_append, List.cons.injEq] at hl
        exact helse l1 q l2 hl.2
  · rintro ⟨k, h1, h2⟩
    refine hs.notStale ⟨k, hrr _ _ h1, ?_⟩
    intro fid d deps h3
    rw [← henv]
    exact h2 fid d deps (by rw [hff]; exact h3)
  · obtain ⟨rank, h1, h2⟩ := hs.shallow
    exact ⟨rank, fun k l hkl => h1 k l (hrc _ _ hkl), by rw [henv]; exact h2⟩

/-- the answers to a sequence of events -/
def sanswers (sg : Sig B R) : SSys B R → List (Event B R) → List (Out R)
  | _, [] => []
  | s, ev :: evs => (SSys.step sg s ev).1 :: sanswers sg (SSys.step sg s ev).2 evs

/-- **C06** with the sqlite engine (partial): a build all of whose calls are settled runs nothing: every call, in whatever
order and however often, is answered with its stored result. -/
theorem C06_sqlite_null_build_partial (h : SHistory sg vers tr s) (hi : s.inflight = [])
    (calls : List (Nat × FunName × B × R)) (hs : ∀ c ∈ calls, SSettled sg tr s c.2.1 c.2.2.1 c.2.2.2) :
    sanswers sg s (calls.map (fun c => .prepare c.1 c.2.1 c.2.2.1)) =
      calls.map (fun c => .hit c.2.2.2) := by
  induction calls generalizing tr s with
  | nil => rfl
  | cons c calls ih =>
    have hc := hs c (by simp)
    have hhit := C06_sqlite_null_call_partial h hc c.1
    simp only [List.map_cons, sanswers, hhit]
    congr 1
    have hal : SAllowed vers s (.prepare c.1 c.2.1 c.2.2.1) := by
      constructor
      · rw [hi]; rfl
      · intro id' p hp; rw [hi] at hp; simp at hp
    have h' := SHistory.step _ h hal
    refine ih h' ?_ ?_
    · rw [(hc.prepare h hhit).2.2, hi]
    · intro c' hc'
      exact ((hs c' (by simp [hc'])).prepare h hhit).1

end Verif.DB
