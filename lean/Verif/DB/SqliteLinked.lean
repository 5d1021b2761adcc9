import Verif.DB.SqliteHit
/-! Links to external files along a trace (sqlite engine). -/
namespace Verif.DB
open SDB
set_option linter.unusedSectionVars false

variable {B R : Type} [DecidableEq B] {sg : Sig B R} {vers : FileName → Nat → Option Content}
  {tr : STrace B R} {s : SSys B R}

/-- The event checks file `x`: the file is a declared source of a call that is being prepared, or an
earlier execution of that call reported it as external source; or a result is being stored whose
execution reported the file. -/
def ChecksFile (sg : Sig B R) (earlier : STrace B R) (s : SSys B R) (x : FileName) :
    Event B R → Prop
  | .prepare _ f b => (∃ code, s.env.funDigest f = some code ∧ x ∈ sg.srcs f code b) ∨
      ∃ n s0 s1 ev o r ext extDsts, earlier = n ++ (s1, ev) :: o ∧
        SExecution sg o s0 s1 ev f b r ext extDsts ∧ x ∈ ext
  | .complete _ _ _ ext extDsts => x ∈ ext ++ extDsts
  | _ => False

/-- In the part of a trace before `base`: whenever `x` is checked it has the content `k` or cannot be
read, and it is not deleted from the database by command. -/
def LeftInPeace (sg : Sig B R) (x : FileName) (k : Content) (base : STrace B R) :
    STrace B R → Prop
  | [] => True
  | (s, ev) :: rest => ev ≠ .deleteFile x ∧
      (ChecksFile sg (rest ++ base) s x ev →
        s.env.fs.content x = none ∨ s.env.fs.content x = some k) ∧
      LeftInPeace sg x k base rest

/-- The last execution of `f` with `b` whose result was stored; `newer` happened since. -/
structure SLastStored (sg : Sig B R) (tr newer older : STrace B R) (s0 s1 : SSys B R)
    (ev : Event B R) (f : FunName) (b : B) (r : R) (ext extDsts : List FileName) : Prop where
  split : tr = newer ++ (s1, ev) :: older
  exec : SExecution sg older s0 s1 ev f b r ext extDsts
  done : (SSys.step sg s1 ev).1 = .done
  last : ∀ n2 s2 ev2 o2 s0' r' e' d', tr = n2 ++ (s2, ev2) :: o2 →
    SExecution sg o2 s0' s2 ev2 f b r' e' d' → (SSys.step sg s2 ev2).1 = .done →
    newer.length ≤ n2.length

theorem SSys.step_md5 (sg : Sig B R) (s : SSys B R) (ev : Event B R) :
    (SSys.step sg s ev).2.env.md5 = s.env.md5 := by
  cases ev with
  | prepare id f b =>
    simp only [SSys.step, SSys.stepPrepare]
    cases s.env.funDigest f with
    | none => rfl
    | some c =>
      simp only
      generalize prepare _ _ _ _ _ _ = X
      obtain ⟨x, db⟩ := X
      cases x with
      | error e => rfl
      | ok p => simp only; split <;> rfl
  | complete id r deps ext extDsts =>
    simp only [SSys.step, SSys.stepComplete]
    cases s.inflight.get? id with
    | none => rfl
    | some p => simp only; split <;> rfl
  | fail id => rfl
  | edit x st => rfl
  | tick n => rfl
  | restart ds => rfl
  | crash ds => rfl
  | deleteFunction f => simp only [SSys.step]; split <;> rfl
  | deleteFile f => simp only [SSys.step]; split <;> rfl

/-- the entries of the log are the executions of the trace -/
theorem SHistory.log_execution (h : SHistory sg vers tr s) {e : Exec B R} (he : e ∈ s.log) :
    ∃ n s0 s1 ev o, tr = n ++ (s1, ev) :: o ∧
      SExecution sg o s0 s1 ev e.fn e.bound e.result e.ext e.extDsts := by
  rw [h.log_eq, List.mem_filterMap] at he
  obtain ⟨⟨s1, ev⟩, hq, hqe⟩ := he
  obtain ⟨n, o, ho⟩ := List.append_of_mem hq
  obtain ⟨s0, h1, _⟩ := sexecOf_execution (h.prefix ho) hqe
  exact ⟨n, s0, s1, ev, o, ho, h1⟩

/-- the link is there when the result has been stored -/
theorem linked_store (h : SHistory sg vers tr s) {s0 : SSys B R} {ev : Event B R} {f : FunName}
    {b : B} {r : R} {ext extDsts : List FileName} (ha : SAllowed vers s ev)
    (hx : SExecution sg tr s0 s ev f b r ext extDsts) (hd : (SSys.step sg s ev).1 = .done) :
    (∀ x ∈ ext, ∃ k, s.env.fs.content x = some k ∧
      SLinked SDB.externalSrcs f b x (s.env.md5 k) (SSys.step sg s ev).2.db ∧
      SLinked SDB.externalSrcs f b x (s.env.md5 k) (SSys.step sg s ev).2.committed) ∧
    (∀ x ∈ extDsts, x ∉ ext → (∀ code, s0.env.funDigest f = some code → x ∉ sg.srcs f code b) →
      (∀ n s0 s1 ev o r ext extDsts, tr = n ++ (s1, ev) :: o →
        SExecution sg o s0 s1 ev f b r ext extDsts → x ∉ ext) →
      ∃ k, s.env.fs.content x = some k ∧
      SLinked SDB.externalDsts f b x (s.env.md5 k) (SSys.step sg s ev).2.db ∧
      SLinked SDB.externalDsts f b x (s.env.md5 k) (SSys.step sg s ev).2.committed) := by
  obtain ⟨id, deps, rfl, hrun⟩ := hx.ended
  obtain ⟨p, hp, rfl, rfl, _, hcode⟩ := h.running_inflight hrun
  have hI := h.inv
  have hpi := (hI.pending id p hp).2.2 (ha p hp)
  simp only [SSys.step, SSys.stepComplete, hp] at hd ⊢
  generalize hca : cache (SDB.storage B R) (SDB.saveExternal s.env ext extDsts) p.prep.funDirty
    p.prep.funId p.fn p.code deps (p.prep.found.map Prod.fst) p.bound r
    p.prep.callFileDigests s.db = X at hd
  obtain ⟨o, db1⟩ := X
  cases o with
  | error e => simp at hd
  | ok u =>
    simp only
    obtain ⟨fid, cid, k⟩ := cache_sql hI.db.wf hI.faithful hpi.digsKey hca
    have hrow : ∀ c, SRow db1 p.fn p.bound c → c.id = cid := by
      rintro c ⟨c1, c2, g, c3, c4, c5⟩
      apply Decidable.byContradiction
      intro hid
      exact (other_bound hI.db hpi k c1 hid c3 c4 c5).1 c2
    constructor
    · intro x hx
      obtain ⟨i, d, ⟨kk, h1, h2, q, h3, h4, h5, h6⟩, h7, _⟩ := k.linkSrc x hx
      have : SLinked SDB.externalSrcs p.fn p.bound x (s.env.md5 kk) db1 := by
        intro c hc
        exact ⟨q, h3, h5, h6.trans h2, by rw [hrow c hc, h4]; exact h7⟩
      exact ⟨kk, h1, this, this⟩
    · intro x hx hxe hsrc hno
      obtain ⟨i, d, ⟨kk, h1, h2, q, h3, h4, h5, h6⟩, h7⟩ := k.linkDst x hx
      have : SLinked SDB.externalDsts p.fn p.bound x (s.env.md5 kk) db1 := by
        intro c hc
        refine ⟨q, h3, h5, h6.trans h2, ?_⟩
        rw [hrow c hc, h4]
        rcases h7 with h7 | h7
        · exact h7
        · exfalso
          obtain ⟨c1, c2, g, c3, c4, c5⟩ := hc
          have hid := hrow c ⟨c1, c2, g, c3, c4, c5⟩
          have hst := hI.db.store hpi k deps
          obtain ⟨_, _, hdig⟩ := stored_row hI.db hpi k c1 hid c3 c4
          rcases hst.cfName c c1 g c3 c4 _ h7 hid.symm q h3 h4 with h8 | ⟨e, h8, h9, h10, h11⟩
          · rw [h5, c5, hdig, c2] at h8
            exact hsrc p.code hcode h8
          · rw [h5] at h11
            rcases List.mem_cons.1 h8 with rfl | h8
            · exact hxe h11
            · obtain ⟨n, t0, t1, ev', o', m1, m2⟩ := h.log_execution h8
              rw [h9, h10, c5, c2] at m2
              exact hno n t0 t1 ev' o' _ _ _ m1 m2 h11
      exact ⟨kk, h1, this, this⟩

/-- links along the trace -/
theorem linked_trace {base newer : STrace B R}
    (h : SHistory sg vers (newer ++ base) s) {f : FunName} {b : B} {x : FileName} {k : Content}
    (t : SDB B R → List (Nat × Nat)) (htab : t = SDB.externalSrcs ∨ t = SDB.externalDsts)
    (hl : ∀ s', SHistory sg vers base s' → SLinked t f b x (s'.env.md5 k) s'.db ∧
      SLinked t f b x (s'.env.md5 k) s'.committed)
    (hq : LeftInPeace sg x k base newer)
    (hlast : ∀ n2 s2 ev2 o2 s0' r' e' d', newer ++ base = n2 ++ (s2, ev2) :: o2 →
      SExecution sg o2 s0' s2 ev2 f b r' e' d' → (SSys.step sg s2 ev2).1 = .done →
      newer.length ≤ n2.length) :
    SLinked t f b x (s.env.md5 k) s.db ∧ SLinked t f b x (s.env.md5 k) s.committed := by
  induction newer generalizing s with
  | nil => exact hl s h
  | cons q newer ih =>
    obtain ⟨s', ev⟩ := q
    obtain ⟨hq1, hq2, hq3⟩ := hq
    generalize htr : (s', ev) :: newer ++ base = tr at h
    cases h with
    | init env h => simp at htr
    | step ev' hs ha =>
      rename_i tr' s''
      simp only [List.cons_append, List.cons.injEq, Prod.mk.injEq] at htr
      obtain ⟨⟨rfl, rfl⟩, rfl⟩ := htr
      obtain ⟨i1, i2⟩ := ih hs hq3 (by
        intro n2 s2 ev2 o2 s0' r' e' d' he hx hd
        have := hlast ((s', ev) :: n2) s2 ev2 o2 s0' r' e' d' (by rw [List.cons_append, he]; rfl) hx hd
        simpa using this)
      rw [SSys.step_md5]
      refine linked_step hs.inv t htab i1 i2 ev ha ⟨hq1, ?_⟩ ?_
      · intro hc
        have : ChecksFile sg (newer ++ base) s' x ev := by
          cases ev with
          | prepare id f' b' =>
            rcases hc with hc | ⟨e, h1, h2, h3, h4⟩
            · exact Or.inl hc
            · obtain ⟨n, s0, s1, ev, o, m1, m2⟩ := hs.log_execution h1
              rw [h2, h3] at m2
              exact Or.inr ⟨n, s0, s1, ev, o, _, _, _, m1, m2, h4⟩
          | complete id r deps ext extDsts => exact hc
          | _ => exact hc
        rcases hq2 this with h1 | h1
        · exact Or.inl h1
        · exact Or.inr ⟨k, h1, rfl⟩
      · intro id r deps ext extDsts p he hp hd hfb
        subst he
        obtain ⟨s0, h1, _⟩ := hs.running id p hp
        rw [hfb.1, hfb.2] at h1
        have := hlast [] s' _ _ s0 r ext extDsts rfl ⟨id, deps, rfl, h1⟩ hd
        simp at this

end Verif.DB
