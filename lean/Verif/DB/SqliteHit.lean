import Verif.DB.SqliteTrace
/-! What a value returned by the sqlite engine tells about the trace. -/
namespace Verif.DB
open SDB
set_option linter.unusedSectionVars false

variable {B R : Type} [DecidableEq B] {sg : Sig B R} {vers : FileName → Nat → Option Content}
  {tr : STrace B R} {s : SSys B R}

/-- the row of `f` with `b` -/
def SRow (db : SDB B R) (f : FunName) (b : B) (c : CallRow B R) : Prop :=
  c ∈ db.calls ∧ c.bound = b ∧ ∃ g ∈ db.functions, g.id = c.fn ∧ g.name = f

/-- the row and the execution behind a hit -/
theorem hit_sql (h : SSysInv sg vers s) (id : Nat) (f : FunName) (b : B) (r : R)
    (hh : (SSys.step sg s (.prepare id f b)).1 = .hit r) :
    ∃ c pre e post, SRow s.db f b c ∧ s.log = pre ++ e :: post ∧ e.ok = true ∧ e.fn = f ∧
      e.bound = b ∧ e.result = r ∧ s.env.funDigest f = some e.code ∧
      (∀ e' ∈ pre, e'.ok = true → e'.fn = f → e'.bound ≠ b ∧ e'.code = e.code) ∧
      (∀ x ∈ sg.srcs f e.code b, ∃ k k', s.env.fs.content x = some k ∧
        (e.view x).content x = some k' ∧ s.env.md5 k = s.env.md5 k') ∧
      (∀ x ∈ sg.returnDsts f e.code r ++ sg.dsts f e.code b, (s.env.fs x).isSome) ∧
      (∀ q ∈ s.db.files, (c.id, q.id) ∈ s.db.externalSrcs →
        InSync s.env (sg.srcs f e.code b) q → q.name ∈ e.ext → ∀ k,
        s.env.fs.content q.name = some k →
        ∃ k', e.fs1.content q.name = some k' ∧ s.env.md5 k = s.env.md5 k') ∧
      (∀ q ∈ s.db.files, (c.id, q.id) ∈ s.db.externalDsts →
        InSync s.env (sg.srcs f e.code b) q → (s.env.fs q.name).isSome) := by
  simp only [SSys.step, SSys.stepPrepare] at hh
  cases hcode : s.env.funDigest f with
  | none => rw [hcode] at hh; simp at hh
  | some code =>
    rw [hcode] at hh
    simp only at hh
    generalize hpr : prepare (SDB.storage B R) s.env f b (sg.srcs f code b) s.db = X at hh
    obtain ⟨o, db1⟩ := X
    obtain ⟨k1, k2⟩ := prepare_sql h.db.wf h.faithful hpr
    cases o with
    | error e => simp at hh
    | ok p =>
      simp only at hh
      have k2 := k2 p rfl
      cases hhit : hit s.env (sg.dsts f code b) (sg.returnDsts f code) p with
      | none => rw [hhit] at hh; simp at hh
      | some r' =>
        rw [hhit] at hh
        simp only [Out.hit.injEq] at hh
        subst hh
        obtain ⟨h1, h2, h3, ⟨cid, h4⟩, h5⟩ := hit_some hhit
        obtain ⟨c, n1, n2, n3, n4, n5⟩ := k2.found cid r' h4
        obtain ⟨g, g1, g2, g3, g4⟩ := k2.clean h1
        rw [hcode] at g4
        simp only [Option.some.injEq] at g4
        rw [g3] at n5
        have hgid : g.id = c.fn := Option.some.inj n5
        obtain ⟨pre, e, post, hlog, hs⟩ := h.db.slot c n1 g g1 hgid
        have hs' := hs.touch h.db.wf k1.touch
        have hec : e.code = code := hs.code.trans g4.symm
        refine ⟨c, pre, e, post, ⟨n1, n4, g, g1, hgid, g2⟩, hlog, hs.ok, hs.fn.trans g2,
          hs.bound.trans n4, hs.result.trans n3, by rw [hec], ?_, ?_, ?_, ?_, ?_⟩
        · intro e' he' hok hf
          have := hs.latest e' he' hok (hf.trans g2.symm)
          rw [n4] at this
          exact ⟨this.1, this.2.trans hs.code.symm⟩
        · intro x hx
          rw [hec] at hx
          obtain ⟨fid, d, ⟨k, m1, m2, q, m3, m4, m5, m6⟩, hor⟩ := k2.cover x hx
          rcases hor with ⟨t, ht, _⟩ | ⟨cid', r'', hf', hm⟩
          · rw [h2] at ht; cases ht
          · rw [h4] at hf'; cases hf'
            obtain ⟨k', m7, m8⟩ := hs'.digest _ hm n2.symm q m3 m4 (Or.inl (by
              rw [m5, g2, ← g4, n4]; exact hx))
            rw [m5] at m7
            exact ⟨k, k', m1, m7, m2.symm.trans m8⟩
        · intro x hx
          rw [hec] at hx
          exact h5 x (List.mem_append_left _ hx)
        · intro q hq hl hsync hext k hk
          rw [hec] at hsync
          obtain ⟨fid, ⟨k', m1, m2, q', m3, m4, m5, m6⟩, hm⟩ :=
            k2.ext cid r' h4 h3 q hq (by rw [← n2]; exact hl) hsync k hk
          obtain ⟨k'', m7, m8⟩ := hs'.digest _ hm n2.symm q' m3 m4 (Or.inr (by rw [m5]; exact hext))
          rw [m5] at m7
          refine ⟨k'', ?_, m8⟩
          simpa [Exec.view, hs.ok, hext] using m7
        · intro q hq hl hsync
          rw [hec] at hsync
          exact h5 q.name (List.mem_append_right _
            (k2.extDsts cid r' h4 q hq (by rw [← n2]; exact hl) hsync))

/-- the row of `f` with `b`, if there is one, is linked to the file `x`, whose recorded digest is `d` -/
def SLinked (t : SDB B R → List (Nat × Nat)) (f : FunName) (b : B) (x : FileName) (d : Digest)
    (db : SDB B R) : Prop :=
  ∀ c, SRow db f b c → ∃ q ∈ db.files, q.name = x ∧ q.digest = d ∧ (c.id, q.id) ∈ t db

/-- the file is checked by the event -/
def SChecks (sg : Sig B R) (log : List (Exec B R)) (s : SSys B R) (x : FileName) : Event B R → Prop
  | .prepare _ f b => (∃ code, s.env.funDigest f = some code ∧ x ∈ sg.srcs f code b) ∨
      ∃ e ∈ log, e.fn = f ∧ e.bound = b ∧ x ∈ e.ext
  | .complete _ _ _ ext extDsts => x ∈ ext ++ extDsts
  | _ => False

/-- `x` is checked only while it has the digest `d` or cannot be read, and is not deleted from the
database -/
def SQuiet (sg : Sig B R) (s : SSys B R) (x : FileName) (d : Digest) (ev : Event B R) : Prop :=
  ev ≠ .deleteFile x ∧ (SChecks sg s.log s x ev →
    s.env.fs.content x = none ∨ ∃ k, s.env.fs.content x = some k ∧ s.env.md5 k = d)

theorem SRow.same {db db' : SDB B R} {f : FunName} {b : B} {c : CallRow B R}
    (h1 : db'.calls = db.calls) (h2 : db'.functions = db.functions) (h : SRow db' f b c) :
    SRow db f b c := by
  obtain ⟨k1, k2, k3⟩ := h
  exact ⟨h1 ▸ k1, k2, h2 ▸ k3⟩

/-- A link survives every event that leaves the file in peace and does not store the call again. -/
theorem linked_step (h : SSysInv sg vers s) {f : FunName} {b : B} {x : FileName} {d : Digest}
    (t : SDB B R → List (Nat × Nat))
    (htab : t = SDB.externalSrcs ∨ t = SDB.externalDsts)
    (hl : SLinked t f b x d s.db) (hl' : SLinked t f b x d s.committed) (ev : Event B R)
    (ha : SAllowed vers s ev) (hq : SQuiet sg s x d ev)
    (hn : ∀ id r deps ext extDsts p, ev = .complete id r deps ext extDsts →
      s.inflight.get? id = some p → (SSys.step sg s ev).1 = .done → ¬ (p.fn = f ∧ p.bound = b)) :
    SLinked t f b x d (SSys.step sg s ev).2.db ∧
      SLinked t f b x d (SSys.step sg s ev).2.committed := by
  -- keeping a row keeps the links to it
  have hrow : ∀ {db db' : SDB B R} {q : FileRow}, KeptRow q db db' → ∀ i, (i, q.id) ∈ t db →
      (i, q.id) ∈ t db' := by
    intro db db' q hk i hm
    rcases htab with rfl | rfl
    · exact hk.es _ hm rfl
    · exact hk.ed _ hm rfl
  cases ev with
  | prepare id f' b' =>
    simp only [SSys.step, SSys.stepPrepare]
    cases hcode : s.env.funDigest f' with
    | none => exact ⟨hl, hl'⟩
    | some code =>
      simp only
      generalize hpr : prepare (SDB.storage B R) s.env f' b' (sg.srcs f' code b') s.db = X
      obtain ⟨o, db1⟩ := X
      obtain ⟨k1, _⟩ := prepare_sql h.db.wf h.faithful hpr
      have key : SLinked t f b x d db1 := by
        intro c hc
        have hc0 := SRow.same k1.touch.calls k1.touch.functions hc
        obtain ⟨q, h1, h2, h3, h4⟩ := hl c hc0
        obtain ⟨xs, h5, h6⟩ := k1.keep
        have hsync : InSync s.env (sg.srcs f' code b' ++ xs) q := by
          by_cases hx : x ∈ sg.srcs f' code b' ++ xs
          · right
            rw [h2, h3]
            refine hq.2 ?_
            rcases List.mem_append.1 hx with hx | hx
            · exact Or.inl ⟨code, hcode, hx⟩
            · obtain ⟨c', m1, m2, ⟨g, m3, m4, m5⟩, q', m6, m7, m8⟩ := h6 x hx
              obtain ⟨pre, e, post, n1, n2⟩ := h.db.slot c' m1 g m3 m4
              refine Or.inr ⟨e, by rw [n1]; simp, n2.fn.trans m5, n2.bound.trans m2, ?_⟩
              rw [← m7]
              exact n2.ext _ m8 rfl q' m6 rfl
          · left; rw [h2]; exact hx
        have hk := h5 q h1 hsync
        obtain ⟨q', m1, m2, m3, m4⟩ := hk.row
        exact ⟨q', m1, m3.trans h2, m4.trans h3, by rw [m2]; exact hrow hk c.id h4⟩
      cases o with
      | error e => exact ⟨key, hl'⟩
      | ok p =>
        simp only
        cases hit s.env (sg.dsts f' code b') (sg.returnDsts f' code) p with
        | some r => exact ⟨key, hl'⟩
        | none => exact ⟨key, hl'⟩
  | complete id r deps ext extDsts =>
    have hn := hn id r deps ext extDsts
    simp only [SSys.step, SSys.stepComplete] at hn ⊢
    cases hp : s.inflight.get? id with
    | none => exact ⟨hl, hl'⟩
    | some p =>
      rw [hp] at hn
      simp only at hn ⊢
      have hpi := (h.pending id p hp).2.2 (ha p hp)
      generalize hca : cache (SDB.storage B R) (SDB.saveExternal s.env ext extDsts) p.prep.funDirty
        p.prep.funId p.fn p.code deps (p.prep.found.map Prod.fst) p.bound r
        p.prep.callFileDigests s.db = X at hn
      obtain ⟨o, db1⟩ := X
      cases o with
      | error e => exact ⟨hl', hl'⟩
      | ok u =>
        simp only at hn ⊢
        have hne := hn p trivial rfl trivial
        obtain ⟨fid, cid, k⟩ := cache_sql h.db.wf h.faithful hpi.digsKey hca
        have key : SLinked t f b x d db1 := by
          rintro c ⟨c1, c2, g, c3, c4, c5⟩
          have hid : c.id ≠ cid := by
            intro hid
            obtain ⟨n1, n2, _⟩ := stored_row h.db hpi k c1 hid c3 c4
            exact hne ⟨n2.symm.trans c5, n1.symm.trans c2⟩
          have hc0 := (k.callOther c c1 hid).1
          obtain ⟨hg0, _⟩ := old_fun h.db k hc0 c3 c4
          obtain ⟨q, h1, h2, h3, h4⟩ := hl c ⟨hc0, c2, g, hg0, c4, c5⟩
          have hsync : InSync s.env (ext ++ extDsts) q := by
            by_cases hx : x ∈ ext ++ extDsts
            · right; rw [h2, h3]; exact hq.2 hx
            · left; rw [h2]; exact hx
          have hk := k.keep q h1 hsync c c1 hid
          obtain ⟨q', m1, m2, m3, m4⟩ := hk.row
          refine ⟨q', m1, m3.trans h2, m4.trans h3, ?_⟩
          rw [m2]
          rcases htab with rfl | rfl
          · exact hk.es h4
          · exact hk.ed h4
        exact ⟨key, key⟩
  | fail id => exact ⟨hl, hl'⟩
  | edit y st => exact ⟨hl, hl'⟩
  | tick n => exact ⟨hl, hl'⟩
  | restart ds => exact ⟨hl, hl⟩
  | crash ds =>
    have : SLinked t f b x d (if s.stamped = true then s.committed else {}) := by
      split
      · exact hl'
      · rintro c ⟨hc, _⟩; simp at hc
    exact ⟨this, this⟩
  | deleteFunction f' =>
    simp only [SSys.step]
    split
    · refine ⟨?_, hl'⟩
      obtain ⟨_, ⟨e1, _⟩, k3, k4, _, k6⟩ := deleteFunction_sql h.db.wf f' rfl
      rintro c ⟨c1, c2, g, c3, c4, c5⟩
      obtain ⟨q, h1, h2, h3, h4⟩ := hl c ⟨((k4 c).1 c1).1, c2, g, ((k3 g).1 c3).1, c4, c5⟩
      refine ⟨q, by rw [e1]; exact h1, h2, h3, ?_⟩
      rcases htab with rfl | rfl
      · exact (k6 c c1).2.1 _ h4 rfl
      · exact (k6 c c1).2.2 _ h4 rfl
    · exact ⟨hl, hl'⟩
  | deleteFile y =>
    simp only [SSys.step]
    split
    · refine ⟨?_, hl'⟩
      obtain ⟨_, k2, _, _, k5⟩ := deleteFile_sql h.db.wf y rfl
      intro c hc
      obtain ⟨q, h1, h2, h3, h4⟩ := hl c (SRow.same k2.calls k2.functions hc)
      have hyx : y ≠ x := fun he => hq.1 (by rw [he])
      obtain ⟨m1, m2⟩ := k5 q h1 (by rw [h2]; exact fun he => hyx he.symm)
      exact ⟨q, m1, h2, h3, hrow m2 c.id h4⟩
    · exact ⟨hl, hl'⟩

end Verif.DB
