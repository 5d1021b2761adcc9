import Verif.DB.SqlitePrepare
import Verif.DB.HistoryInv
/-! The invariant of the histories with the sqlite engine. -/
namespace Verif.DB
open SDB
set_option linter.unusedSectionVars false

variable {B R : Type} [DecidableEq B] {sg : Sig B R} {vers : FileName → Nat → Option Content}
  {md5 : Content → Digest} {db db' : SDB B R} {log : List (Exec B R)}

/-- The row `c` of function `g` holds what execution `e` left; `pre` are the executions since. -/
structure SSlot (sg : Sig B R) (md5 : Content → Digest) (db : SDB B R) (c : CallRow B R) (g : FunRow)
    (pre : List (Exec B R)) (e : Exec B R) : Prop where
  ok : e.ok = true
  fn : e.fn = g.name
  code : e.code = g.digest
  bound : e.bound = c.bound
  result : e.result = c.result
  latest : ∀ e' ∈ pre, e'.ok = true → e'.fn = g.name → e'.bound ≠ c.bound ∧ e'.code = g.digest
  digest : ∀ t ∈ db.callFiles, t.1 = c.id → ∀ q ∈ db.files, q.id = t.2.1 →
    (q.name ∈ sg.srcs g.name g.digest c.bound ∨ q.name ∈ e.ext) →
    ∃ k, (e.view q.name).content q.name = some k ∧ t.2.2 = md5 k
  ext : ∀ t ∈ db.externalSrcs, t.1 = c.id → ∀ q ∈ db.files, q.id = t.2 → q.name ∈ e.ext
  extDsts : ∀ t ∈ db.externalDsts, t.1 = c.id → ∀ q ∈ db.files, q.id = t.2 → q.name ∈ e.extDsts

structure SInv (sg : Sig B R) (vers : FileName → Nat → Option Content) (md5 : Content → Digest)
    (db : SDB B R) (log : List (Exec B R)) : Prop where
  wf : SWF vers md5 db
  distinct : ∀ c ∈ db.calls, ∀ c' ∈ db.calls, c.fn = c'.fn → c.bound = c'.bound → c = c'
  slot : ∀ c ∈ db.calls, ∀ g ∈ db.functions, g.id = c.fn →
    ∃ pre e post, log = pre ++ e :: post ∧ SSlot sg md5 db c g pre e
  /-- digests are kept only for declared sources and reported external sources -/
  cfName : ∀ c ∈ db.calls, ∀ g ∈ db.functions, g.id = c.fn → ∀ t ∈ db.callFiles, t.1 = c.id →
    ∀ q ∈ db.files, q.id = t.2.1 → q.name ∈ sg.srcs g.name g.digest c.bound ∨
      ∃ e ∈ log, e.fn = g.name ∧ e.bound = c.bound ∧ q.name ∈ e.ext

theorem SWF.empty : SWF vers md5 ({} : SDB B R) := by
  constructor <;> (intros; simp_all)

theorem SInv.empty : SInv sg vers md5 ({} : SDB B R) log :=
  ⟨.empty, fun _ h => (by simp at h), fun _ h => (by simp at h), fun _ h => (by simp at h)⟩

theorem SSlot.touch {c : CallRow B R} {g : FunRow} {pre : List (Exec B R)} {e : Exec B R}
    (h : SSlot sg md5 db c g pre e) (w : SWF vers md5 db) (t : STouch db db') :
    SSlot sg md5 db' c g pre e := by
  refine ⟨h.ok, h.fn, h.code, h.bound, h.result, h.latest, ?_, ?_, ?_⟩
  · intro u hu hid q hq hqid hx
    have hu := t.cf u hu
    rcases t.files q hq with ⟨q', h1, h2, h3, _⟩ | hlt
    · rw [← h3] at hx ⊢
      exact h.digest u hu hid q' h1 (h2.trans hqid) hx
    · have := w.cfFile u hu; omega
  · intro u hu hid q hq hqid
    have hu := t.es u hu
    rcases t.files q hq with ⟨q', h1, h2, h3, _⟩ | hlt
    · rw [← h3]; exact h.ext u hu hid q' h1 (h2.trans hqid)
    · have := w.esFile u hu; omega
  · intro u hu hid q hq hqid
    have hu := t.ed u hu
    rcases t.files q hq with ⟨q', h1, h2, h3, _⟩ | hlt
    · rw [← h3]; exact h.extDsts u hu hid q' h1 (h2.trans hqid)
    · have := w.edFile u hu; omega

theorem SInv.touch (h : SInv sg vers md5 db log) (t : STouch db db') (w : SWF vers md5 db') :
    SInv sg vers md5 db' log := by
  refine ⟨w, by rw [t.calls]; exact h.distinct, ?_, ?_⟩
  · intro c hc g hg hid
    rw [t.calls] at hc
    rw [t.functions] at hg
    obtain ⟨pre, e, post, h1, h2⟩ := h.slot c hc g hg hid
    exact ⟨pre, e, post, h1, h2.touch h.wf t⟩
  · intro c hc g hg hid u hu huid q hq hqid
    rw [t.calls] at hc
    rw [t.functions] at hg
    have hu := t.cf u hu
    rcases t.files q hq with ⟨q', h1, h2, h3, _⟩ | hlt
    · rw [← h3]; exact h.cfName c hc g hg hid u hu huid q' h1 (h2.trans hqid)
    · have := h.wf.cfFile u hu; omega

/-- a failed store leaves the invariant -/
theorem SInv.failed (h : SInv sg vers md5 db log) (e : Exec B R) (he : e.ok = false) :
    SInv sg vers md5 db (e :: log) := by
  refine ⟨h.wf, h.distinct, ?_, ?_⟩
  rotate_left
  · intro c hc g hg hid t ht htid q hq hqid
    rcases h.cfName c hc g hg hid t ht htid q hq hqid with h1 | ⟨e', h1, h2⟩
    · exact Or.inl h1
    · exact Or.inr ⟨e', List.mem_cons_of_mem _ h1, h2⟩
  intro c hc g hg hid
  obtain ⟨pre, e', post, h1, h2⟩ := h.slot c hc g hg hid
  refine ⟨e :: pre, e', post, by rw [h1]; rfl, ?_⟩
  refine ⟨h2.ok, h2.fn, h2.code, h2.bound, h2.result, ?_, h2.digest, h2.ext, h2.extDsts⟩
  intro e'' hm hok
  rcases List.mem_cons.1 hm with rfl | hm
  · rw [he] at hok; cases hok
  · exact h2.latest e'' hm hok

theorem SInv.deleteFunction (h : SInv sg vers md5 db log) (f : FunName)
    (he : (SDB.deleteFunction f db).2 = db') : SInv sg vers md5 db' log := by
  obtain ⟨k1, ⟨e1, _⟩, k3, k4, ⟨k5, k6, k7⟩, _⟩ := deleteFunction_sql h.wf f he
  refine ⟨k1, ?_, ?_, ?_⟩
  rotate_right
  · intro c hc g hg hid t ht
    rw [e1]
    exact h.cfName c ((k4 c).1 hc).1 g ((k3 g).1 hg).1 hid t (k5 t ht)
  · intro c hc c' hc'
    exact h.distinct c ((k4 c).1 hc).1 c' ((k4 c').1 hc').1
  · intro c hc g hg hid
    obtain ⟨pre, e, post, h1, h2⟩ := h.slot c ((k4 c).1 hc).1 g ((k3 g).1 hg).1 hid
    refine ⟨pre, e, post, h1, h2.ok, h2.fn, h2.code, h2.bound, h2.result, h2.latest, ?_, ?_, ?_⟩
    · intro t ht; rw [e1]; exact h2.digest t (k5 t ht)
    · intro t ht; rw [e1]; exact h2.ext t (k6 t ht)
    · intro t ht; rw [e1]; exact h2.extDsts t (k7 t ht)

/-- What the local variables of a call in flight have to do with the tables. -/
structure SPInv (sg : Sig B R) (md5 : Content → Digest) (db : SDB B R) (p : SPending B R) :
    Prop where
  dirty : p.prep.funDirty = true → p.prep.found = none
  cleanId : p.prep.funDirty = false → ∃ i, p.prep.funId = some i ∧ i ≤ db.lastFun ∧
    ∀ g ∈ db.functions, g.id = i → g.name = p.fn
  cleanCode : p.prep.funDirty = false → ∀ g ∈ db.functions, g.name = p.fn → g.digest = p.code
  mine : p.prep.funDirty = false → ∀ c ∈ db.calls, ∀ g ∈ db.functions, g.id = c.fn →
    g.name = p.fn → c.bound = p.bound → ∃ r, p.prep.found = some (c.id, r)
  found : ∀ cid r, p.prep.found = some (cid, r) → cid ≤ db.lastCall ∧ ∀ c ∈ db.calls, c.id = cid →
    c.bound = p.bound ∧ p.prep.funId = some c.fn
  digsSrc : ∀ t ∈ p.prep.callFileDigests, t.2.1 ∈ sg.srcs p.fn p.code p.bound
  digs : ∀ t ∈ p.prep.callFileDigests, t.1 ≤ db.lastFile ∧
    (∀ q ∈ db.files, q.id = t.1 → q.name = t.2.1) ∧
    ∃ k, p.fs0.content t.2.1 = some k ∧ t.2.2 = md5 k
  digsKey : ∀ t ∈ p.prep.callFileDigests, ∀ t' ∈ p.prep.callFileDigests, t.1 = t'.1 → t.2.2 = t'.2.2
  old : ∀ cid r, p.prep.found = some (cid, r) → ∀ t ∈ db.callFiles, t.1 = cid → ∀ q ∈ db.files,
    q.id = t.2.1 → q.name ∈ sg.srcs p.fn p.code p.bound →
    (∀ u ∈ p.prep.callFileDigests, u.1 ≠ t.2.1) → ∃ k, p.fs0.content q.name = some k ∧ t.2.2 = md5 k

theorem SPInv.touch {p : SPending B R} (h : SPInv sg md5 db p) (w : SWF vers md5 db)
    (t : STouch db db') : SPInv sg md5 db' p := by
  refine ⟨h.dirty, ?_, ?_, ?_, ?_, h.digsSrc, ?_, h.digsKey, ?_⟩
  · rw [t.lastFun, t.functions]; exact h.cleanId
  · rw [t.functions]; exact h.cleanCode
  · rw [t.functions, t.calls]; exact h.mine
  · rw [t.lastCall, t.calls]; exact h.found
  · intro u hu
    obtain ⟨h1, h2, h3⟩ := h.digs u hu
    have hl := t.lastFile
    refine ⟨by omega, ?_, h3⟩
    intro q hq hid
    rcases t.files q hq with ⟨q', m1, m2, m3, _⟩ | hlt
    · rw [← m3]; exact h2 q' m1 (m2.trans hid)
    · omega
  · intro cid r hf u hu hid q hq hqid hx hn
    have hu := t.cf u hu
    rcases t.files q hq with ⟨q', m1, m2, m3, _⟩ | hlt
    · rw [← m3] at hx ⊢
      exact h.old cid r hf u hu hid q' m1 (m2.trans hqid) hx hn
    · have := w.cfFile u hu; omega

/-- a call that has just been prepared -/
theorem SPInv.start {env : Env} {f : FunName} {b : B} {code : Digest} {p : Prep Nat Nat Nat R}
    {epoch : Nat} (hcode : env.funDigest f = some code)
    (w : SWF vers env.md5 db) (w' : SWF vers env.md5 db') (t : STouch db db')
    (hdist : ∀ c ∈ db.calls, ∀ c' ∈ db.calls, c.fn = c'.fn → c.bound = c'.bound → c = c')
    (h : SFound env f b (sg.srcs f code b) db db' p) :
    SPInv sg env.md5 db' ⟨f, code, b, p, env.fs, epoch⟩ := by
  refine ⟨h.dirty, ?_, ?_, ?_, ?_, fun t ht => (h.digs t ht).1, ?_, ?_, ?_⟩
  · intro hd
    obtain ⟨g, h1, h2, h3, _⟩ := h.clean hd
    refine ⟨g.id, h3, by rw [t.lastFun]; exact w.funLe g h1, ?_⟩
    intro g' hg' hid
    rw [t.functions] at hg'
    rw [w.funId g' hg' g h1 hid]; exact h2
  · intro hd g' hg' hn
    obtain ⟨g, h1, h2, _, h4⟩ := h.clean hd
    rw [t.functions] at hg'
    have := w.funName g' hg' g h1 (hn.trans h2.symm)
    subst this
    rw [hcode] at h4; exact (Option.some.inj h4).symm
  · intro hd c hc g' hg' hid hn hb
    obtain ⟨g, h1, h2, h3, _⟩ := h.clean hd
    rw [t.functions] at hg'
    rw [t.calls] at hc
    have := w.funName g' hg' g h1 (hn.trans h2.symm)
    subst this
    simp only
    cases hf : p.found with
    | none => exact absurd ⟨by rw [h3, hid], hb⟩ (h.notFound hd hf c hc)
    | some cr =>
      obtain ⟨cid, r⟩ := cr
      obtain ⟨c', m1, m2, _, m4, m5⟩ := h.found cid r hf
      rw [h3] at m5
      have := hdist c hc c' m1 (hid.symm.trans (Option.some.inj m5)) (hb.trans m4.symm)
      subst this
      exact ⟨r, by rw [m2]⟩
  · intro cid r hf
    obtain ⟨c, h1, h2, h3, h4, h5⟩ := h.found cid r hf
    refine ⟨by rw [t.lastCall, ← h2]; exact w.callLe c h1, ?_⟩
    intro c' hc' hid
    rw [t.calls] at hc'
    have := w.callId c' hc' c h1 (hid.trans h2.symm)
    subst this
    exact ⟨h4, h5⟩
  · intro u hu
    obtain ⟨_, k, h2, h3, q, h4, h5, h6, h7⟩ := h.digs u hu
    refine ⟨by rw [← h5]; exact w'.fileLe q h4, ?_, k, h2, h3⟩
    intro q' hq' hid
    rw [w'.fileId q' hq' q h4 (hid.trans h5.symm)]; exact h6
  · intro u hu u' hu' heq
    obtain ⟨_, k, h2, h3, q, h4, h5, h6, h7⟩ := h.digs u hu
    obtain ⟨_, k', h2', h3', q', h4', h5', h6', h7'⟩ := h.digs u' hu'
    have := w'.fileId q h4 q' h4' (by rw [h5, h5', heq])
    subst this
    rw [← h7, ← h7']
  · intro cid r hf u hu hid q hq hqid hx hn
    obtain ⟨fid, d, ⟨k, h1, h2, q', h3, h4, h5, h6⟩, hor⟩ := h.cover q.name hx
    have := w'.fileName q' h3 q hq h5
    subst this
    rcases hor with ⟨u', hu', hux⟩ | ⟨cid', r', hf', hm⟩
    · exfalso
      obtain ⟨_, k', _, _, q2, m1, m2, m3, _⟩ := h.digs u' hu'
      have := w'.fileName q2 m1 q' hq (m3.trans hux)
      subst this
      exact hn u' hu' (m2.symm.trans hqid)
    · simp only at hf
      rw [hf] at hf'
      cases hf'
      have := w'.cfKey u hu _ hm hid (by simp only; rw [← hqid, h4])
      exact ⟨k, h1, by rw [this]; exact h2⟩

end Verif.DB
