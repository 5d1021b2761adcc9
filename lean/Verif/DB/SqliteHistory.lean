import Verif.DB.SqliteInv
import Verif.DB.HistoryProofs
/-! Every reachable state of a history with the sqlite engine satisfies the invariant. -/
namespace Verif.DB
open SDB
set_option linter.unusedSectionVars false

variable {B R : Type} [DecidableEq B] {sg : Sig B R} {vers : FileName → Nat → Option Content}
  {env : Env} {db db' : SDB B R} {log : List (Exec B R)}

section
variable {p : SPending B R} {r : R} {ext extDsts : List FileName} {fid cid : Nat}

/-- the row of the call that was stored belongs to the function and arguments of the call -/
theorem stored_row (hi : SInv sg vers env.md5 db log) (hp : SPInv sg env.md5 db p)
    (k : SStored vers env p.prep.funDirty p.prep.funId p.fn p.code (p.prep.found.map Prod.fst)
      p.bound r p.prep.callFileDigests ext extDsts fid cid db db')
    {c : CallRow B R} (hc : c ∈ db'.calls) (hid : c.id = cid) {g : FunRow} (hg : g ∈ db'.functions)
    (hgid : g.id = c.fn) :
    c.bound = p.bound ∧ g.name = p.fn ∧ g.digest = p.code := by
  have hclean : p.prep.funDirty = false → p.prep.funId = some g.id →
      g.name = p.fn ∧ g.digest = p.code := by
    intro hd hf
    obtain ⟨i, h1, _, h3⟩ := hp.cleanId hd
    rcases k.funs g hg with ⟨h4, _⟩ | ⟨h4, _⟩
    · rw [h1] at hf
      have hn := h3 g h4 (Option.some.inj hf).symm
      exact ⟨hn, hp.cleanCode hd g h4 hn⟩
    · rw [hd] at h4; cases h4
  obtain ⟨_, ⟨h1, h2, h3⟩ | ⟨c0, h1, h2, h3, h4, _⟩⟩ := k.callNew c hc hid
  · refine ⟨h3, ?_⟩
    rcases k.fidIs with ⟨hd, hf⟩ | ⟨hd, hf⟩
    · exact hclean hd (by rw [hf, hgid, h2])
    · rcases k.funs g hg with ⟨h4, _⟩ | ⟨_, _, h5, h6⟩
      · have := hi.wf.funLe g h4; omega
      · exact ⟨h5, h6⟩
  · have hle := hi.wf.callLe c0 h1
    rcases k.cidIs with hcid | ⟨_, hcid, _⟩
    · cases hfo : p.prep.found with
      | none => rw [hfo] at hcid; cases hcid
      | some cr =>
        obtain ⟨i, r'⟩ := cr
        rw [hfo] at hcid
        simp only [Option.map_some, Option.some.injEq] at hcid
        subst hcid
        obtain ⟨_, h5⟩ := hp.found i r' hfo
        obtain ⟨h6, h7⟩ := h5 c0 h1 h2
        have hd : p.prep.funDirty = false := by
          cases hd : p.prep.funDirty with
          | false => rfl
          | true => rw [hp.dirty hd] at hfo; cases hfo
        exact ⟨h4.symm.trans h6, hclean hd (by rw [h7, hgid, h3])⟩
    · omega

/-- a row that was there before belongs to a function that was there before -/
theorem old_fun (hi : SInv sg vers env.md5 db log)
    (k : SStored vers env p.prep.funDirty p.prep.funId p.fn p.code (p.prep.found.map Prod.fst)
      p.bound r p.prep.callFileDigests ext extDsts fid cid db db')
    {c : CallRow B R} (hc : c ∈ db.calls) {g : FunRow} (hg : g ∈ db'.functions)
    (hgid : g.id = c.fn) : g ∈ db.functions ∧ (p.prep.funDirty = true → g.name ≠ p.fn) := by
  rcases k.funs g hg with h | ⟨_, h, _⟩
  · exact h
  · obtain ⟨g0, h1, h2⟩ := hi.wf.callFun c hc
    have := hi.wf.funLe g0 h1
    omega

/-- another row of the same function has other arguments -/
theorem other_bound (hi : SInv sg vers env.md5 db log) (hp : SPInv sg env.md5 db p)
    (k : SStored vers env p.prep.funDirty p.prep.funId p.fn p.code (p.prep.found.map Prod.fst)
      p.bound r p.prep.callFileDigests ext extDsts fid cid db db')
    {c : CallRow B R} (hc : c ∈ db'.calls) (hid : c.id ≠ cid) {g : FunRow} (hg : g ∈ db'.functions)
    (hgid : g.id = c.fn) (hn : g.name = p.fn) : c.bound ≠ p.bound ∧ g.digest = p.code := by
  obtain ⟨h1, _⟩ := k.callOther c hc hid
  obtain ⟨h2, h3⟩ := old_fun hi k h1 hg hgid
  cases hd : p.prep.funDirty with
  | true => exact absurd hn (h3 hd)
  | false =>
    refine ⟨?_, hp.cleanCode hd g h2 hn⟩
    intro hb
    obtain ⟨r', h4⟩ := hp.mine hd c h1 g h2 hgid hn hb
    rcases k.cidIs with h5 | ⟨h5, _⟩
    · rw [h4] at h5
      exact hid (Option.some.inj h5)
    · rw [h4] at h5; cases h5

/-- storing a result keeps the invariant -/
theorem SInv.store (hi : SInv sg vers env.md5 db log) (hp : SPInv sg env.md5 db p)
    (k : SStored vers env p.prep.funDirty p.prep.funId p.fn p.code (p.prep.found.map Prod.fst)
      p.bound r p.prep.callFileDigests ext extDsts fid cid db db') (deps : List FunName) :
    SInv sg vers env.md5 db' (⟨p.fn, p.code, p.bound, r, p.prep.funDirty, p.fs0, env.fs, deps, ext,
      extDsts, true⟩ :: log) := by
  have hcf : ∀ t ∈ db.callFiles, t.1 ≤ db.lastCall := by
    intro t ht
    obtain ⟨c, h1, h2⟩ := hi.wf.cfCall t ht
    rw [← h2]; exact hi.wf.callLe c h1
  have hq0 : ∀ i ≤ db.lastFile, ∀ q ∈ db'.files, q.id = i →
      ∃ q0 ∈ db.files, q0.id = i ∧ q0.name = q.name := by
    intro i hle q hq hqid
    rcases k.files q hq with ⟨q0, m1, m2, m3, _⟩ | hlt
    · exact ⟨q0, m1, m2.trans hqid, m3⟩
    · omega
  refine ⟨k.wf, ?_, ?_, ?_⟩
  · -- at most one row for the same function and arguments
    have hne : ∀ c ∈ db'.calls, ∀ c' ∈ db'.calls, c.id ≠ cid → c'.id = cid → c.fn = c'.fn →
        c.bound ≠ c'.bound := by
      intro c hc c' hc' h1 h2 hfn
      obtain ⟨g, hg, hgid⟩ := k.wf.callFun c' hc'
      obtain ⟨h3, h4, _⟩ := stored_row hi hp k hc' h2 hg hgid
      rw [h3]
      exact (other_bound hi hp k hc h1 hg (hgid.trans hfn.symm) h4).1
    intro c hc c' hc' hfn hb
    by_cases h1 : c.id = cid
    · by_cases h2 : c'.id = cid
      · exact k.wf.callId c hc c' hc' (h1.trans h2.symm)
      · exact absurd hb.symm (hne c' hc' c hc h2 h1 hfn.symm)
    · by_cases h2 : c'.id = cid
      · exact absurd hb (hne c hc c' hc' h1 h2 hfn)
      · exact hi.distinct c (k.callOther c hc h1).1 c' (k.callOther c' hc' h2).1 hfn hb
  · intro c hc g hg hgid
    by_cases hid : c.id = cid
    · -- the row that was stored
      obtain ⟨hb, hn, hdig⟩ := stored_row hi hp k hc hid hg hgid
      refine ⟨[], _, log, rfl, rfl, hn.symm, hdig.symm, hb.symm, (k.callNew c hc hid).1.symm,
        fun _ h => (nomatch h), ?_, ?_, ?_⟩
      · intro t ht htid q hq hqid hx
        obtain ⟨h1, h2⟩ := k.cfNew t ht (htid.trans hid) q hq hqid
        by_cases hxe : q.name ∈ ext
        · obtain ⟨cc, h3, h4⟩ := h1 hxe
          exact ⟨cc, by simp [Exec.view, hxe, h3], h4⟩
        · have hview : ∀ e : Exec B R, e.ext = ext → e.view q.name = e.fs0 := by
            intro e he; simp [Exec.view, he, hxe]
          rw [hview _ rfl]
          simp only
          have hsrc : q.name ∈ sg.srcs p.fn p.code p.bound := by
            rcases hx with hx | hx
            · rw [hn, hdig, hb] at hx; exact hx
            · exact absurd hx hxe
          obtain ⟨⟨q0, m1, m2, m3, _⟩, hor⟩ := h2 hxe
          rcases hor with ⟨u, hu, h3, h4⟩ | ⟨h3, h4⟩
          · obtain ⟨_, h5, cc, h6, h7⟩ := hp.digs u hu
            have h8 := h5 q0 m1 (by rw [m2, hqid, h3])
            rw [← m3, h8]
            exact ⟨cc, h6, by rw [← h4]; exact h7⟩
          · have hle := hcf t h3
            rcases k.cidIs with hcid | ⟨_, hcid, _⟩
            · cases hfo : p.prep.found with
              | none => rw [hfo] at hcid; cases hcid
              | some cr =>
                obtain ⟨i, r'⟩ := cr
                rw [hfo] at hcid
                simp only [Option.map_some, Option.some.injEq] at hcid
                rw [← m3] at hsrc ⊢
                exact hp.old i r' hfo t h3 (by omega) q0 m1 (m2.trans hqid) hsrc h4
            · omega
      · intro t ht htid q hq hqid
        exact k.esNew t ht (htid.trans hid) q hq hqid
      · intro t ht htid q hq hqid
        exact k.edNew t ht (htid.trans hid) q hq hqid
    · -- another row
      obtain ⟨hc0, _⟩ := k.callOther c hc hid
      obtain ⟨hg0, _⟩ := old_fun hi k hc0 hg hgid
      obtain ⟨pre, e, post, h1, h2⟩ := hi.slot c hc0 g hg0 hgid
      refine ⟨_ :: pre, e, post, by rw [h1]; rfl, h2.ok, h2.fn, h2.code, h2.bound, h2.result, ?_,
        ?_, ?_, ?_⟩
      · intro e' hm hok hn
        rcases List.mem_cons.1 hm with rfl | hm
        · obtain ⟨h3, h4⟩ := other_bound hi hp k hc hid hg hgid hn.symm
          exact ⟨fun h => h3 h.symm, h4.symm⟩
        · exact h2.latest e' hm hok hn
      · intro t ht htid q hq hqid hx
        have ht0 := k.cfOther t ht (by rw [htid]; exact hid)
        obtain ⟨q0, m1, m2, m3⟩ := hq0 _ (hi.wf.cfFile t ht0) q hq hqid
        rw [← m3] at hx ⊢
        exact h2.digest t ht0 htid q0 m1 m2 hx
      · intro t ht htid q hq hqid
        have ht0 := k.esOther t ht (by rw [htid]; exact hid)
        obtain ⟨q0, m1, m2, m3⟩ := hq0 _ (hi.wf.esFile t ht0) q hq hqid
        rw [← m3]
        exact h2.ext t ht0 htid q0 m1 m2
      · intro t ht htid q hq hqid
        have ht0 := k.edOther t ht (by rw [htid]; exact hid)
        obtain ⟨q0, m1, m2, m3⟩ := hq0 _ (hi.wf.edFile t ht0) q hq hqid
        rw [← m3]
        exact h2.extDsts t ht0 htid q0 m1 m2
  · -- the files of a row
    intro c hc g hg hgid t ht htid q hq hqid
    by_cases hid : c.id = cid
    · obtain ⟨hb, hn, hdig⟩ := stored_row hi hp k hc hid hg hgid
      obtain ⟨_, h2⟩ := k.cfNew t ht (htid.trans hid) q hq hqid
      by_cases hxe : q.name ∈ ext
      · exact Or.inr ⟨_, List.mem_cons_self .., hn.symm, hb.symm, hxe⟩
      · obtain ⟨⟨q0, m1, m2, m3, _⟩, hor⟩ := h2 hxe
        rcases hor with ⟨u, hu, h3, h4⟩ | ⟨h3, h4⟩
        · left
          have h5 := (hp.digs u hu).2.1 q0 m1 (by rw [m2, hqid, h3])
          rw [← m3, h5, hn, hdig, hb]
          exact hp.digsSrc u hu
        · -- an entry of the row found
          obtain ⟨c0, n1, n2⟩ := hi.wf.cfCall t h3
          have hle := hi.wf.callLe c0 n1
          obtain ⟨_, ⟨n3, _⟩ | ⟨c1, n3, n4, n5, n6, _⟩⟩ := k.callNew c hc hid
          · rcases k.cidIs with hx | ⟨_, hx, _⟩
            · rw [n3] at hx; cases hx
            · omega
          · obtain ⟨hg0, _⟩ := old_fun hi k n3 hg (by rw [hgid, n5])
            rw [← m3, ← n6]
            rcases hi.cfName c1 n3 g hg0 (by rw [hgid, n5]) t h3 (by omega) q0 m1
              (m2.trans hqid) with h5 | ⟨e, h5, h6⟩
            · exact Or.inl h5
            · exact Or.inr ⟨e, List.mem_cons_of_mem _ h5, h6⟩
    · obtain ⟨hc0, _⟩ := k.callOther c hc hid
      obtain ⟨hg0, _⟩ := old_fun hi k hc0 hg hgid
      have ht0 := k.cfOther t ht (by rw [htid]; exact hid)
      obtain ⟨q0, m1, m2, m3⟩ := hq0 _ (hi.wf.cfFile t ht0) q hq hqid
      rw [← m3]
      rcases hi.cfName c hc0 g hg0 hgid t ht0 htid q0 m1 m2 with h5 | ⟨e, h5, h6⟩
      · exact Or.inl h5
      · exact Or.inr ⟨e, List.mem_cons_of_mem _ h5, h6⟩

/-- storing a result keeps what is known about the other calls in flight -/
theorem SPInv.store {p2 : SPending B R} (hi : SInv sg vers env.md5 db log)
    (hp : SPInv sg env.md5 db p) (hp2 : SPInv sg env.md5 db p2)
    (hcode : p.fn = p2.fn → p.code = p2.code) (hapart : ¬ (p.fn = p2.fn ∧ p.bound = p2.bound))
    (k : SStored vers env p.prep.funDirty p.prep.funId p.fn p.code (p.prep.found.map Prod.fst)
      p.bound r p.prep.callFileDigests ext extDsts fid cid db db') :
    SPInv sg env.md5 db' p2 := by
  -- the row that was stored is not the one found by the other call
  have hother : ∀ i r', p2.prep.found = some (i, r') → ∀ c ∈ db'.calls, c.id = i → c.id ≠ cid := by
    intro i r' hf c hc hid hcid
    obtain ⟨g, hg, hgid⟩ := k.wf.callFun c hc
    obtain ⟨h1, h2, _⟩ := stored_row hi hp k hc hcid hg hgid
    obtain ⟨h3, h4⟩ := hp2.found i r' hf
    have hd : p2.prep.funDirty = false := by
      cases hd : p2.prep.funDirty with
      | false => rfl
      | true => rw [hp2.dirty hd] at hf; cases hf
    obtain ⟨j, h5, _, h6⟩ := hp2.cleanId hd
    obtain ⟨_, ⟨h7, _⟩ | ⟨c0, h7, h8, h9, h10, _⟩⟩ := k.callNew c hc hcid
    · rcases k.cidIs with hx | ⟨_, hx, _⟩
      · rw [h7] at hx; cases hx
      · omega
    · obtain ⟨h11, h12⟩ := h4 c0 h7 (by omega)
      obtain ⟨hg0, _⟩ := old_fun hi k h7 hg (by rw [hgid, h9])
      rw [h5] at h12
      have := h6 g hg0 (by rw [hgid, ← h9]; exact (Option.some.inj h12).symm)
      exact hapart ⟨h2.symm.trans this, h1.symm.trans (h10.symm.trans h11)⟩
  refine ⟨hp2.dirty, ?_, ?_, ?_, ?_, hp2.digsSrc, ?_, hp2.digsKey, ?_⟩
  · intro hd
    obtain ⟨i, h1, h2, h3⟩ := hp2.cleanId hd
    refine ⟨i, h1, Nat.le_trans h2 k.lastFun, ?_⟩
    intro g hg hid
    rcases k.funs g hg with ⟨h4, _⟩ | ⟨_, h4, _⟩
    · exact h3 g h4 hid
    · omega
  · intro hd g hg hn
    rcases k.funs g hg with ⟨h4, _⟩ | ⟨_, _, h5, h6⟩
    · exact hp2.cleanCode hd g h4 hn
    · rw [h6]; exact hcode (h5.symm.trans hn)
  · intro hd c hc g hg hgid hn hb
    by_cases hid : c.id = cid
    · obtain ⟨h1, h2, _⟩ := stored_row hi hp k hc hid hg hgid
      exact absurd ⟨h2.symm.trans hn, h1.symm.trans hb⟩ hapart
    · obtain ⟨hc0, _⟩ := k.callOther c hc hid
      obtain ⟨hg0, _⟩ := old_fun hi k hc0 hg hgid
      exact hp2.mine hd c hc0 g hg0 hgid hn hb
  · intro i r' hf
    obtain ⟨h1, h2⟩ := hp2.found i r' hf
    refine ⟨Nat.le_trans h1 k.lastCall, ?_⟩
    intro c hc hid
    exact h2 c (k.callOther c hc (hother i r' hf c hc hid)).1 hid
  · intro t ht
    obtain ⟨h1, h2, h3⟩ := hp2.digs t ht
    refine ⟨Nat.le_trans h1 k.lastFile, ?_, h3⟩
    intro q hq hqid
    rcases k.files q hq with ⟨q0, m1, m2, m3, _⟩ | hlt
    · rw [← m3]; exact h2 q0 m1 (m2.trans hqid)
    · omega
  · intro i r' hf t ht htid q hq hqid hx hn
    obtain ⟨c, hc, hcid⟩ := k.wf.cfCall t ht
    have hne := hother i r' hf c hc (hcid.trans htid)
    have ht0 := k.cfOther t ht (by rw [← hcid]; exact hne)
    rcases k.files q hq with ⟨q0, m1, m2, m3, _⟩ | hlt
    · rw [← m3] at hx ⊢
      exact hp2.old i r' hf t ht0 htid q0 m1 (m2.trans hqid) hx hn
    · have := hi.wf.cfFile t ht0; omega

end

/-- What the environment does, for the sqlite engine.
* A call gets a fresh number and no call of the same function with equal arguments is in flight.
* A result is stored only if no store has raised since the call was prepared: the rollback takes
  back the rows whose ids the call holds (see `C66_rollback_violated`).
* A file's content is determined by its name and mtime. -/
def SAllowed (vers : FileName → Nat → Option Content) (s : SSys B R) : Event B R → Prop
  | .prepare id f b => s.inflight.get? id = none ∧
      ∀ id' p, s.inflight.get? id' = some p → ¬ (p.fn = f ∧ p.bound = b)
  | .complete id _ _ _ _ => ∀ p, s.inflight.get? id = some p → p.epoch = s.epoch
  | .edit x st => ∀ f, st = some f → vers x f.mtime = f.content
  | _ => True

structure SSysInv (sg : Sig B R) (vers : FileName → Nat → Option Content) (s : SSys B R) :
    Prop where
  db : SInv sg vers s.env.md5 s.db s.log
  committed : SInv sg vers s.env.md5 s.committed s.log
  pending : ∀ id p, s.inflight.get? id = some p → p.epoch ≤ s.epoch ∧
    s.env.funDigest p.fn = some p.code ∧ (p.epoch = s.epoch → SPInv sg s.env.md5 s.db p)
  apart : ∀ id id' p q, s.inflight.get? id = some p → s.inflight.get? id' = some q → id ≠ id' →
    ¬ (p.fn = q.fn ∧ p.bound = q.bound)
  faithful : Faithful vers s.env.fs

theorem SSysInv.prepare {s : SSys B R} (h : SSysInv sg vers s) (id : Nat) (f : FunName) (b : B)
    (ha : SAllowed vers s (.prepare id f b)) : SSysInv sg vers (s.stepPrepare sg id f b).2 := by
  unfold SSys.stepPrepare
  cases hcode : s.env.funDigest f with
  | none => exact h
  | some code =>
    simp only
    generalize hpr : Verif.DB.prepare (SDB.storage B R) s.env f b (sg.srcs f code b) s.db = X
    obtain ⟨o, db1⟩ := X
    obtain ⟨k1, k2⟩ := prepare_sql h.db.wf h.faithful hpr
    have hdb := h.db.touch k1.touch k1.wf
    have hpend : ∀ id p, s.inflight.get? id = some p → p.epoch ≤ s.epoch ∧
        s.env.funDigest p.fn = some p.code ∧ (p.epoch = s.epoch → SPInv sg s.env.md5 db1 p) := by
      intro id p hp
      obtain ⟨h1, h2, h3⟩ := h.pending id p hp
      exact ⟨h1, h2, fun he => (h3 he).touch h.db.wf k1.touch⟩
    cases o with
    | error e => exact ⟨hdb, h.committed, hpend, h.apart, h.faithful⟩
    | ok p =>
      simp only
      cases hit s.env (sg.dsts f code b) (sg.returnDsts f code) p with
      | some r => exact ⟨hdb, h.committed, hpend, h.apart, h.faithful⟩
      | none =>
        refine ⟨hdb, h.committed, ?_, ?_, h.faithful⟩
        · intro id' p' hp'
          simp only [Dict.get?_set] at hp'
          split at hp'
          · simp only [Option.some.injEq] at hp'
            subst hp'
            exact ⟨Nat.le_refl _, hcode, fun _ =>
              SPInv.start hcode h.db.wf k1.wf k1.touch h.db.distinct (k2 p rfl)⟩
          · exact hpend id' p' hp'
        · intro i j p1 p2 h1 h2 hne
          simp only [Dict.get?_set] at h1 h2
          split at h1
          · simp only [Option.some.injEq] at h1
            subst h1
            split at h2
            · omega
            · intro hx
              exact ha.2 j p2 h2 ⟨hx.1.symm, hx.2.symm⟩
          · split at h2
            · simp only [Option.some.injEq] at h2
              subst h2
              exact ha.2 i p1 h1
            · exact h.apart i j p1 p2 h1 h2 hne

theorem SSysInv.complete {s : SSys B R} (h : SSysInv sg vers s) (id : Nat) (r : R)
    (deps : List FunName) (ext extDsts : List FileName)
    (ha : SAllowed vers s (.complete id r deps ext extDsts)) :
    SSysInv sg vers (s.stepComplete id r deps ext extDsts).2 := by
  unfold SSys.stepComplete
  cases hp : s.inflight.get? id with
  | none => exact h
  | some p =>
    simp only
    have hep := ha p hp
    obtain ⟨_, hcode, hpi⟩ := h.pending id p hp
    have hpi := hpi hep
    have hapart : ∀ i j p q, (s.inflight.erase id).get? i = some p →
        (s.inflight.erase id).get? j = some q → i ≠ j → ¬ (p.fn = q.fn ∧ p.bound = q.bound) := by
      intro i j p q h1 h2 hne
      rw [Dict.get?_erase] at h1 h2
      split at h1
      · cases h1
      · split at h2
        · cases h2
        · exact h.apart i j p q h1 h2 hne
    generalize hca : cache (SDB.storage B R) (SDB.saveExternal s.env ext extDsts) p.prep.funDirty
        p.prep.funId p.fn p.code deps (p.prep.found.map Prod.fst) p.bound r
        p.prep.callFileDigests s.db = X
    obtain ⟨o, db1⟩ := X
    cases o with
    | error e =>
      refine ⟨h.committed.failed _ rfl, h.committed.failed _ rfl, ?_, hapart, h.faithful⟩
      intro i q hq
      rw [Dict.get?_erase] at hq
      split at hq
      · cases hq
      · obtain ⟨h1, h2, _⟩ := h.pending i q hq
        refine ⟨Nat.le_succ_of_le h1, h2, ?_⟩
        intro he
        simp only at he
        omega
    | ok u =>
      obtain ⟨fid, cid, k⟩ := cache_sql h.db.wf h.faithful hpi.digsKey hca
      have hs := h.db.store hpi k deps
      refine ⟨hs, hs, ?_, hapart, h.faithful⟩
      intro i q hq
      rw [Dict.get?_erase] at hq
      split at hq
      · cases hq
      · rename_i hne
        obtain ⟨h1, h2, h3⟩ := h.pending i q hq
        refine ⟨h1, h2, fun he => SPInv.store h.db hpi (h3 he) ?_ ?_ k⟩
        · intro hf
          rw [← hf, hcode] at h2
          exact Option.some.inj h2
        · exact h.apart id i p q hp hq hne

theorem SSysInv.step {s : SSys B R} (h : SSysInv sg vers s) (ev : Event B R)
    (ha : SAllowed vers s ev) : SSysInv sg vers (s.step sg ev).2 := by
  cases ev with
  | prepare id f b => exact h.prepare id f b ha
  | complete id r deps ext extDsts => exact h.complete id r deps ext extDsts ha
  | fail id =>
    refine ⟨h.db, h.committed, ?_, ?_, h.faithful⟩
    · intro i p hp
      simp only [SSys.step, Dict.get?_erase] at hp
      split at hp
      · cases hp
      · exact h.pending i p hp
    · intro i j p q h1 h2 hne
      simp only [SSys.step, Dict.get?_erase] at h1 h2
      split at h1
      · cases h1
      · split at h2
        · cases h2
        · exact h.apart i j p q h1 h2 hne
  | edit x st =>
    refine ⟨h.db, h.committed, h.pending, h.apart, ?_⟩
    intro y f hf
    simp only [SSys.step] at hf
    split at hf
    · rename_i hy; subst hy; exact ha f hf
    · exact h.faithful y f hf
  | tick n => exact ⟨h.db, h.committed, h.pending, h.apart, h.faithful⟩
  | restart ds =>
    exact ⟨h.db, h.db, fun _ _ hp => (by simp [SSys.step] at hp),
      fun _ _ _ _ hp => (by simp [SSys.step] at hp), h.faithful⟩
  | crash ds =>
    have hdb : SInv sg vers s.env.md5 (if s.stamped = true then s.committed else {}) s.log := by
      split
      · exact h.committed
      · exact .empty
    exact ⟨hdb, hdb, fun _ _ hp => (by simp [SSys.step] at hp),
      fun _ _ _ _ hp => (by simp [SSys.step] at hp), h.faithful⟩
  | deleteFunction f =>
    simp only [SSys.step]
    split
    · rename_i he
      have hnone : ∀ id p, s.inflight.get? id ≠ some p := by
        intro id p hp
        rw [List.isEmpty_iff] at he
        rw [he] at hp; simp at hp
      exact ⟨h.db.deleteFunction f rfl, h.committed, fun i p hp => absurd hp (hnone i p), h.apart,
        h.faithful⟩
    · exact h
  | deleteFile x =>
    simp only [SSys.step]
    split
    · rename_i he
      have hnone : ∀ id p, s.inflight.get? id ≠ some p := by
        intro id p hp
        rw [List.isEmpty_iff] at he
        rw [he] at hp; simp at hp
      obtain ⟨k1, k2, _⟩ := deleteFile_sql h.db.wf x rfl
      exact ⟨h.db.touch k2 k1, h.committed, fun i p hp => absurd hp (hnone i p), h.apart,
        h.faithful⟩
    · exact h

theorem SSysInv.init (h : ∀ x f, env.fs x = some f → vers x f.mtime = f.content) :
    SSysInv sg vers (SSys.init env : SSys B R) :=
  ⟨.empty, .empty, fun _ _ hp => (by simp [SSys.init] at hp),
    fun _ _ _ _ hp => (by simp [SSys.init] at hp), h⟩

end Verif.DB
