import Verif.Calls.CleanLemmas
import Verif.Props.Calls
import Verif.DB.Alive
/-! Builds with a database do what builds without a database do: the invariant, and its preservation. -/
namespace Verif.Calls
open Verif.DB CDB
set_option linter.unusedSectionVars false

variable {B R : Type} [DecidableEq B]

/-- What is known about an execution that may be answered from the database: it did what the function does without a database,
and, while the database has the digests of all its sources, the files it wrote are as it left them, or gone. -/
structure EntryOk (sg : Sig B R) (script : Script B R) (ρ : Layout B) (s : Sys B R) (e : Exec B R) : Prop where
  ok : e.ok = true
  run : ∃ ds w, ρ.Respects ds ∧ ds e.fn = some e.code ∧
    cleanCall sg script ds ρ.depth e.fn e.bound e.fs0.content = (some e.result, w) ∧
    (∀ x ∈ (footprint sg script ds ρ.depth e.fn e.code e.bound e.fs0.content).writes, w x = e.fs1.content x) ∧
    (∀ x ∈ sg.srcs e.fn e.code e.bound ++ (footprint sg script ds ρ.depth e.fn e.code e.bound e.fs0.content).srcs,
      e.fs1.content x = e.fs0.content x) ∧
    (∀ x ∈ (footprint sg script ds ρ.depth e.fn e.code e.bound e.fs0.content).srcs, x ∈ e.ext) ∧
    (∀ x ∈ (footprint sg script ds ρ.depth e.fn e.code e.bound e.fs0.content).dsts, x ∈ e.extDsts) ∧
    ((∀ y ∈ sg.srcs e.fn e.code e.bound ++ (footprint sg script ds ρ.depth e.fn e.code e.bound e.fs0.content).srcs,
        Alive s.db e.fn e.bound y) →
      ∀ x ∈ (footprint sg script ds ρ.depth e.fn e.code e.bound e.fs0.content).writes,
        (∀ id p, s.inflight.get? id = some p → ρ.owner x ≠ some (p.fn, p.bound)) →
        s.env.fs.content x = e.fs1.content x ∨ s.env.fs x = none)
  ext : ∀ x ∈ e.ext, (ρ.keep x ∧ (s.env.fs.content x).isSome) ∨ x ∈ sg.srcs e.fn e.code e.bound

/-- the state changes, but not the files (as far as they are claimed) -/
theorem EntryOk.mono {sg : Sig B R} {script : Script B R} {ρ : Layout B} {s s' : Sys B R} {e : Exec B R}
    (h : EntryOk sg script ρ s e) (hfs : s'.env.fs = s.env.fs)
    (hal : ∀ y, Alive s'.db e.fn e.bound y → Alive s.db e.fn e.bound y)
    (hin : ∀ id p, s.inflight.get? id = some p → ∃ id, s'.inflight.get? id = some p) : EntryOk sg script ρ s' e := by
  obtain ⟨h1, ⟨ds, w, h2, h3, h4, hW, hI, h5, h6, h7⟩, h8⟩ := h
  refine ⟨h1, ⟨ds, w, h2, h3, h4, hW, hI, h5, h6, ?_⟩, by rw [hfs]; exact h8⟩
  intro ha x hx hi
  rw [hfs]
  refine h7 (fun y hy => hal y (ha y hy)) x hx ?_
  intro id p hp
  obtain ⟨id', hp'⟩ := hin id p hp
  exact hi id' p hp'

structure Good (sg : Sig B R) (script : Script B R) (ρ : Layout B) (vers : FileName → Nat → Option Content)
    (m : Mach B R) : Prop where
  hist : History sg vers false m.trace m.sys
  ds : ρ.Respects m.sys.env.funDigest
  lim : ρ.depth ≤ m.sys.env.recursionLimit
  md5 : ∀ c c', m.sys.env.md5 c = m.sys.env.md5 c' → c = c'
  recs : ∀ f d deps, m.sys.db.functions.get? f = some (d, deps) →
    ∀ g ∈ deps, g = f ∨ ((ρ.lib g).isSome ∧ ρ.rank g < ρ.rank f)
  next : ∀ id p, m.sys.inflight.get? id = some p → id < m.next
  entries : ∀ pre e post, m.sys.log = pre ++ e :: post → (∀ e' ∈ pre, ¬ (e'.fn = e.fn ∧ e'.bound = e.bound)) →
    EntryOk sg script ρ m.sys e
  plain : ∀ x k, ρ.owner x = some k → m.sys.env.fs x = none ∨ (m.sys.env.fs.content x).isSome

variable {sg : Sig B R} {script : Script B R} {ρ : Layout B} {vers : FileName → Nat → Option Content}

theorem Good.stack {m : Mach B R} (h : Good sg script ρ vers m) (st : List (List FunName)) {n : Nat} (hn : m.next ≤ n) :
    Good sg script ρ vers { m with stack := st, next := n } :=
  ⟨h.hist, h.ds, h.lim, h.md5, h.recs, fun id p hp => Nat.lt_of_lt_of_le (h.next id p hp) hn, h.entries, h.plain⟩

/-- a change of the state that leaves files, executions and running calls alone -/
theorem Good.same {m m' : Mach B R} (h : Good sg script ρ vers m) (hist : History sg vers false m'.trace m'.sys)
    (hlog : m'.sys.log = m.sys.log) (hfs : m'.sys.env.fs = m.sys.env.fs)
    (hin : ∀ id, m'.sys.inflight.get? id = m.sys.inflight.get? id) (hds : ρ.Respects m'.sys.env.funDigest)
    (hrl : m'.sys.env.recursionLimit = m.sys.env.recursionLimit) (hmd5 : m'.sys.env.md5 = m.sys.env.md5)
    (hfun : ∀ f q, m'.sys.db.functions.get? f = some q → m.sys.db.functions.get? f = some q)
    (hal : ∀ f b y, Alive m'.sys.db f b y → Alive m.sys.db f b y)
    (hn : m.next ≤ m'.next) : Good sg script ρ vers m' where
  hist := hist
  ds := hds
  lim := by rw [hrl]; exact h.lim
  md5 := by rw [hmd5]; exact h.md5
  recs f d deps hf := h.recs f d deps (hfun f _ hf)
  next id p hp := Nat.lt_of_lt_of_le (h.next id p (by rw [← hin]; exact hp)) hn
  entries pre e post hl hpre :=
    (h.entries pre e post (by rw [← hlog]; exact hl) hpre).mono hfs (fun y => hal _ _ y)
      fun id p hp => ⟨id, by rw [hin]; exact hp⟩
  plain := by rw [hfs]; exact h.plain

theorem Good.event_hist {m : Mach B R} (h : Good sg script ρ vers m) {ev : Event B R} (ha : Allowed vers m.sys ev)
    (hc : ev.isCrash = false) : History sg vers false (m.event sg ev).2.trace (m.event sg ev).2.sys :=
  .step ev h.hist ha (by rw [hc]; simp)

theorem Good.tick {m : Mach B R} (h : Good sg script ρ vers m) (t : Nat) :
    Good sg script ρ vers (m.event sg (.tick t)).2 :=
  h.same (h.event_hist (ev := .tick t) trivial rfl) rfl rfl (fun _ => rfl) h.ds rfl rfl (fun _ _ h => h) (fun _ _ _ h => h)
    (Nat.le_refl _)

/-- a file is changed -/
theorem Good.edit {m : Mach B R} (h : Good sg script ρ vers m) (hw : WellBehaved sg script ρ) (x : FileName)
    (st : Option FState)
    (hv : ∀ f, st = some f → vers x f.mtime = f.content) (hk : ρ.keep x → (st.bind (·.content)).isSome)
    (ho : ρ.owner x = none ∨ st = none ∨
      ((st.bind (·.content)).isSome ∧ ((∃ id p, m.sys.inflight.get? id = some p ∧ ρ.owner x = some (p.fn, p.bound)) ∨
        ∃ f b, ρ.owner x = some (f, b) ∧ ρ.Lacks sg m.sys.db f b))) :
    Good sg script ρ vers (m.event sg (.edit x st)).2 where
  hist := h.event_hist (ev := .edit x st) hv rfl
  ds := h.ds
  lim := h.lim
  md5 := h.md5
  recs := h.recs
  next := h.next
  entries pre e post hl hpre := by
    obtain ⟨h1, ⟨ds, w, h2, h3, h4, hW, hI, h5, h6, h7⟩, h8⟩ := h.entries pre e post hl hpre
    refine ⟨h1, ⟨ds, w, h2, h3, h4, hW, hI, h5, h6, ?_⟩, ?_⟩
    · intro ha y hy hid
      simp only [Mach.event, step, FS.content]
      split
      · rename_i hxy
        subst hxy
        have hown : ρ.owner y ≠ none := by
          rcases trail_owner (clean_frames hw h2 _) _ (hw.body _ _ _ (h2.code h3)) _ hy with h | ⟨_, _, _, _, h⟩ <;>
            (rw [h]; simp)
        rcases ho with ho | ho | ⟨_, ⟨id, p, hp, ho⟩ | ⟨f, b, ho, z, hz, hdead⟩⟩
        · exact absurd ho hown
        · right; exact ho
        · exact absurd ho (hid id p hp)
        · exfalso
          rcases trail_leaf (clean_frames hw h2 _) (hw.body _ _ _ (h2.code h3)) hy with h | ⟨g, c, code, hg, h, hsub⟩
          · rw [ho] at h
            cases h
            have hz' := ha z (List.mem_append_left _ (hz _))
            rcases hdead with hd | ⟨_, hd⟩
            · obtain ⟨_, _, _, d, _, _, _, t, ht⟩ := hz'
              simp only [Mach.event, step] at ht
              rw [hd] at ht
              cases ht
            · exact hd hz'
          · rw [ho] at h
            cases h
            rcases hdead with hd | ⟨hd, _⟩
            · obtain ⟨_, _, _, d, _, _, _, t, ht⟩ := ha z (List.mem_append_right _ (hsub z (hz _)))
              simp only [Mach.event, step] at ht
              rw [hd] at ht
              cases ht
            · exact hd hg
      · exact h7 ha y hy hid
    · intro y hy
      rcases h8 y hy with h9 | h9
      · left
        refine ⟨h9.1, ?_⟩
        simp only [Mach.event, step, FS.content]
        split
        · rename_i hxy; subst hxy; exact hk h9.1
        · exact h9.2
      · exact .inr h9
  plain y k hy := by
    simp only [Mach.event, step, FS.content]
    split
    · rename_i hxy
      subst hxy
      rcases ho with ho | ho | ⟨ho, _⟩
      · rw [hy] at ho; cases ho
      · left; exact ho
      · right; exact ho
    · exact h.plain y k hy

theorem writeFile_files (clk : Nat → Nat) (x : FileName) (c : Option Content) (m : Mach B R) :
    (m.writeFile sg clk x c).files = setFile x c m.files := by
  funext y
  simp only [Mach.files, Mach.writeFile, Mach.event, step, FS.content, setFile]
  split
  · cases c <;> rfl
  · rfl

theorem Good.write {m : Mach B R} (h : Good sg script ρ vers m) (hw : WellBehaved sg script ρ) (clk : Nat → Nat)
    (x : FileName) (c : Option Content) (he : EditsOk vers (m.writeFile sg clk x c).trace) (hk : ρ.keep x → c.isSome)
    (ho : ρ.owner x = none ∨ c = none ∨ ∃ id p, m.sys.inflight.get? id = some p ∧ ρ.owner x = some (p.fn, p.bound)) :
    Good sg script ρ vers (m.writeFile sg clk x c) := by
  have hb : ((c.map fun c => (⟨clk m.next, some c⟩ : FState)).bind (·.content)) = c := by cases c <;> rfl
  refine ((h.stack m.stack (Nat.le_succ _)).tick (clk m.next)).edit hw x _ ?_ (by rw [hb]; exact hk) ?_
  · intro f hf
    refine he (step sg m.sys (.tick (clk m.next))).2 x f ?_
    simp only [Mach.writeFile, Mach.event, hf]
    exact List.mem_cons_self ..
  · rcases ho with ho | ho | ho
    · exact .inl ho
    · right; left; rw [ho]; rfl
    · cases c with
      | none => right; left; rfl
      | some c => right; right; exact ⟨rfl, .inl ho⟩

/-- `check_function` does not raise -/
theorem Good.checkFunction {m : Mach B R} (h : Good sg script ρ vers m) (hw : WellBehaved sg script ρ) {f : FunName}
    {code : Digest} (hc : m.sys.env.funDigest f = some code) :
    ∃ q, checkFunction (storage B R) m.sys.env m.sys.db m.sys.env.recursionLimit f = .ok q := by
  have hrec : ∀ f g, RecCall (storage B R) m.sys.db f g → g = f ∨ ((ρ.lib g).isSome ∧ ρ.rank g < ρ.rank f) := by
    rintro f g ⟨fid, d, deps, hf, hg⟩
    simp only [storage, CDB.findFunction, Option.map_eq_some_iff] at hf
    obtain ⟨⟨d', deps'⟩, h1, h2⟩ := hf
    simp only [Prod.mk.injEq] at h2
    obtain ⟨_, rfl, rfl⟩ := h2
    exact h.recs f _ _ h1 g hg
  have hlib : ∀ g, (ρ.lib g).isSome → (m.sys.env.funDigest g).isSome := by
    intro g hg
    obtain ⟨d, hd⟩ := Option.isSome_iff_exists.1 hg
    rw [h.ds g d hd]; rfl
  refine checkFunction_terminates _ ρ.rank (fun f g hg hne => ((hrec f g hg).resolve_left hne).2) ?_
    (Nat.lt_of_lt_of_le (hw.rank_lt f) h.lim)
  have : ∀ f g, RecReach (storage B R) m.sys.db f g → (m.sys.env.funDigest f).isSome → (m.sys.env.funDigest g).isSome := by
    intro f g hr
    induction hr with
    | refl f => exact id
    | step hc hr ih =>
      intro hf
      rcases hrec _ _ hc with rfl | h1
      · exact ih hf
      · exact ih (hlib _ h1.1)
  intro g hg
  exact this f g hg (by rw [hc]; rfl)

theorem Good.prepare_alive {m : Mach B R} (h : Good sg script ρ vers m) (id : Nat) (f : FunName) (b : B) (g : FunName) (c : B)
    (y : FileName) (ha : Alive (m.event sg (.prepare id f b)).2.sys.db g c y) : Alive m.sys.db g c y := by
  have hI := reach_inv h.hist.reach
  simp only [Mach.event, step, stepPrepare] at ha
  cases hcode : m.sys.env.funDigest f with
  | none => rw [hcode] at ha; exact ha
  | some code =>
    rw [hcode] at ha
    simp only at ha
    obtain ⟨hno, _⟩ := prepare_noting m.sys.env f b (sg.srcs f code b) m.sys.db vers hI.db.files hI.faithful
    rcases prepare_cases m.sys.env f b (sg.srcs f code b) m.sys.db vers hI.db.files hI.faithful with
      ⟨e, db', hp, ht, hf⟩ | ⟨p, db', hp, ht, hf, _⟩
    · rw [hp] at hno ha
      exact hno.alive ht.calls ha
    · rw [hp] at hno ha
      simp only at ha
      refine hno.alive ht.calls ?_
      split at ha <;> exact ha

/-- What `prepare` does. -/
theorem Good.prepare {m : Mach B R} (h : Good sg script ρ vers m) (hw : WellBehaved sg script ρ) (f : FunName) (b : B)
    (hid : ∀ id p, m.sys.inflight.get? id = some p → ρ.rank f ≤ ρ.rank p.fn ∧ ¬ (p.fn = f ∧ p.bound = b)) {id : Nat}
    (hi : m.next ≤ id) :
    (m.sys.env.funDigest f = none ∧ ∃ e, m.event sg (.prepare id f b) = (.raised e, (m.event sg (.prepare id f b)).2) ∧
      Good sg script ρ vers (m.event sg (.prepare id f b)).2 ∧ (m.event sg (.prepare id f b)).2.sys.log = m.sys.log ∧
      (m.event sg (.prepare id f b)).2.sys.env = m.sys.env ∧
      (m.event sg (.prepare id f b)).2.sys.inflight = m.sys.inflight) ∨
    ∃ code, m.sys.env.funDigest f = some code ∧ (m.event sg (.prepare id f b)).2.sys.log = m.sys.log ∧
      (m.event sg (.prepare id f b)).2.sys.env = m.sys.env ∧
      ((∃ e, m.event sg (.prepare id f b) = (.raised e, (m.event sg (.prepare id f b)).2) ∧
          (∃ x ∈ sg.srcs f code b, m.files x = none) ∧ Good sg script ρ vers (m.event sg (.prepare id f b)).2 ∧
          (m.event sg (.prepare id f b)).2.sys.inflight = m.sys.inflight) ∨
       (∃ r, m.event sg (.prepare id f b) = (.hit r, (m.event sg (.prepare id f b)).2) ∧
          Good sg script ρ vers (m.event sg (.prepare id f b)).2 ∧
          (m.event sg (.prepare id f b)).2.sys.inflight = m.sys.inflight) ∨
       (m.event sg (.prepare id f b) = (.run, (m.event sg (.prepare id f b)).2) ∧
          (∀ x ∈ sg.srcs f code b, (m.files x).isSome) ∧
          Good sg script ρ vers { (m.event sg (.prepare id f b)).2 with next := id + 1 } ∧
          ∃ p, (m.event sg (.prepare id f b)).2.sys.inflight = m.sys.inflight.set id p ∧ p.fn = f ∧ p.bound = b ∧
            p.code = code ∧ p.fs0 = m.sys.env.fs ∧ p.start = m.sys.log.length ∧
            ∀ x ∈ sg.srcs f code b, Noted m.sys.env (m.event sg (.prepare id f b)).2.sys.db x)) := by
  have hI := reach_inv h.hist.reach
  have ha : Allowed vers m.sys (.prepare id f b) := by
    refine ⟨?_, ?_⟩
    · cases hg : m.sys.inflight.get? id with
      | none => rfl
      | some p => have := h.next id p hg; omega
    · exact fun id' p hp => (hid id' p hp).2
  have hhist := h.event_hist ha rfl
  cases hcode : m.sys.env.funDigest f with
  | none =>
    left
    have hs : step sg m.sys (.prepare id f b) = (.raised (.key f), m.sys) := by simp only [step, stepPrepare, hcode]
    refine ⟨rfl, .key f, by simp [Mach.event, hs], ?_, by simp [Mach.event, hs], by simp [Mach.event, hs],
      by simp [Mach.event, hs]⟩
    refine h.same hhist ?_ ?_ ?_ ?_ ?_ ?_ ?_ ?_ (Nat.le_refl _) <;> simp [Mach.event, hs, h.ds]
  | some code =>
    right
    refine ⟨code, rfl, ?_⟩
    obtain ⟨⟨dirty, fid⟩, hcf⟩ := h.checkFunction hw hcode
    obtain ⟨hno, hnoted⟩ := prepare_noting m.sys.env f b (sg.srcs f code b) m.sys.db vers hI.db.files hI.faithful
    rcases prepare_cases m.sys.env f b (sg.srcs f code b) m.sys.db vers hI.db.files hI.faithful with
      ⟨e, db', hp, ht, hf⟩ | ⟨p, db', hp, ht, hf, hcf', hdig, hsrc, hd1, hd2, hd3⟩
    · have hs : step sg m.sys (.prepare id f b) = (.raised e, { m.sys with db := db' }) := by
        simp only [step, stepPrepare, hcode, hp]
      refine ⟨by simp [Mach.event, hs], by simp [Mach.event, hs], .inl ⟨e, by simp [Mach.event, hs], ?_, ?_,
        by simp [Mach.event, hs]⟩⟩
      · unfold DB.prepare at hp
        rw [hcf] at hp
        simp only at hp
        rcases checkCallFiles_cases m.sys.env ((lookupCall (storage B R) dirty fid b m.sys.db).map Prod.fst)
          (sg.srcs f code b) m.sys.db vers hI.db.files hI.faithful with ⟨e', db1, h1, ⟨x, hx, hxc⟩, _⟩ | ⟨L, db1, h1, _⟩
        · exact ⟨x, hx, hxc⟩
        · rw [h1] at hp
          simp only at hp
          split at hp <;> simp at hp
      · rw [hp] at hno
        refine h.same hhist ?_ ?_ ?_ ?_ ?_ ?_ ?_ ?_ (Nat.le_refl _) <;> simp [Mach.event, hs, h.ds]
        · simp only [ht.functions]
          exact fun _ _ _ h => h
        · exact fun _ _ _ => hno.alive ht.calls
    · cases hh : hit m.sys.env (sg.dsts f code b) (sg.returnDsts f code) p with
      | some r =>
        have hs : step sg m.sys (.prepare id f b) = (.hit r, { m.sys with db := db' }) := by
          simp only [step, stepPrepare, hcode, hp, hh]
        refine ⟨by simp [Mach.event, hs], by simp [Mach.event, hs], .inr (.inl ⟨r, by simp [Mach.event, hs], ?_,
          by simp [Mach.event, hs]⟩)⟩
        rw [hp] at hno
        refine h.same hhist ?_ ?_ ?_ ?_ ?_ ?_ ?_ ?_ (Nat.le_refl _) <;> simp [Mach.event, hs, h.ds]
        · simp only [ht.functions]
          exact fun _ _ _ h => h
        · exact fun _ _ _ => hno.alive ht.calls
      | none =>
        have hs : step sg m.sys (.prepare id f b) = (.run, { m.sys with
            db := db'
            inflight := m.sys.inflight.set id ⟨f, code, b, p, m.sys.env.fs, m.sys.log.length⟩ }) := by
          simp only [step, stepPrepare, hcode, hp, hh]
        refine ⟨by simp [Mach.event, hs], by simp [Mach.event, hs], .inr (.inr ⟨by simp [Mach.event, hs], ?_, ?_,
          ⟨f, code, b, p, m.sys.env.fs, m.sys.log.length⟩, by simp [Mach.event, hs], rfl, rfl, rfl, rfl, rfl, ?_⟩)⟩
        rotate_left 2
        · intro x hx
          rw [hp] at hnoted
          simp only [Mach.event, hs]
          exact (hnoted p rfl).1 x hx
        · intro x hx
          obtain ⟨c, hc, _⟩ := hsrc x hx
          simp [Mach.files, hc]
        · refine ⟨hhist, by simpa [Mach.event, hs] using h.ds, by simpa [Mach.event, hs] using h.lim,
            by simpa [Mach.event, hs] using h.md5, ?_, ?_, ?_, by simpa [Mach.event, hs] using h.plain⟩
          · intro g d deps hg
            simp only [Mach.event, hs] at hg
            rw [ht.functions] at hg
            exact h.recs g d deps hg
          · intro id' p' hp'
            simp only [Mach.event, hs, Dict.get?_set] at hp' ⊢
            split at hp'
            · omega
            · have := h.next id' p' hp'; omega
          · intro pre e post hl hpre
            simp only [Mach.event, hs] at hl ⊢
            rw [hp] at hno
            refine (h.entries pre e post hl hpre).mono rfl (fun y => hno.alive ht.calls) ?_
            intro id' p' hp'
            refine ⟨id', ?_⟩
            simp only [Dict.get?_set]
            split
            · rename_i heq
              subst heq
              have := h.next id p' hp'
              omega
            · exact hp'

/-- What a caller that reports the files of a call reports. -/
structure FilesOk (ρ : Layout B) (T : Trail) (rep : Reports) (fs : Files) : Prop where
  srcs : ∀ x ∈ T.srcs, x ∈ rep.srcs
  dsts : ∀ x ∈ T.dsts, x ∈ rep.dsts
  back : ∀ x ∈ rep.srcs, x ∈ T.srcs ∨ (ρ.keep x ∧ (fs x).isSome)

/-- the run behind an entry -/
theorem EntryOk.frame (hw : WellBehaved sg script ρ) {e : Exec B R} {ds : FunName → Option Digest} (h1 : ρ.Respects ds)
    (h2 : ds e.fn = some e.code)
    {w : Files} (h3 : cleanCall sg script ds ρ.depth e.fn e.bound e.fs0.content = (some e.result, w))
    (hI : ∀ x ∈ sg.srcs e.fn e.code e.bound ++ (footprint sg script ds ρ.depth e.fn e.code e.bound e.fs0.content).srcs,
      e.fs1.content x = e.fs0.content x) :
    (∀ x, x ∉ (footprint sg script ds ρ.depth e.fn e.code e.bound e.fs0.content).writes → w x = e.fs0.content x) ∧
    ∀ x ∈ sg.srcs e.fn e.code e.bound ++ (footprint sg script ds ρ.depth e.fn e.code e.bound e.fs0.content).srcs,
      (e.view x).content x = e.fs0.content x ∧ e.fs1.content x = e.fs0.content x := by
  have hrun : cleanProg (cleanCall sg script ds ρ.depth) (script e.fn e.code e.bound) e.fs0.content =
      (some e.result, w) := by
    rw [cleanCall_unfold hw h1 h2] at h3
    split at h3
    · exact h3
    · simp at h3
  have hframe : ∀ x, x ∉ (footprint sg script ds ρ.depth e.fn e.code e.bound e.fs0.content).writes →
      w x = e.fs0.content x := by
    intro x hx
    have := cleanProg_frame (clean_frames hw h1 _) _ (hw.body e.fn e.code e.bound (h1.code h2)) _ hx
    rw [hrun] at this
    exact this
  refine ⟨hframe, fun x hx => ?_⟩
  have hf := hI x hx
  refine ⟨?_, hf⟩
  rw [Exec.view]
  split
  · exact hf
  · rfl

/-- A call answered from the database would do nothing and return the same value. -/
theorem Good.hit {m : Mach B R} (h : Good sg script ρ vers m) (hw : WellBehaved sg script ρ) (f : FunName) (b : B)
    (hid : ∀ id p, m.sys.inflight.get? id = some p → ρ.rank f ≤ ρ.rank p.fn ∧ ¬ (p.fn = f ∧ p.bound = b)) {id : Nat} {r : R}
    (hh : (step sg m.sys (.prepare id f b)).1 = .hit r) :
    cleanCall sg script m.sys.env.funDigest ρ.depth f b m.files = (some r, m.files) ∧
      (ρ.leaf f → FilesOk ρ (leafTrail sg script m.sys.env.funDigest (cleanCall sg script m.sys.env.funDigest ρ.depth) f b m.files)
        (callFiles sg f b r (m.event sg (.prepare id f b)).2) m.files) := by
  obtain ⟨code', pre', e', post', i, a1, a2, a3, a4, a5, a6, a7, a8, a9, a10⟩ :=
    hit_alive (reach_inv h.hist.reach) id f b r hh
  obtain ⟨e, he, rfl, rfl, rfl, hcode, hsrc, hext, hdst, hlast⟩ := hit_log h.hist.reach id f b r hh
  obtain ⟨pre, post, hlog, hpre⟩ := hlast rfl
  have hpre' : ∀ e' ∈ pre, ¬ (e'.fn = e.fn ∧ e'.bound = e.bound) := fun e' he' hc => (hpre e' he' hc.1).1 hc.2
  have heq : e = e' := latest_unique (P := fun a => a.fn = e.fn ∧ a.bound = e.bound) hlog a2 ⟨rfl, rfl⟩ ⟨a3, a4⟩ hpre' a5
  subst heq
  rw [hcode] at a1
  cases a1
  obtain ⟨hok, ⟨ds, w, h1, h2, h3, hW, hI, h4, h5, h6⟩, h7⟩ := h.entries pre e post hlog hpre'
  have hb := hw.body e.fn e.code e.bound (h1.code h2)
  obtain ⟨hframe, hview⟩ := EntryOk.frame hw h1 h2 h3 hI
  have hread : ∀ x ∈ e.ext, (m.sys.env.fs.content x).isSome := by
    intro x hx
    rcases h7 x hx with h8 | h8
    · exact h8.2
    · exact (a6 x h8).1
  -- the sources are as they were
  have hagree : ∀ x ∈ sg.srcs e.fn e.code e.bound ++
      (footprint sg script ds ρ.depth e.fn e.code e.bound e.fs0.content).srcs, m.files x = e.fs0.content x := by
    intro x hx
    obtain ⟨hv1, hf⟩ := hview x hx
    rcases List.mem_append.1 hx with hx' | hx'
    · obtain ⟨c, c', k1, k2, k3⟩ := hsrc x hx'
      rw [h.md5 c c' k3] at k1
      rw [Mach.files, k1, ← k2, hv1]
    · have hxe := h4 x hx'
      obtain ⟨c, hc⟩ := Option.isSome_iff_exists.1 (hread x hxe)
      obtain ⟨c', k2, k3⟩ := hext hok x hxe c hc
      rw [Mach.files, hc, ← hf, k2, h.md5 c c' k3]
  have halive : ∀ x ∈ sg.srcs e.fn e.code e.bound ++
      (footprint sg script ds ρ.depth e.fn e.code e.bound e.fs0.content).srcs, Alive m.sys.db e.fn e.bound x := by
    intro x hx
    rcases List.mem_append.1 hx with hx' | hx'
    · exact (a6 x hx').2
    · exact a7 x (h4 x hx') (hread x (h4 x hx'))
  obtain ⟨fs3, h8, h9⟩ := hw.covered ds e.fn e.bound e.code _ _ _ h1 h2 h3 m.files hagree
  have hout := hw.outputs ds e.fn e.bound e.code _ _ _ h1 h2 h3
  have hsame : fs3 = m.files := by
    funext x
    by_cases hx : x ∈ (footprint sg script ds ρ.depth e.fn e.code e.bound m.files).writes
    · obtain ⟨h10, h11⟩ := h9 x hx
      rw [h11, hW x h10]
      have hex : (m.sys.env.fs x).isSome := by
        apply hdst
        have := hout x h10
        simp only [List.mem_append] at this ⊢
        rcases this with (this | this) | this
        · exact .inl (.inl this)
        · exact .inl (.inr this)
        · exact .inr (h5 x this)
      have hnin : ∀ id p, m.sys.inflight.get? id = some p → ρ.owner x ≠ some (p.fn, p.bound) := by
        intro id p hp ho
        have h13 := hid id p hp
        rcases trail_owner (clean_frames hw h1 _) _ hb _ h10 with h12 | ⟨g, c, _, h14, h12⟩
        · rw [ho] at h12
          simp only [Option.some.injEq, Prod.mk.injEq] at h12
          exact h13.2 h12
        · rw [ho] at h12
          simp only [Option.some.injEq, Prod.mk.injEq] at h12
          rw [h12.1] at h13
          omega
      rcases h6 halive x h10 hnin with h12 | h12
      · rw [Mach.files, h12]
      · rw [h12] at hex; cases hex
    · have := cleanProg_frame (clean_frames hw h1 _) _ hb _ hx
      rw [cleanCall_unfold hw h1 h2] at h8
      split at h8
      · rw [h8] at this; exact this
      · simp at h8
  have hfin : cleanCall sg script m.sys.env.funDigest ρ.depth e.fn e.bound m.files = (some e.result, m.files) := by
    rw [cleanCall_eq hw h.ds h1 (hw.rank_lt _) (hw.rank_lt _) (by rw [hcode, h2]), h8, hsame]
  refine ⟨hfin, fun hleaf => ?_⟩
  have hcf : callFiles sg e.fn e.bound e.result (m.event sg (.prepare id e.fn e.bound)).2 =
      ⟨sg.srcs e.fn e.code e.bound ++ e.ext,
        sg.returnDsts e.fn e.code e.result ++ sg.dsts e.fn e.code e.bound ++ e.extDsts⟩ := by
    unfold callFiles
    have henv : (m.event sg (.prepare id e.fn e.bound)).2.sys.env.funDigest = m.sys.env.funDigest := by
      simp only [Mach.event, step, stepPrepare]
      split
      · rfl
      · split
        · rfl
        · split <;> rfl
    have hst : (m.event sg (.prepare id e.fn e.bound)).2.sys = (step sg m.sys (.prepare id e.fn e.bound)).2 := rfl
    rw [henv, hcode, hst]
    simp only
    rw [a8]
    simp only
    rw [a9, a10]
  rw [hcf, leafTrail_foot hw h.ds hleaf hcode (r := e.result) (by rw [hfin]), trail_eq hw h.ds h1 hcode]
  obtain ⟨t1, t2⟩ := hw.leaf_trail ds e.fn e.bound e.code _ _ _ h1 h2 hleaf h3 m.files hagree
  refine ⟨?_, ?_, ?_⟩
  · intro x hx
    simp only [Trail.add, List.mem_append] at hx ⊢
    rcases hx with hx | hx
    · exact .inl hx
    · exact .inr (h4 x (t1 x hx))
  · intro x hx
    simp only [Trail.add, List.mem_append] at hx ⊢
    rcases hx with hx | hx
    · exact .inl hx
    · exact .inr (h5 x (t2 x hx))
  · intro x hx
    simp only [Trail.add, List.mem_append] at hx ⊢
    rcases hx with hx | hx
    · exact .inl (.inl hx)
    · rcases h7 x hx with h8 | h8
      · exact .inr h8
      · exact .inl (.inl h8)

/-- the function of a call raised -/
theorem Good.fail {m : Mach B R} (h : Good sg script ρ vers m) {id : Nat} {p : Pending B R}
    (hp : m.sys.inflight.get? id = some p)
    (he : ∀ pre e post, m.sys.log = pre ++ e :: post → (∀ e' ∈ pre, ¬ (e'.fn = e.fn ∧ e'.bound = e.bound)) →
      ∀ ds, ρ.Respects ds → ds e.fn = some e.code →
      (∀ y ∈ sg.srcs e.fn e.code e.bound ++ (footprint sg script ds ρ.depth e.fn e.code e.bound e.fs0.content).srcs,
        Alive m.sys.db e.fn e.bound y) →
      ∀ x ∈ (footprint sg script ds ρ.depth e.fn e.code e.bound e.fs0.content).writes, ρ.owner x = some (p.fn, p.bound) →
      m.sys.env.fs.content x = e.fs1.content x ∨ m.sys.env.fs x = none) :
    Good sg script ρ vers (m.event sg (.fail id)).2 where
  hist := h.event_hist (ev := .fail id) trivial rfl
  ds := h.ds
  lim := h.lim
  md5 := h.md5
  recs := h.recs
  next id' p' hp' := by
    simp only [Mach.event, step, Dict.get?_erase] at hp'
    split at hp'
    · cases hp'
    · exact h.next id' p' hp'
  entries pre e post hl hpre := by
    obtain ⟨h1, ⟨ds, w, h2, h3, h4, hW, hI, h5, h6, h7⟩, h8⟩ := h.entries pre e post hl hpre
    refine ⟨h1, ⟨ds, w, h2, h3, h4, hW, hI, h5, h6, ?_⟩, h8⟩
    intro ha x hx hid
    by_cases hep : ρ.owner x = some (p.fn, p.bound)
    · exact he pre e post hl hpre ds h2 h3 ha x hx hep
    · refine h7 ha x hx ?_
      intro id' p' hp' hc
      by_cases hi : id' = id
      · subst hi
        rw [hp] at hp'
        cases hp'
        exact hep hc
      · refine hid id' p' ?_ hc
        simp only [Mach.event, step, Dict.get?_erase]
        rw [if_neg (fun h => hi h.symm)]
        exact hp'
  plain := h.plain

/-- the function of a call returned; other calls may have been stored in the meantime -/
theorem Good.complete' {m : Mach B R} (h : Good sg script ρ vers m) (hw : WellBehaved sg script ρ) {id : Nat} {p : Pending B R}
    (hp : m.sys.inflight.get? id = some p)
    (hsince : p.prep.found.isSome → ∀ e ∈ m.sys.log.take (m.sys.log.length - p.start), e.fn = p.fn → e.dirty = false)
    {deps : List FunName}
    (hdeps : ∀ g ∈ deps, g = p.fn ∨ ((ρ.lib g).isSome ∧ ρ.rank g < ρ.rank p.fn)) {ext extDsts : List FileName}
    (hext : ∀ x ∈ ext, (ρ.keep x ∨ x ∈ sg.srcs p.fn p.code p.bound) ∧ (m.files x).isSome) {r : R}
    {w : Files} (hclean : cleanCall sg script m.sys.env.funDigest ρ.depth p.fn p.bound p.fs0.content = (some r, w))
    (hW : ∀ x ∈ (footprint sg script m.sys.env.funDigest ρ.depth p.fn p.code p.bound p.fs0.content).writes, w x = m.files x)
    (hpf : ∀ x ∈ sg.srcs p.fn p.code p.bound ++
      (footprint sg script m.sys.env.funDigest ρ.depth p.fn p.code p.bound p.fs0.content).srcs, m.files x = p.fs0.content x)
    (hsrcs : ∀ x ∈ (footprint sg script m.sys.env.funDigest ρ.depth p.fn p.code p.bound p.fs0.content).srcs, x ∈ ext)
    (hdsts : ∀ x ∈ (footprint sg script m.sys.env.funDigest ρ.depth p.fn p.code p.bound p.fs0.content).dsts, x ∈ extDsts)
    (hleafn : ρ.leaf p.fn → ∀ y ∈ sg.srcs p.fn p.code p.bound, ∃ t c, p.fs0.content y = some c ∧
      m.sys.db.files.get? y = some (t, m.sys.env.md5 c)) :
    (m.event sg (.complete id r deps ext extDsts)).1 = .done ∧
      Good sg script ρ vers (m.event sg (.complete id r deps ext extDsts)).2 ∧
      (m.event sg (.complete id r deps ext extDsts)).2.sys.env = m.sys.env ∧
      (m.event sg (.complete id r deps ext extDsts)).2.sys.inflight = m.sys.inflight.erase id ∧
      (∃ e, (m.event sg (.complete id r deps ext extDsts)).2.sys.log = e :: m.sys.log ∧ e.fn = p.fn ∧ e.bound = p.bound) ∧
      (∀ g c y, ¬ (g = p.fn ∧ c = p.bound) → Alive (m.event sg (.complete id r deps ext extDsts)).2.sys.db g c y →
        Alive m.sys.db g c y) ∧
      ∃ i, CDB.findCall p.fn p.bound (m.event sg (.complete id r deps ext extDsts)).2.sys.db = some ((p.fn, i), r) ∧
        findExt (m.event sg (.complete id r deps ext extDsts)).2.sys.db.externalSrcs (p.fn, i) = ext ∧
        findExt (m.event sg (.complete id r deps ext extDsts)).2.sys.db.externalDsts (p.fn, i) = extDsts := by
  have hI := reach_inv h.hist.reach
  have hP := hI.pending id p hp
  have ha : Allowed vers m.sys (.complete id r deps ext extDsts) := by
    intro p' hp' hfound e he hc
    rw [hp] at hp'
    cases hp'
    exact hsince hfound e he hc
  have hal : p.prep.found.isSome → ¬ DirtySince p m.sys.log := by
    rintro hfound ⟨e, he, h1, h2⟩
    rw [hsince hfound e he h1] at h2
    cases h2
  obtain ⟨ok, out, hout, hok, hinv, hc, hfalse, htrue⟩ := complete_inv hI.db hP hI.faithful hal r deps ext extDsts
  obtain ⟨hca, hcn, hce⟩ := cache_alive m.sys.env p.fn p.code p.prep.funDirty p.prep.funId deps (p.prep.found.map Prod.fst)
    p.bound r p.prep.callFileDigests ext extDsts m.sys.db vers hI.db.files hI.faithful hI.db.nd (fun hd => (hP.clean hd).1) hout
  have hokt : ok = true := by
    cases ok with
    | true => rfl
    | false =>
      obtain ⟨x, hx, hxn⟩ := hfalse rfl
      have := (hext x hx).2
      rw [Mach.files, hxn] at this
      cases this
  subst hokt
  obtain ⟨o1, db1⟩ := out
  have ho : o1 = .ok () := hok.2 rfl
  subst ho
  have hs : step sg m.sys (.complete id r deps ext extDsts) = (.done, { m.sys with
      db := db1
      inflight := m.sys.inflight.erase id
      log := ⟨p.fn, p.code, p.bound, r, p.prep.funDirty, p.fs0, m.sys.env.fs, deps, ext, extDsts, true⟩ :: m.sys.log }) := by
    simp only [step, stepComplete, hp, hout]
  refine ⟨by simp [Mach.event, hs], ?_, by simp [Mach.event, hs], by simp [Mach.event, hs],
    ⟨⟨p.fn, p.code, p.bound, r, p.prep.funDirty, p.fs0, m.sys.env.fs, deps, ext, extDsts, true⟩, by simp [Mach.event, hs], rfl,
      rfl⟩, ?_, ?_⟩
  rotate_left
  · intro g c y hne hy
    simp only [Mach.event, hs] at hy
    exact hca g c y hne hy
  · obtain ⟨i, datas, k1, k2, k3, k4, _⟩ := htrue rfl
    refine ⟨i, ?_, ?_, ?_⟩
    · simp only [Mach.event, hs]
      exact findCall_unique k1 k2 fun j r' hj => hinv.distinct p.fn datas j i p.bound r' r k1 hj k2
    · simp only [Mach.event, hs]; exact k3
    · simp only [Mach.event, hs]; exact k4
  refine ⟨h.event_hist ha rfl, by simpa [Mach.event, hs] using h.ds, by simpa [Mach.event, hs] using h.lim,
    by simpa [Mach.event, hs] using h.md5, ?_, ?_, ?_, by simpa [Mach.event, hs] using h.plain⟩
  · intro g d ds hg
    simp only [Mach.event, hs] at hg
    by_cases hgp : g = p.fn
    · subst hgp
      cases hd : p.prep.funDirty with
      | true =>
        rw [hc.fun_dirty hd] at hg
        cases hg
        exact hdeps
      | false =>
        rw [hc.fun_clean hd] at hg
        exact h.recs _ d ds hg
    · rw [hc.fun_ne g hgp] at hg
      exact h.recs g d ds hg
  · intro id' p' hp'
    simp only [Mach.event, hs, Dict.get?_erase] at hp' ⊢
    split at hp'
    · cases hp'
    · exact h.next id' p' hp'
  · intro pre e post hl hpre
    simp only [Mach.event, hs] at hl ⊢
    cases hpc : pre with
    | nil =>
      subst hpc
      simp only [List.nil_append, List.cons.injEq] at hl
      obtain ⟨rfl, _⟩ := hl
      refine ⟨rfl, ⟨m.sys.env.funDigest, w, h.ds, hP.code, hclean, hW, hpf, hsrcs, hdsts, fun _ x _ _ => .inl rfl⟩, ?_⟩
      intro x hx
      obtain ⟨h1, h2⟩ := hext x hx
      rcases h1 with h1 | h1
      · exact .inl ⟨h1, h2⟩
      · exact .inr h1
    | cons e0 pre0 =>
      have hne : ¬ (e.fn = p.fn ∧ e.bound = p.bound) := by
        subst hpc
        simp only [List.cons_append, List.cons.injEq] at hl
        obtain ⟨rfl, hl⟩ := hl
        exact fun hc => hpre _ (List.mem_cons_self ..) ⟨hc.1.symm, hc.2.symm⟩
      have hl0 : m.sys.log = pre0 ++ e :: post := by
        subst hpc
        simp only [List.cons_append, List.cons.injEq] at hl
        exact hl.2
      obtain ⟨h1, ⟨ds, w', h2, h3, h4, hW', hI', h5, h6, h7⟩, h8⟩ := h.entries pre0 e post hl0
        (fun e' he' => hpre e' (by rw [hpc]; exact List.mem_cons_of_mem _ he'))
      refine ⟨h1, ⟨ds, w', h2, h3, h4, hW', hI', h5, h6, ?_⟩, h8⟩
      intro hal' x hx hid
      by_cases hown : ρ.owner x = some (p.fn, p.bound)
      · -- a file that this call wrote: it must be a leaf, and has written the same again
        have hal1 : ∀ y ∈ sg.srcs e.fn e.code e.bound ++
            (footprint sg script ds ρ.depth e.fn e.code e.bound e.fs0.content).srcs, Alive db1 e.fn e.bound y := hal'
        obtain ⟨hframe, hview⟩ := EntryOk.frame hw h2 h3 h4 hI'
        have hrun : cleanProg (cleanCall sg script ds ρ.depth) (script e.fn e.code e.bound) e.fs0.content =
            (some e.result, w') := by
          have := h4
          rw [cleanCall_unfold hw h2 h3] at this
          split at this
          · exact this
          · simp at this
        obtain ⟨fsa, q1, q2, q3, q4, q5⟩ := deep_call (clean_frames hw h2 _) _ (hw.body _ _ e.bound (h2.code h3)) _ hx hown
          (fun hc => by simp only [Prod.mk.injEq] at hc; exact hne ⟨hc.1.symm, hc.2.symm⟩)
        rw [hrun] at q3
        simp only at q3
        have hdp : ds p.fn = some p.code := by rw [← h.ds.lib h2 (hw.leaf_lib _ q1).1]; exact hP.code
        have hsome := (clean_frames hw h2 (ρ.rank p.fn + 1)).ok p.fn (Nat.lt_succ_self _) q1 p.bound fsa x q2
        obtain ⟨ra, hra⟩ := Option.isSome_iff_exists.1 hsome
        have hcla : cleanCall sg script ds ρ.depth p.fn p.bound fsa =
            (some ra, (cleanCall sg script ds ρ.depth p.fn p.bound fsa).2) := Prod.ext hra rfl
        have hclp : cleanCall sg script ds ρ.depth p.fn p.bound p.fs0.content = (some r, w) := by
          rw [cleanCall_eq hw h2 h.ds (hw.rank_lt _) (hw.rank_lt _) (by rw [hdp]; exact hP.code.symm)]; exact hclean
        have htr : footprint sg script ds ρ.depth p.fn p.code p.bound p.fs0.content =
            footprint sg script m.sys.env.funDigest ρ.depth p.fn p.code p.bound p.fs0.content := trail_eq hw h2 h.ds hdp _ _
        rw [leafTrail_foot hw h2 q1 hdp hra] at q2 q4
        simp only [Trail.add, List.nil_append] at q2 q4
        -- the sources that both runs have are the same
        have hcommon : ∀ y ∈ sg.srcs p.fn p.code p.bound ++
            (footprint sg script ds ρ.depth p.fn p.code p.bound p.fs0.content).srcs,
            y ∈ sg.srcs p.fn p.code p.bound ++ (footprint sg script ds ρ.depth p.fn p.code p.bound fsa).srcs →
            fsa y = p.fs0.content y := by
          intro y hy' hy
          have hyt := q4 y hy
          have hye := List.mem_append_right (sg.srcs e.fn e.code e.bound) hyt
          obtain ⟨v1, v2⟩ := hview y hye
          have hni := hw.inputs ds e.fn e.bound e.code _ _ _ h2 h3 h4 y hye
          rw [q5 y hni]
          obtain ⟨t, c, k1, k2⟩ := alive_view (env := m.sys.env) hinv (pre := pre) (e := e) (post := post) hl hpre
            (.inr ⟨h1, h5 y hyt⟩) (hal1 y hye)
          have hnot : ∃ t c, p.fs0.content y = some c ∧ db1.files.get? y = some (t, m.sys.env.md5 c) := by
            rw [htr] at hy'
            have hyp := hpf y hy'
            rcases List.mem_append.1 hy' with hy1 | hy1
            · obtain ⟨t, c, k3, k4⟩ := hleafn q1 y hy1
              obtain ⟨t', c', k5, k6⟩ := hcn y ⟨t, c, by rw [← k3, ← hyp]; rfl, k4⟩
              exact ⟨t', c', by rw [← hyp]; exact k5, k6⟩
            · obtain ⟨t, c, k3, k4⟩ := hce rfl y (hsrcs y hy1)
              exact ⟨t, c, by rw [← hyp]; exact k3, k4⟩
          obtain ⟨t', c', k3, k4⟩ := hnot
          rw [k2] at k4
          simp only [Option.some.injEq, Prod.mk.injEq] at k4
          rw [k3, ← v1, k1, h.md5 _ _ k4.2]
        have hsame := hw.leaf_same ds p.fn p.bound p.code _ _ _ _ _ _ h2 hdp q1 hclp hcla hcommon
        obtain ⟨fs3, w1, w2⟩ := hw.covered ds p.fn p.bound p.code _ _ _ h2 hdp hclp fsa hsame
        left
        obtain ⟨w3, w4⟩ := w2 x q2
        rw [htr] at w3
        rw [← hW' x hx, q3, w1]
        exact ((w4.trans (hW x w3))).symm
      · refine h7 (fun y hy => hca _ _ _ hne (hal' y hy)) x hx ?_
        intro id' p' hp' hcc
        by_cases hi : id' = id
        · subst hi
          rw [hp] at hp'
          cases hp'
          exact hown hcc
        · refine hid id' p' ?_ hcc
          simp only [Dict.get?_erase]
          rw [if_neg (fun h => hi h.symm)]
          exact hp'

/-- the function of a call returned; only functions of smaller rank were stored in the meantime -/
theorem Good.complete {m : Mach B R} (h : Good sg script ρ vers m) (hw : WellBehaved sg script ρ) {id : Nat} {p : Pending B R}
    (hp : m.sys.inflight.get? id = some p) {new old : List (Exec B R)} (hlog : m.sys.log = new ++ old)
    (hstart : p.start = old.length) (hnew : ∀ e ∈ new, ρ.rank e.fn < ρ.rank p.fn) {deps : List FunName}
    (hdeps : ∀ g ∈ deps, (ρ.lib g).isSome ∧ ρ.rank g < ρ.rank p.fn) {ext extDsts : List FileName}
    (hext : ∀ x ∈ ext, (ρ.keep x ∨ x ∈ sg.srcs p.fn p.code p.bound) ∧ (m.files x).isSome) {r : R}
    (hclean : cleanCall sg script m.sys.env.funDigest ρ.depth p.fn p.bound p.fs0.content = (some r, m.files))
    (hsrcs : ∀ x ∈ (footprint sg script m.sys.env.funDigest ρ.depth p.fn p.code p.bound p.fs0.content).srcs, x ∈ ext)
    (hdsts : ∀ x ∈ (footprint sg script m.sys.env.funDigest ρ.depth p.fn p.code p.bound p.fs0.content).dsts, x ∈ extDsts)
    (hleafn : ρ.leaf p.fn → ∀ y ∈ sg.srcs p.fn p.code p.bound, ∃ t c, p.fs0.content y = some c ∧
      m.sys.db.files.get? y = some (t, m.sys.env.md5 c)) :
    (m.event sg (.complete id r deps ext extDsts)).1 = .done ∧
      Good sg script ρ vers (m.event sg (.complete id r deps ext extDsts)).2 ∧
      (m.event sg (.complete id r deps ext extDsts)).2.sys.env = m.sys.env ∧
      (m.event sg (.complete id r deps ext extDsts)).2.sys.inflight = m.sys.inflight.erase id ∧
      (∃ e, (m.event sg (.complete id r deps ext extDsts)).2.sys.log = e :: m.sys.log ∧ e.fn = p.fn ∧ e.bound = p.bound) ∧
      (∀ g c y, ¬ (g = p.fn ∧ c = p.bound) → Alive (m.event sg (.complete id r deps ext extDsts)).2.sys.db g c y →
        Alive m.sys.db g c y) ∧
      ∃ i, CDB.findCall p.fn p.bound (m.event sg (.complete id r deps ext extDsts)).2.sys.db = some ((p.fn, i), r) ∧
        findExt (m.event sg (.complete id r deps ext extDsts)).2.sys.db.externalSrcs (p.fn, i) = ext ∧
        findExt (m.event sg (.complete id r deps ext extDsts)).2.sys.db.externalDsts (p.fn, i) = extDsts := by
  have hP := (reach_inv h.hist.reach).pending id p hp
  -- the files of the call are as it found them
  have hpf : ∀ x ∈ sg.srcs p.fn p.code p.bound ++
      (footprint sg script m.sys.env.funDigest ρ.depth p.fn p.code p.bound p.fs0.content).srcs,
      m.files x = p.fs0.content x := by
    intro x hx
    have h1 := hw.inputs _ _ _ _ _ _ _ h.ds hP.code hclean x hx
    have h2 := cleanProg_frame (clean_frames hw h.ds _) _ (hw.body _ _ p.bound (h.ds.code hP.code)) _ h1
    have h3 := hclean
    rw [cleanCall_unfold hw h.ds hP.code] at h3
    split at h3
    · rw [h3] at h2; exact h2
    · simp at h3
  refine h.complete' hw hp ?_ (fun g hg => .inr (hdeps g hg)) hext hclean (fun _ _ => rfl) hpf hsrcs hdsts hleafn
  intro _ e he hc
  rw [hlog, hstart, List.length_append, Nat.add_sub_cancel, List.take_left] at he
  have := hnew e he
  rw [hc] at this
  omega

/-! ### Calls and bodies -/

/-- what the run of a call, or of the body of a function, or of a main program leaves behind -/
structure Ran (sg : Sig B R) (script : Script B R) (ρ : Layout B) (vers : FileName → Nat → Option Content)
    (bd : FunName → Prop) (m : Mach B R) (o : Outcome B R) : Prop where
  good : Good sg script ρ vers o.2.2
  inflight : ∀ id, o.2.2.sys.inflight.get? id = m.sys.inflight.get? id
  digests : o.2.2.sys.env.funDigest = m.sys.env.funDigest
  md5 : o.2.2.sys.env.md5 = m.sys.env.md5
  log : ∃ new, o.2.2.sys.log = new ++ m.sys.log ∧ (∀ e ∈ new, bd e.fn) ∧
    ∀ g c y, (∀ e ∈ new, ¬ (e.fn = g ∧ e.bound = c)) → Alive o.2.2.sys.db g c y → Alive m.sys.db g c y

theorem Ran.refl {bd : FunName → Prop} {m : Mach B R} (h : Good sg script ρ vers m) (o : Option R) (rep : Reports) :
    Ran sg script ρ vers bd m (o, rep, m) :=
  ⟨h, fun _ => rfl, rfl, rfl, [], rfl, by simp, fun _ _ _ _ h => h⟩

/-- the names on the lists of a call stack that were pushed during a call of `f` -/
def Below (ρ : Layout B) (f : FunName) (st : List (List FunName)) : Prop :=
  ∀ l ∈ st, ∀ g ∈ l, (ρ.lib g).isSome ∧ ρ.rank g < ρ.rank f

structure CallOk (sg : Sig B R) (script : Script B R) (ρ : Layout B) (vers : FileName → Nat → Option Content)
    (f : FunName) (b : B) (m : Mach B R) (o : Outcome B R) : Prop
    extends Ran sg script ρ vers (fun g => ρ.rank g ≤ ρ.rank f) m o where
  clean : (o.1, o.2.2.files) = cleanCall sg script m.sys.env.funDigest ρ.depth f b m.files
  stack : ∃ ex, o.2.2.stack = ex ++ noteCall f m.stack ∧ Below ρ f ex
  reps : (ρ.lib f).isSome → ∀ x ∈ o.2.1.srcs, (ρ.keep x ∨ (ρ.leaf f ∧ ρ.decl f b x)) ∧ (o.2.2.files x).isSome
  files : ∀ r, o.1 = some r → ρ.leaf f →
    FilesOk ρ (leafTrail sg script m.sys.env.funDigest (cleanCall sg script m.sys.env.funDigest ρ.depth) f b m.files)
      (callFiles sg f b r o.2.2) o.2.2.files

/-- what the body of a function does without a database -/
abbrev progTrail (sg : Sig B R) (script : Script B R) (ρ : Layout B) (ds : FunName → Option Digest) (p : Prog B R) (fs : Files) :
    Trail :=
  trail (cleanCall sg script ds ρ.depth) (leafTrail sg script ds (cleanCall sg script ds ρ.depth)) p fs

structure BodyOk (sg : Sig B R) (script : Script B R) (ρ : Layout B) (vers : FileName → Nat → Option Content)
    (f : FunName) (b : B) (p : Prog B R) (m : Mach B R) (o : Outcome B R) : Prop
    extends Ran sg script ρ vers (fun g => ρ.rank g < ρ.rank f) m o where
  clean : (o.1, o.2.2.files) = cleanProg (cleanCall sg script m.sys.env.funDigest ρ.depth) p m.files
  stack : ∀ ex base, m.stack = ex ++ base → ex ≠ [] → Below ρ f ex →
    ∃ ex', o.2.2.stack = ex' ++ base ∧ ex' ≠ [] ∧ Below ρ f ex'
  reps : ∀ x ∈ o.2.1.srcs, x ∈ (progTrail sg script ρ m.sys.env.funDigest p m.files).srcs ∨
    (ρ.keep x ∧ (o.2.2.files x).isSome) ∨ (ρ.lib f = none ∧ ρ.decl f b x)
  srcs : ∀ x ∈ (progTrail sg script ρ m.sys.env.funDigest p m.files).srcs, x ∈ o.2.1.srcs
  dsts : ∀ x ∈ (progTrail sg script ρ m.sys.env.funDigest p m.files).dsts, x ∈ o.2.1.dsts
  db : ρ.rank f = 0 → o.2.2.sys.db = m.sys.db

theorem EditsOk.sub {tr tr' : Trace B R} (h : EditsOk vers tr') {new : Trace B R} (e : tr' = new ++ tr) :
    EditsOk vers tr := by
  intro s x st hx
  exact h s x st (by rw [e]; exact List.mem_append_right _ hx)

theorem noteCall_append {ex : List (List FunName)} (h : ex ≠ []) (g : FunName) (base : List (List FunName)) :
    noteCall g (ex ++ base) = noteCall g ex ++ base := by
  cases ex with
  | nil => exact absurd rfl h
  | cons l ex => rfl

theorem Below.note {f g : FunName} {ex : List (List FunName)} (h : Below ρ f ex) (hg : (ρ.lib g).isSome)
    (hr : ρ.rank g < ρ.rank f) : Below ρ f (noteCall g ex) := by
  cases ex with
  | nil => exact h
  | cons l ex =>
    intro l' hl' x hx
    simp only [noteCall, List.mem_cons] at hl'
    rcases hl' with rfl | hl'
    · rcases List.mem_append.1 hx with hx | hx
      · exact h l (List.mem_cons_self ..) x hx
      · simp only [List.mem_singleton] at hx
        subst hx
        exact ⟨hg, hr⟩
    · exact h l' (List.mem_cons_of_mem _ hl') x hx

theorem body_ok (hw : WellBehaved sg script ρ) {clk : Nat → Nat} {callF : FunName → B → Mach B R → Outcome B R} {f : FunName}
    {b : B} (hwith : ∀ g c m, ∃ new, Within m (callF g c m) new)
    (hcall : ∀ g c m, ρ.rank g < ρ.rank f → Good sg script ρ vers m →
      (∀ id p, m.sys.inflight.get? id = some p → ρ.rank g < ρ.rank p.fn) → EditsOk vers (callF g c m).2.2.trace →
      CallOk sg script ρ vers g c m (callF g c m)) (p : Prog B R) (hb : ρ.Body f b p) (m : Mach B R)
    (h : Good sg script ρ vers m) (hin : ∃ id q, m.sys.inflight.get? id = some q ∧ q.fn = f ∧ q.bound = b)
    (hid : ∀ id q, m.sys.inflight.get? id = some q → ρ.rank f ≤ ρ.rank q.fn)
    (he : EditsOk vers (runProg sg clk callF p m).2.2.trace) :
    BodyOk sg script ρ vers f b p m (runProg sg clk callF p m) := by
  induction p generalizing m with
  | ret r =>
    exact ⟨.refl h _ _, rfl, fun ex base h1 h2 h3 => ⟨ex, h1, h2, h3⟩, by simp [runProg, Reports.none],
      by simp [trail, Trail.none], by simp [trail, Trail.none], fun _ => rfl⟩
  | raise =>
    exact ⟨.refl h _ _, rfl, fun ex base h1 h2 h3 => ⟨ex, h1, h2, h3⟩, by simp [runProg, Reports.none],
      by simp [trail, Trail.none], by simp [trail, Trail.none], fun _ => rfl⟩
  | callD d g c k ih =>
    obtain ⟨hb1, hb2, hb3, hb4, hb5⟩ := hb
    obtain ⟨new2, w2⟩ := runProg_within (sg := sg) (clk := clk) hwith (k (callF g c m).1) (callF g c m).2.2
    have he1 : EditsOk vers (callF g c m).2.2.trace :=
      EditsOk.sub (tr' := (runProg sg clk callF (.callD d g c k) m).2.2.trace) he (by simp only [runProg]; rw [w2.trace])
    have hc := hcall g c m hb2 h (fun id p hp => Nat.lt_of_lt_of_le hb2 (hid id p hp)) he1
    have hk := ih (callF g c m).1 (hb5 _) (callF g c m).2.2 hc.good
      (by obtain ⟨id, q, h1, h2⟩ := hin; exact ⟨id, q, by rw [hc.inflight]; exact h1, h2⟩)
      (fun id q hq => hid id q (by rw [← hc.inflight]; exact hq)) he
    have e1 : (callF g c m).1 = (cleanCall sg script m.sys.env.funDigest ρ.depth g c m.files).1 := congrArg Prod.fst hc.clean
    have e2 : (callF g c m).2.2.files = (cleanCall sg script m.sys.env.funDigest ρ.depth g c m.files).2 :=
      congrArg Prod.snd hc.clean
    have ec : cleanProg (cleanCall sg script (callF g c m).2.2.sys.env.funDigest ρ.depth) (k (callF g c m).1)
        (callF g c m).2.2.files = cleanProg (cleanCall sg script m.sys.env.funDigest ρ.depth) (.callD d g c k) m.files := by
      rw [hc.digests, e1, e2]; rfl
    -- the reports of the rest are reports of the whole
    have et : progTrail sg script ρ m.sys.env.funDigest (.callD d g c k) m.files =
        if d then (leafTrail sg script m.sys.env.funDigest (cleanCall sg script m.sys.env.funDigest ρ.depth) g c m.files).add
          (progTrail sg script ρ (callF g c m).2.2.sys.env.funDigest (k (callF g c m).1) (callF g c m).2.2.files)
        else progTrail sg script ρ (callF g c m).2.2.sys.env.funDigest (k (callF g c m).1) (callF g c m).2.2.files := by
      rw [hc.digests, e1, e2]; rfl
    have hfin := hk.clean
    have hkeep : ∀ x, ρ.keep x → ((callF g c m).2.2.files x).isSome →
        ((runProg sg clk callF (k (callF g c m).1) (callF g c m).2.2).2.2.files x).isSome := by
      intro x hx hs
      have := cleanProg_keep (ρ := ρ) (callC := cleanCall sg script (callF g c m).2.2.sys.env.funDigest ρ.depth)
        (clean_frames hw hc.good.ds _) (k (callF g c m).1) (hb5 _) (callF g c m).2.2.files hx hs
      rw [← hfin] at this
      exact this
    have hdeep : d = true → FilesOk ρ
        (leafTrail sg script m.sys.env.funDigest (cleanCall sg script m.sys.env.funDigest ρ.depth) g c m.files)
        (deepFiles sg d g c (callF g c m).1 (callF g c m).2.2) (callF g c m).2.2.files := by
      intro hd
      subst hd
      cases ho : (callF g c m).1 with
      | some r => exact hc.files r ho (hb3.1 rfl)
      | none =>
        rw [ho] at e1
        have : leafTrail sg script m.sys.env.funDigest (cleanCall sg script m.sys.env.funDigest ρ.depth) g c m.files = .none := by
          unfold leafTrail
          rw [← e1]
          cases m.sys.env.funDigest g <;> rfl
        rw [this]
        exact ⟨by simp [Trail.none], by simp [Trail.none], by simp [deepFiles, Reports.none]⟩
    refine ⟨⟨hk.good, fun id => (hk.inflight id).trans (hc.inflight id), hk.digests.trans hc.digests, hk.md5.trans hc.md5, ?_⟩,
      ?_, ?_, ?_, ?_, ?_, fun h0 => by omega⟩
    · obtain ⟨n1, h1, h2, h2a⟩ := hc.log
      obtain ⟨n2, h3, h4, h4a⟩ := hk.log
      refine ⟨n2 ++ n1, ?_, ?_, ?_⟩
      · simp only [runProg]; rw [h3, h1, List.append_assoc]
      · intro e he
        rcases List.mem_append.1 he with he | he
        · exact h4 e he
        · exact Nat.lt_of_le_of_lt (h2 e he) hb2
      · intro g' c' y hn ha
        exact h2a g' c' y (fun e he => hn e (List.mem_append_right _ he))
          (h4a g' c' y (fun e he => hn e (List.mem_append_left _ he)) ha)
    · rw [← ec]; exact hfin
    · intro ex base h1 h2 h3
      obtain ⟨ex1, h4, h5⟩ := hc.stack
      rw [h1, noteCall_append h2, ← List.append_assoc] at h4
      refine hk.stack (ex1 ++ noteCall g ex) base h4 ?_ ?_
      · cases ex with
        | nil => exact absurd rfl h2
        | cons l ex => simp [noteCall]
      · intro l hl x hx
        rcases List.mem_append.1 hl with hl | hl
        · obtain ⟨h6, h7⟩ := h5 l hl x hx
          exact ⟨h6, Nat.lt_trans h7 hb2⟩
        · exact (h3.note hb1 hb2) l hl x hx
    · intro x hx
      simp only [runProg, Reports.add, List.mem_append] at hx
      rw [et]
      rcases hx with hx | hx | hx
      · obtain ⟨h1 | ⟨h1, h1'⟩, h2⟩ := hc.reps hb1 x hx
        · exact .inr (.inl ⟨h1, hkeep x h1 h2⟩)
        · rcases (hb4 (hb3.2 h1)).2 x h1' with h3 | h3
          · exact .inr (.inl ⟨h3, hkeep x h3 h2⟩)
          · exact .inr (.inr ⟨(hb4 (hb3.2 h1)).1, h3⟩)
      · cases hd : d with
        | false => rw [hd] at hx; simp [deepFiles, Reports.none] at hx
        | true =>
          rcases (hdeep hd).back x hx with h1 | h1
          · left; exact List.mem_append_left _ h1
          · exact .inr (.inl ⟨h1.1, hkeep x h1.1 h1.2⟩)
      · rcases hk.reps x hx with h1 | h1
        · left
          split
          · exact List.mem_append_right _ h1
          · exact h1
        · exact .inr h1
    · intro x hx
      rw [et] at hx
      simp only [runProg, Reports.add, List.mem_append]
      split at hx
      · rename_i hd
        rcases List.mem_append.1 hx with hx | hx
        · exact .inr (.inl ((hdeep hd).srcs x hx))
        · exact .inr (.inr (hk.srcs x hx))
      · exact .inr (.inr (hk.srcs x hx))
    · intro x hx
      rw [et] at hx
      simp only [runProg, Reports.add, List.mem_append]
      split at hx
      · rename_i hd
        rcases List.mem_append.1 hx with hx | hx
        · exact .inr (.inl ((hdeep hd).dsts x hx))
        · exact .inr (.inr (hk.dsts x hx))
      · exact .inr (.inr (hk.dsts x hx))
  | report srcs dsts k ih =>
    have hk := ih hb.2 m h hin hid he
    refine ⟨⟨hk.good, hk.inflight, hk.digests, hk.md5, hk.log⟩, hk.clean, hk.stack, ?_, ?_, ?_, hk.db⟩
    · intro x hx
      simp only [runProg, Reports.add, List.mem_append] at hx
      rcases hx with hx | hx
      · left; exact List.mem_append_left _ hx
      · rcases hk.reps x hx with h1 | h1
        · left; exact List.mem_append_right _ h1
        · exact .inr h1
    · intro x hx
      simp only [trail, Trail.add, List.mem_append] at hx
      rcases hx with hx | hx
      · exact List.mem_append_left _ hx
      · exact List.mem_append_right _ (hk.srcs x hx)
    · intro x hx
      simp only [trail, Trail.add, List.mem_append] at hx
      rcases hx with hx | hx
      · exact List.mem_append_left _ hx
      · exact List.mem_append_right _ (hk.dsts x hx)
  | read x k ih =>
    have hk := ih _ (hb _) m h hin hid he
    exact ⟨⟨hk.good, hk.inflight, hk.digests, hk.md5, hk.log⟩, hk.clean, hk.stack, hk.reps, hk.srcs, hk.dsts, hk.db⟩
  | write x c k ih =>
    obtain ⟨hb1, hb2, hb3⟩ := hb
    obtain ⟨new2, w2⟩ := runProg_within (sg := sg) (clk := clk) hwith k (m.writeFile sg clk x c)
    have hg := h.write hw clk x c (EditsOk.sub he w2.trace) hb2 (by
      obtain ⟨id, q, h1, h2, h3⟩ := hin
      exact .inr (.inr ⟨id, q, h1, by rw [hb1, h2, h3]⟩))
    have hk := ih hb3 (m.writeFile sg clk x c) hg hin hid he
    have ef := writeFile_files (sg := sg) clk x c m
    have ed : (m.writeFile sg clk x c).sys.env.funDigest = m.sys.env.funDigest := rfl
    refine ⟨⟨hk.good, hk.inflight, hk.digests, hk.md5, hk.log⟩, ?_, hk.stack, ?_, ?_, ?_, hk.db⟩
    · have := hk.clean
      rw [ef, ed] at this
      exact this
    · have := hk.reps
      rw [ef, ed] at this
      exact this
    · have := hk.srcs
      rw [ef, ed] at this
      exact this
    · have := hk.dsts
      rw [ef, ed] at this
      exact this

/-- the state in which the body of `f` begins, if it is called with `b` and has to run -/
def bodyAt (sg : Sig B R) (clk : Nat → Nat) (f : FunName) (b : B) (m : Mach B R) : Mach B R :=
  let m1 := (({ m with stack := noteCall f m.stack, next := m.next + 1 } : Mach B R).event sg (.tick (clk m.next))).2
  let m2 := (m1.event sg (.prepare m.next f b)).2
  { m2 with stack := [] :: m2.stack }

/-- a call of a cached function, given that its body does what it should -/
theorem ask_ok (hw : WellBehaved sg script ρ) (clk : Nat → Nat) (run : Mach B R → Outcome B R) (f : FunName) (b : B) (m : Mach B R)
    (h : Good sg script ρ vers m)
    (hid : ∀ id p, m.sys.inflight.get? id = some p → ρ.rank f < ρ.rank p.fn)
    (he : EditsOk vers (askCall sg clk run f b m).2.2.trace)
    (hrun : ∀ (m' : Mach B R) code, m' = bodyAt sg clk f b m → m.sys.env.funDigest f = some code →
      m'.sys.env.funDigest = m.sys.env.funDigest →
      m'.files = m.files → Good sg script ρ vers m' → (∃ id q, m'.sys.inflight.get? id = some q ∧ q.fn = f ∧ q.bound = b) →
      (∀ id q, m'.sys.inflight.get? id = some q → ρ.rank f ≤ ρ.rank q.fn) →
      ((run m').1 = none → (askCall sg clk run f b m).1 = none) → EditsOk vers (run m').2.2.trace →
      BodyOk sg script ρ vers f b (script f code b) m' (run m')) :
    CallOk sg script ρ vers f b m (askCall sg clk run f b m) := by
  unfold askCall at he hrun ⊢
  simp only at he hrun ⊢
  have h1 := (h.stack (noteCall f m.stack) (Nat.le_refl _)).tick (clk m.next)
  generalize hm1 : (({ m with stack := noteCall f m.stack } : Mach B R).event sg (.tick (clk m.next))).2 = m1 at h1
  have f1 : m1.files = m.files := by rw [← hm1]; rfl
  have d1 : m1.sys.env.funDigest = m.sys.env.funDigest := by rw [← hm1]; rfl
  have md1 : m1.sys.env.md5 = m.sys.env.md5 := by rw [← hm1]; rfl
  have db1 : m1.sys.db = m.sys.db := by rw [← hm1]; rfl
  have l1 : m1.sys.log = m.sys.log := by rw [← hm1]; rfl
  have i1 : m1.sys.inflight = m.sys.inflight := by rw [← hm1]; rfl
  have n1 : m1.next = m.next := by rw [← hm1]; rfl
  have s1 : m1.stack = noteCall f m.stack := by rw [← hm1]; rfl
  have hid' : ∀ id p, m.sys.inflight.get? id = some p → ρ.rank f ≤ ρ.rank p.fn ∧ ¬ (p.fn = f ∧ p.bound = b) := by
    intro id p hp
    have := hid id p hp
    refine ⟨Nat.le_of_lt this, ?_⟩
    rintro ⟨rfl, _⟩
    omega
  have hP := h1.prepare hw f b (by rw [i1]; exact hid') (id := m.next) (by rw [n1]; exact Nat.le_refl _)
  generalize hm2 : Mach.event sg (.prepare m.next f b) _ = X at he hrun ⊢
  have hX : X = ((m1.event sg (.prepare m.next f b)).1,
      { (m1.event sg (.prepare m.next f b)).2 with next := m.next + 1 }) := by
    rw [← hm2, ← hm1]; rfl
  clear hm2
  subst hX
  have hbs : bodyAt sg clk f b m = { (m1.event sg (.prepare m.next f b)).2 with
      next := m.next + 1, stack := [] :: (m1.event sg (.prepare m.next f b)).2.stack } := by
    rw [← hm1]; rfl
  have s2 : (m1.event sg (.prepare m.next f b)).2.stack = noteCall f m.stack := s1
  have n2 : (m1.event sg (.prepare m.next f b)).2.next = m.next := n1
  have hhit := fun r => h1.hit hw f b (by rw [i1]; exact hid') (id := m.next) (r := r)
  have hal := fun g c y => h1.prepare_alive (sg := sg) m.next f b g c y
  rw [db1] at hal
  have hhit' : ∀ r, (m1.event sg (.prepare m.next f b)).1 = .hit r → _ := hhit
  clear hhit
  generalize m1.event sg (.prepare m.next f b) = Y at *
  obtain ⟨oY, m2⟩ := Y
  simp only at *
  rcases hP with ⟨hc, e, hY, hg, hl, henv, hin⟩ | ⟨code, hc, hl, henv, hcases⟩
  · -- the function is unknown
    cases hY
    simp only at *
    have hcl := cleanCall_unknown (sg := sg) (script := script) hw (d1 ▸ hc) b m.files
    refine ⟨⟨hg.stack m2.stack (by rw [n2]; omega), fun id => by simp only [hin, i1], by simp only [henv, d1], by simp only [henv, md1],
      [], by simp only [hl, l1, List.nil_append], by simp, fun g c y _ ha => hal g c y ha⟩, ?_, ⟨[], s2, by simp [Below]⟩,
      by simp [Reports.none], fun r hr => by cases hr⟩
    rw [hcl, ← f1]
    simp only [Mach.files, henv]
  · rcases hcases with ⟨e, hY, ⟨x, hx, hxn⟩, hg, hin⟩ | ⟨r, hY, hg, hin⟩ | ⟨hY, hsrc, hg, p, hin, rfl, rfl, rfl, hfs0, hstart, hnoted⟩
    · -- a source is missing
      cases hY
      simp only at *
      have hcl := cleanCall_unfold hw (d1 ▸ h1.ds) (d1 ▸ hc) b m.files
      rw [if_neg] at hcl
      rotate_left
      · intro hall
        rw [List.all_eq_true] at hall
        have := hall x hx
        rw [← f1, hxn] at this
        cases this
      refine ⟨⟨hg.stack m2.stack (by rw [n2]; omega), fun id => by simp only [hin, i1], by simp only [henv, d1], by simp only [henv, md1],
        [], by simp only [hl, l1, List.nil_append], by simp, fun g c y _ ha => hal g c y ha⟩, ?_, ⟨[], s2, by simp [Below]⟩,
        by simp [Reports.none], fun r hr => by cases hr⟩
      rw [hcl, ← f1]
      simp only [Mach.files, henv]
    · -- the database has the answer
      cases hY
      simp only at *
      obtain ⟨hcl, hcf⟩ := hhit' r rfl
      rw [d1, f1] at hcl hcf
      have hf2 : m2.files = m.files := by rw [← f1]; simp only [Mach.files, henv]
      refine ⟨⟨hg.stack m2.stack (by rw [n2]; omega), fun id => by simp only [hin, i1], by simp only [henv, d1],
        by simp only [henv, md1], [], by simp only [hl, l1, List.nil_append], by simp, fun g c y _ ha => hal g c y ha⟩, ?_,
        ⟨[], s2, by simp [Below]⟩, by simp [Reports.none], ?_⟩
      · rw [hcl, ← f1]
        simp only [Mach.files, henv]
      · rintro r' hr hleaf
        cases hr
        have := hcf hleaf
        rw [← hf2] at this ⊢
        exact this
    · -- the function runs
      cases hY
      simp only at *
      clear hhit'
      have hcode : m2.sys.env.funDigest p.fn = some p.code := by rw [henv]; exact hc
      have hfiles : m2.files = m.files := by rw [← f1, Mach.files, henv]; rfl
      have hdig : m2.sys.env.funDigest = m.sys.env.funDigest := by rw [henv]; exact d1
      generalize hm3 : ({ m2 with next := m.next + 1 } : Mach B R) = m3 at *
      have hsys : m3.sys = m2.sys := by rw [← hm3]
      have hst : m3.stack = noteCall p.fn m.stack := by rw [← hm3]; exact s2
      have hf3 : m3.files = m.files := by rw [← hfiles, Mach.files, hsys]; rfl
      have hbs3 : ({ m3 with stack := [] :: m3.stack } : Mach B R) = bodyAt sg clk p.fn p.bound m := by rw [hbs, ← hm3]
      clear hm3 hbs
      unfold runCall at he ⊢
      have hbody := hw.body p.fn p.code p.bound (hg.ds.code (by rw [hsys]; exact hcode))
      have hgb := hg.stack ([] :: m3.stack) (Nat.le_refl m3.next)
      have hB := hrun { m3 with stack := [] :: m3.stack } p.code hbs3 (by rw [← hdig]; exact hcode) (by rw [← hdig, ← hsys]) hf3 hgb
        ⟨m.next, p, by simp only [hsys, hin, Dict.get?_set, if_pos], rfl, rfl⟩
        (by
          intro id q hq
          simp only [hsys, hin, Dict.get?_set] at hq
          split at hq
          · cases hq; exact Nat.le_refl _
          · rw [i1] at hq; exact Nat.le_of_lt (hid id q hq))
        (by
          intro hno
          unfold runCall
          generalize run { m3 with stack := [] :: m3.stack } = Z at hno ⊢
          obtain ⟨o, rep, m4⟩ := Z
          cases hno
          rfl)
      clear hrun
      generalize run { m3 with stack := [] :: m3.stack } = Z at *
      obtain ⟨o, rep, m4⟩ := Z
      have hdig3 : m3.sys.env.funDigest = m.sys.env.funDigest := by rw [hsys]; exact hdig
      have hcodem : m.sys.env.funDigest p.fn = some p.code := by rw [← hdig]; exact hcode
      have hcl := cleanCall_unfold hw h.ds hcodem p.bound m.files
      rw [if_pos (by
        rw [List.all_eq_true]
        intro x hx
        rw [← f1]
        exact hsrc x hx)] at hcl
      have hfs0' : p.fs0.content = m.files := by rw [hfs0, ← f1]; rfl
      have hfresh : m.sys.inflight.get? m.next = none := by
        cases hg' : m.sys.inflight.get? m.next with
        | none => rfl
        | some q => exact absurd (h.next _ q hg') (Nat.lt_irrefl _)
      have hlog3 : m3.sys.log = m.sys.log := by rw [hsys, hl, l1]
      -- what is known once the body has run
      have hfacts : EditsOk vers m4.trace → BodyOk sg script ρ vers p.fn p.bound (script p.fn p.code p.bound)
          { m3 with stack := [] :: m3.stack } (o, rep, m4) ∧
          (o, m4.files) = cleanCall sg script m.sys.env.funDigest ρ.depth p.fn p.bound m.files ∧
          (∃ ex', m4.stack = ex' ++ noteCall p.fn m.stack ∧ ex' ≠ [] ∧ Below ρ p.fn ex') ∧
          m4.sys.inflight.get? m.next = some p ∧
          (∀ id, (m4.sys.inflight.erase m.next).get? id = m.sys.inflight.get? id) ∧
          m4.sys.env.funDigest = m.sys.env.funDigest ∧
          m4.sys.env.md5 = m.sys.env.md5 ∧
          (∃ new, m4.sys.log = new ++ m.sys.log ∧ (∀ e ∈ new, ρ.rank e.fn < ρ.rank p.fn) ∧
            ∀ g c y, (∀ e ∈ new, ¬ (e.fn = g ∧ e.bound = c)) → Alive m4.sys.db g c y → Alive m.sys.db g c y) ∧
          ((ρ.lib p.fn).isSome → ∀ x ∈ rep.srcs, (ρ.keep x ∨ (ρ.leaf p.fn ∧ ρ.decl p.fn p.bound x)) ∧ (m4.files x).isSome) ∧
          (o.isSome → ∀ x ∈ rep.srcs, (ρ.keep x ∨ x ∈ sg.srcs p.fn p.code p.bound) ∧ (m4.files x).isSome) := by
        intro hed
        have hb := hB hed
        have hcl' : (o, m4.files) = cleanCall sg script m.sys.env.funDigest ρ.depth p.fn p.bound m.files := by
          rw [hcl]
          have := hb.clean
          simp only at this
          rw [hdig3] at this
          rw [this]
          exact congrArg _ hf3
        have htrm : ∀ x, x ∈ (progTrail sg script ρ m3.sys.env.funDigest (script p.fn p.code p.bound) m3.files).srcs →
            x ∈ (footprint sg script m.sys.env.funDigest ρ.depth p.fn p.code p.bound m.files).srcs := by
          intro x hx; rw [hdig3, hf3] at hx; exact hx
        -- the declared sources are still there
        have hdecl : o.isSome ∨ ρ.leaf p.fn → ∀ x, ρ.decl p.fn p.bound x → (m4.files x).isSome := by
          intro hor x hx
          have hxs := hw.declared _ _ _ _ (h.ds.code hcodem) hx
          have h4 : (m.files x).isSome := by rw [← f1]; exact hsrc x hxs
          have h6 : m4.files x = m.files x := by
            cases o with
            | some r =>
              have h5 := hw.inputs m.sys.env.funDigest p.fn p.bound p.code m.files r m4.files h.ds hcodem hcl'.symm x
                (List.mem_append_left _ hxs)
              have h6 := cleanProg_frame (clean_frames hw h.ds _) _ hbody m.files h5
              rw [← hcl, ← hcl'] at h6
              exact h6
            | none =>
              rcases hor with hor | hleaf
              · cases hor
              · by_cases hown : ρ.owner x = some (p.fn, p.bound)
                · exact hw.atomic _ _ _ _ _ h.ds hcl'.symm x hown
                · have h5 : x ∉ (footprint sg script m.sys.env.funDigest ρ.depth p.fn p.code p.bound m.files).writes := by
                    intro hx'
                    rcases trail_owner (clean_frames hw h.ds _) _ hbody _ hx' with h5 | ⟨g, c, _, h5, _⟩
                    · exact hown h5
                    · rw [(hw.leaf_lib _ hleaf).2] at h5; omega
                  have h6 := cleanProg_frame (clean_frames hw h.ds _) _ hbody m.files h5
                  rw [← hcl, ← hcl'] at h6
                  exact h6
          rw [h6]
          exact h4
        refine ⟨hb, hcl', ?_, ?_, ?_, ?_, ?_, ?_, ?_, ?_⟩
        · obtain ⟨ex', h2, h3, h4⟩ := hb.stack [[]] m3.stack rfl (by simp) (by simp [Below])
          exact ⟨ex', by rw [← hst]; exact h2, h3, h4⟩
        · rw [hb.inflight]
          simp only [hsys, hin, Dict.get?_set, if_pos]
        · intro id
          rw [Dict.get?_erase]
          split
          · rename_i heq; subst heq; exact hfresh.symm
          · rename_i hne
            rw [hb.inflight]
            simp only [hsys, hin, Dict.get?_set]
            rw [if_neg (by first | exact hne | exact fun h => hne h.symm), i1]
        · rw [hb.digests]; exact hdig3
        · rw [hb.md5]
          show m3.sys.env.md5 = _
          rw [hsys, henv, md1]
        · obtain ⟨new, h2, h3, h4⟩ := hb.log
          refine ⟨new, by rw [← hlog3]; exact h2, h3, ?_⟩
          intro g c y hn ha
          have h5 : Alive m3.sys.db g c y := h4 g c y hn ha
          rw [hsys] at h5
          exact hal g c y h5
        · intro ho x hx
          rcases hb.reps x hx with h2 | h2 | h2
          · have h3 := htrm x h2
            rcases trail_keep_lib ho _ hbody _ h3 with hk | hk
            case inr => exact ⟨.inr hk, hdecl (.inr hk.1) x hk.2⟩
            refine ⟨.inl hk, ?_⟩
            have h4 := hw.exist m.sys.env.funDigest p.fn p.bound p.code m.files o m4.files h.ds hcodem
              (fun x hx => by rw [← f1]; exact hsrc x hx) hcl'.symm (.inr ho) x h3
            have h5 := cleanProg_keep (clean_frames hw h.ds _) _ hbody m.files hk h4
            rw [← hcl, ← hcl'] at h5
            exact h5
          · exact ⟨.inl h2.1, h2.2⟩
          · rw [h2.1] at ho; cases ho
        · intro ho x hx
          rcases hb.reps x hx with h2 | h2 | h2
          · have h3 := htrm x h2
            refine ⟨?_, ?_⟩
            · rcases trail_keep (clean_frames hw h.ds _) _ hbody _ h3 with hk | hk
              · exact .inl hk
              · exact .inr (hw.declared _ _ _ _ (h.ds.code hcodem) hk)
            · have h4 := hw.exist m.sys.env.funDigest p.fn p.bound p.code m.files o m4.files h.ds hcodem
                (fun x hx => by rw [← f1]; exact hsrc x hx) hcl'.symm (.inl ho) x h3
              obtain ⟨r, hr⟩ := Option.isSome_iff_exists.1 ho
              rw [hr] at hcl'
              have h5 := hw.inputs m.sys.env.funDigest p.fn p.bound p.code m.files r m4.files h.ds hcodem hcl'.symm x
                (List.mem_append_right _ h3)
              have h6 := cleanProg_frame (clean_frames hw h.ds _) _ hbody m.files h5
              rw [← hcl, ← hcl'] at h6
              simp only at h6
              rw [h6]
              exact h4
          · exact ⟨.inl h2.1, h2.2⟩
          · exact ⟨.inr (hw.declared _ _ _ _ (h.ds.code hcodem) h2.2), hdecl (.inl ho) x h2.2⟩
      cases o with
      | none =>
        simp only at he ⊢
        obtain ⟨hb, hcl', ⟨ex', hs1, _, hs3⟩, hin4, hin5, hd4, hm4, ⟨new, hn1, hn2, hn3⟩, hrep, _⟩ :=
          hfacts (EditsOk.sub (new := [(m4.sys, .fail m.next)]) he rfl)
        have hsame := hw.atomic _ _ _ _ _ h.ds hcl'.symm
        refine ⟨⟨hb.good.fail hin4 ?_, hin5, hd4, hm4, new, hn1, fun e he => Nat.le_of_lt (hn2 e he), hn3⟩, hcl', ⟨ex', hs1, hs3⟩,
          hrep, fun r hr => by cases hr⟩
        intro pre e post hlog hpre ds hds hde hal' x hx hown
        -- the entry was there before
        rw [show (m4.sys.log = pre ++ e :: post) = (new ++ m.sys.log = pre ++ e :: post) by rw [hn1]] at hlog
        have hold : ∃ pre', m.sys.log = pre' ++ e :: post ∧ pre = new ++ pre' := by
          rcases List.append_eq_append_iff.1 hlog with ⟨as, ha1, ha2⟩ | ⟨bs, hb1, hb2⟩
          · exact ⟨as, ha2, ha1⟩
          · cases bs with
            | nil => exact ⟨[], by simpa using hb2.symm, by simpa using hb1.symm⟩
            | cons e0 bs =>
              simp only [List.cons_append, List.cons.injEq] at hb2
              obtain ⟨rfl, _⟩ := hb2
              have h2 := hn2 e (by rw [hb1]; simp)
              exfalso
              rcases trail_owner (clean_frames hw hds _) _ (hw.body _ _ e.bound (hds.code hde)) _ hx with h3 | ⟨g, c, _, h4, h3⟩
              · rw [hown] at h3
                simp only [Option.some.injEq, Prod.mk.injEq] at h3
                rw [h3.1] at h2
                omega
              · rw [hown] at h3
                simp only [Option.some.injEq, Prod.mk.injEq] at h3
                rw [← h3.1] at h4
                omega
        obtain ⟨pre', hlog', hpre'⟩ := hold
        have hE := h.entries pre' e post hlog' (fun e' he' => hpre e' (by rw [hpre']; exact List.mem_append_right _ he'))
        obtain ⟨_, ⟨ds', _, k1, k2, _, _, _, _, _, k3⟩, _⟩ := hE
        have htr := trail_eq hw hds k1 hde e.bound e.fs0.content
        rw [htr] at hal' hx
        have k4 := k3 (fun y hy => hn3 _ _ y (fun e' he' => hpre e' (by rw [hpre']; exact List.mem_append_left _ he')) (hal' y hy))
          x hx (by
            intro id q hq ho
            have := hid id q hq
            rw [hown] at ho
            simp only [Option.some.injEq, Prod.mk.injEq] at ho
            rw [ho.1] at this
            omega)
        have k5 : m4.sys.env.fs.content x = m.sys.env.fs.content x := hsame x hown
        rcases k4 with k4 | k4
        · left; rw [k5]; exact k4
        · rcases hb.good.plain x _ hown with k6 | k6
          · exact .inr k6
          · have k7 : (m4.sys.env.fs.content x).isSome := k6
            rw [k5, FS.content, k4] at k7
            cases k7
      | some r =>
        simp only at he ⊢
        have hed : EditsOk vers m4.trace := by
          revert he
          cases m4.stack with
          | nil => exact fun he => EditsOk.sub (new := [(m4.sys, .fail m.next)]) he rfl
          | cons deps rest =>
            simp only
            generalize hE : ({ m4 with stack := rest } : Mach B R).event sg (.complete m.next r deps rep.srcs rep.dsts) = W
            obtain ⟨oW, m5⟩ := W
            have e1 : m5.trace = [(m4.sys, .complete m.next r deps rep.srcs rep.dsts)] ++ m4.trace := by
              have := congrArg (fun x => x.2.trace) hE; exact this.symm
            intro he
            cases oW <;> exact EditsOk.sub he e1
        obtain ⟨hb, hcl', ⟨ex', hs1, hs2, hs3⟩, hin4, hin5, hd4, hm4, ⟨new, hn1, hn2, hn3⟩, hrep, hrepo⟩ := hfacts hed
        clear he
        cases ex' with
        | nil => exact absurd rfl hs2
        | cons deps ex' =>
          simp only [List.cons_append] at hs1
          rw [hs1]
          simp only
          have hgc := (hb.good.stack (ex' ++ noteCall p.fn m.stack) (Nat.le_refl m4.next))
          have htr : footprint sg script m.sys.env.funDigest ρ.depth p.fn p.code p.bound m.files =
              progTrail sg script ρ m3.sys.env.funDigest (script p.fn p.code p.bound) m3.files := by
            rw [hdig3, hf3]
          obtain ⟨c1, c2, c3, c4, ⟨e5, c5, c6, c6b⟩, c8, i, c9, c10, c11⟩ := hgc.complete (sg := sg) hw (id := m.next) (p := p) hin4
            (new := new) (old := m.sys.log)
            hn1 (by rw [hstart, l1]) hn2 (deps := deps) (hs3 deps (List.mem_cons_self ..))
            (ext := rep.srcs) (extDsts := rep.dsts) (hrepo rfl) (r := r)
            (by rw [hfs0']; simp only [hd4]; exact hcl'.symm)
            (by rw [hfs0']; simp only [hd4]; rw [htr]; exact hb.srcs)
            (by rw [hfs0']; simp only [hd4]; rw [htr]; exact hb.dsts)
            (by
              intro hleaf y hy
              obtain ⟨t, c, k1, k2⟩ := hnoted y hy
              have hdb : m4.sys.db = m3.sys.db := hb.db (hw.leaf_lib _ hleaf).2
              refine ⟨t, c, by rw [hfs0]; exact k1, ?_⟩
              simp only [hdb, hsys, hm4]
              rw [k2, md1])
          have c7 : (({ m4 with stack := ex' ++ noteCall p.fn m.stack } : Mach B R).event sg
            (.complete m.next r deps rep.srcs rep.dsts)).2.stack = ex' ++ noteCall p.fn m.stack := rfl
          generalize ({ m4 with stack := ex' ++ noteCall p.fn m.stack } : Mach B R).event sg
            (.complete m.next r deps rep.srcs rep.dsts) = W at *
          obtain ⟨oW, m5⟩ := W
          simp only at c1 c2 c3 c4 c5 c6 c7
          subst c1
          simp only
          have hfin : m5.files = m4.files := by rw [Mach.files, c3]; rfl
          have hdfin : m5.sys.env.funDigest = m.sys.env.funDigest := by simp only [c3]; exact hd4
          refine ⟨⟨c2, fun id => by simp only [c4]; exact hin5 id, hdfin, by simp only [c3]; exact hm4, e5 :: new,
            by simp only [c5, hn1, List.cons_append], ?_, ?_⟩, by simp only [hfin]; exact hcl',
            ⟨ex', c7, fun l hl => hs3 l (List.mem_cons_of_mem _ hl)⟩, by simp only [hfin]; exact hrep, ?_⟩
          · intro e he
            rcases List.mem_cons.1 he with rfl | he
            · rw [c6]; exact Nat.le_refl _
            · exact Nat.le_of_lt (hn2 e he)
          · intro g c y hn ha
            refine hn3 g c y (fun e he => hn e (List.mem_cons_of_mem _ he)) (c8 g c y ?_ ha)
            rintro ⟨rfl, rfl⟩
            exact hn e5 (List.mem_cons_self ..) ⟨c6, c6b⟩
          · intro r' hr' hleaf
            cases hr'
            rw [leafTrail_foot hw h.ds hleaf hcodem (r := r) (by rw [← hcl'])]
            have hcf : callFiles sg p.fn p.bound r m5 = ⟨sg.srcs p.fn p.code p.bound ++ rep.srcs,
                sg.returnDsts p.fn p.code r ++ sg.dsts p.fn p.code p.bound ++ rep.dsts⟩ := by
              unfold callFiles
              rw [hdfin, hcodem]
              simp only
              rw [c9]
              simp only
              rw [c10, c11]
            simp only
            rw [hcf, htr]
            refine ⟨?_, ?_, ?_⟩
            · intro x hx
              simp only [Trail.add, List.mem_append] at hx ⊢
              rcases hx with hx | hx
              · exact .inl hx
              · exact .inr (hb.srcs x hx)
            · intro x hx
              simp only [Trail.add, List.mem_append] at hx ⊢
              rcases hx with hx | hx
              · exact .inl hx
              · exact .inr (hb.dsts x hx)
            · intro x hx
              simp only [Trail.add, List.mem_append] at hx ⊢
              rcases hx with hx | hx
              · exact .inl (.inl hx)
              · rcases hb.reps x hx with h8 | h8 | h8
                · exact .inl (.inr h8)
                · exact .inr (by rw [hfin]; exact h8)
                · exact .inl (.inl (hw.declared _ _ _ _ (h.ds.code hcodem) h8.2))

theorem call_ok (hw : WellBehaved sg script ρ) (clk : Nat → Nat) (n : Nat) (f : FunName) (b : B) (m : Mach B R)
    (h : Good sg script ρ vers m) (hn : ρ.rank f < n)
    (hid : ∀ id p, m.sys.inflight.get? id = some p → ρ.rank f < ρ.rank p.fn)
    (he : EditsOk vers (callFn sg script clk n f b m).2.2.trace) :
    CallOk sg script ρ vers f b m (callFn sg script clk n f b m) := by
  induction n generalizing f b m with
  | zero => omega
  | succ n ih =>
    refine ask_ok hw clk _ f b m h hid he ?_
    intro m' code _ hc hd _ hg hin hidm _ hed
    have hcode : m'.sys.env.funDigest f = some code := by rw [hd]; exact hc
    simp only [hcode, Option.getD_some] at hed ⊢
    exact body_ok hw (callFn_within sg script clk n) (fun g c m' hr hgm hidm hem => ih g c m' hgm (by omega) hidm hem) _
      (hw.body f code b (h.ds.code hc)) m' hg hin hidm hed

/-! ### Builds -/

/-- a main program, with a database and without -/
theorem main_ok (hw : WellBehaved sg script ρ) (clk : Nat → Nat) {limit : Nat} (hlim : ρ.depth ≤ limit) (p : Prog B R)
    (hp : ρ.Main p) (m : Mach B R) (h : Good sg script ρ vers m) (hin : ∀ id, m.sys.inflight.get? id = none)
    (he : EditsOk vers (runProg sg clk (callFn sg script clk limit) p m).2.2.trace) :
    Ran sg script ρ vers (fun _ => True) m (runProg sg clk (callFn sg script clk limit) p m) ∧
      ((runProg sg clk (callFn sg script clk limit) p m).1, (runProg sg clk (callFn sg script clk limit) p m).2.2.files) =
        cleanProg (cleanCall sg script m.sys.env.funDigest ρ.depth) p m.files := by
  induction p generalizing m with
  | ret r => exact ⟨.refl h _ _, rfl⟩
  | raise => exact ⟨.refl h _ _, rfl⟩
  | callD d f b k ih =>
    obtain ⟨new2, w2⟩ := runProg_within (sg := sg) (clk := clk) (callFn_within sg script clk limit)
      (k (callFn sg script clk limit f b m).1) (callFn sg script clk limit f b m).2.2
    have hc := call_ok hw clk limit f b m h (Nat.lt_of_lt_of_le (hw.rank_lt f) hlim) (by intro id p; rw [hin]; simp)
      (EditsOk.sub (tr' := (runProg sg clk (callFn sg script clk limit) (.callD d f b k) m).2.2.trace) he
        (by simp only [runProg]; rw [w2.trace]))
    have hk := ih (callFn sg script clk limit f b m).1 (hp _) (callFn sg script clk limit f b m).2.2 hc.good
      (fun id => by rw [hc.inflight, hin]) he
    have e1 := congrArg Prod.fst hc.clean
    have e2 := congrArg Prod.snd hc.clean
    simp only at e1 e2
    refine ⟨⟨hk.1.good, fun id => (hk.1.inflight id).trans (hc.inflight id), hk.1.digests.trans hc.digests,
      hk.1.md5.trans hc.md5, ?_⟩, ?_⟩
    · obtain ⟨n1, h1, _, h2a⟩ := hc.log
      obtain ⟨n2, h3, _, h4a⟩ := hk.1.log
      refine ⟨n2 ++ n1, ?_, fun _ _ => trivial, ?_⟩
      · simp only [runProg]; rw [h3, h1, List.append_assoc]
      · intro g' c' y hn ha
        exact h2a g' c' y (fun e he => hn e (List.mem_append_right _ he))
          (h4a g' c' y (fun e he => hn e (List.mem_append_left _ he)) ha)
    · have := hk.2
      rw [hc.digests] at this
      simp only [runProg, cleanProg]
      rw [this, e1, e2]
  | report srcs dsts k ih =>
    have hk := ih hp m h hin he
    exact ⟨⟨hk.1.good, hk.1.inflight, hk.1.digests, hk.1.md5, hk.1.log⟩, hk.2⟩
  | read x k ih =>
    have hk := ih _ (hp _) m h hin he
    exact ⟨⟨hk.1.good, hk.1.inflight, hk.1.digests, hk.1.md5, hk.1.log⟩, hk.2⟩
  | write x c k ih =>
    obtain ⟨new2, w2⟩ := runProg_within (sg := sg) (clk := clk) (callFn_within sg script clk limit) k (m.writeFile sg clk x c)
    have hg := h.write hw clk x c (EditsOk.sub he w2.trace) hp.2.1 (by
      rcases hp.1 with h1 | h1
      · exact .inl h1
      · exact .inr (.inl h1))
    have hk := ih hp.2.2 (m.writeFile sg clk x c) hg hin he
    refine ⟨⟨hk.1.good, hk.1.inflight, hk.1.digests, hk.1.md5, hk.1.log⟩, ?_⟩
    have := hk.2
    rw [writeFile_files] at this
    exact this

end Verif.Calls
