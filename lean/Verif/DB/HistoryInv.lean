import Verif.DB.CacheLemmas3
/-! The invariant of the histories of a database (cache and pickle engine). -/
namespace Verif.DB
open CDB
set_option linter.unusedSectionVars false

variable {B R : Type} [DecidableEq B]

/-- The file system whose content of `x` was recorded with the execution: external sources are
digested when the result is stored, the others when the call is prepared. -/
def Exec.view (e : Exec B R) (x : FileName) : FS :=
  if e.ok = true ∧ x ∈ e.ext then e.fs1 else e.fs0

/-- slot `i` of `f` holds what execution `e` left -/
structure SlotFor (sg : Sig B R) (md5 : Content → Digest) (db : CDB B R) (f : FunName) (i : Nat)
    (e : Exec B R) : Prop where
  fn : e.fn = f
  code : ∃ deps, db.functions.get? f = some (e.code, deps)
  esrcs : findExt db.externalSrcs (f, i) = e.ext
  edsts : findExt db.externalDsts (f, i) = e.extDsts
  digest : ∀ x d, (x ∈ sg.srcs f e.code e.bound ∨ (e.ok = true ∧ x ∈ e.ext)) →
    db.callFile x f i = some d → ∃ c, (e.view x).content x = some c ∧ d = md5 c

structure Inv (sg : Sig B R) (vers : FileName → Nat → Option Content) (md5 : Content → Digest)
    (L : Bool) (db : CDB B R) (log : List (Exec B R)) : Prop where
  noFun : ∀ f, db.functions.get? f = none → db.functionCalls.get? f = none
  slot : ∀ f datas (i : Nat) b r, db.functionCalls.get? f = some datas → datas[i]? = some (b, r) →
    ∃ e ∈ log, e.bound = b ∧ e.result = r ∧ SlotFor sg md5 db f i e ∧
      (L = true → ∃ pre post, log = pre ++ e :: post ∧
        ∀ e' ∈ pre, e'.fn = f → e'.bound ≠ b ∧ e'.code = e.code)
  distinct : ∀ f datas (i j : Nat) b r r', db.functionCalls.get? f = some datas →
    datas[i]? = some (b, r) → datas[j]? = some (b, r') → i = j
  cfBound : ∀ x f i d, db.callFile x f i = some d →
    ∃ datas, db.functionCalls.get? f = some datas ∧ i < datas.length
  files : FilesOK vers md5 db
  nd : db.callFiles.keys.Nodup

variable {sg : Sig B R} {vers : FileName → Nat → Option Content} {md5 : Content → Digest}
  {L : Bool} {db db' : CDB B R} {log : List (Exec B R)}

theorem Inv.init : Inv sg vers md5 L ({} : CDB B R) [] where
  noFun _ _ := rfl
  slot _ _ _ _ _ h := by simp at h
  distinct _ _ _ _ _ _ _ h := by simp at h
  cfBound _ _ _ _ h := by simp [callFile] at h
  files _ _ _ h := by simp at h
  nd := by simp [Dict.keys]

theorem SlotFor.touch {f : FunName} {i : Nat} {e : Exec B R} (h : SlotFor sg md5 db f i e)
    (t : Touch db db') : SlotFor sg md5 db' f i e where
  fn := h.fn
  code := by rw [t.functions]; exact h.code
  esrcs := by rw [t.esrcs]; exact h.esrcs
  edsts := by rw [t.edsts]; exact h.edsts
  digest x d hx hd := h.digest x d hx (t.cf_some hd)

theorem Inv.touch (h : Inv sg vers md5 L db log) (t : Touch db db') (hf : FilesOK vers md5 db') :
    Inv sg vers md5 L db' log where
  noFun f h1 := by rw [t.calls]; rw [t.functions] at h1; exact h.noFun f h1
  slot f datas i b r h1 h2 := by
    rw [t.calls] at h1
    obtain ⟨e, he, h3, h4, h5, h6⟩ := h.slot f datas i b r h1 h2
    exact ⟨e, he, h3, h4, h5.touch t, h6⟩
  distinct f datas i j b r r' h1 := by rw [t.calls] at h1; exact h.distinct f datas i j b r r' h1
  cfBound x f i d h1 := by rw [t.calls]; exact h.cfBound x f i d (t.cf_some h1)
  files := hf
  nd := t.nd h.nd

theorem Inv.weaken (h : Inv sg vers md5 L db log) : Inv sg vers md5 false db log where
  noFun := h.noFun
  slot f datas i b r h1 h2 := by
    obtain ⟨e, he, h3, h4, h5, _⟩ := h.slot f datas i b r h1 h2
    exact ⟨e, he, h3, h4, h5, by simp⟩
  distinct := h.distinct
  cfBound := h.cfBound
  files := h.files
  nd := h.nd

theorem Inv.log_cons (h : Inv sg vers md5 false db log) (e : Exec B R) :
    Inv sg vers md5 false db (e :: log) where
  noFun := h.noFun
  slot f datas i b r h1 h2 := by
    obtain ⟨e', he, h3, h4, h5, _⟩ := h.slot f datas i b r h1 h2
    exact ⟨e', List.mem_cons_of_mem _ he, h3, h4, h5, by simp⟩
  distinct := h.distinct
  cfBound := h.cfBound
  files := h.files
  nd := h.nd

theorem Inv.drop {f : FunName} (h : Inv sg vers md5 L db log) (t : DropFun f db db') :
    Inv sg vers md5 L db' log where
  noFun g h1 := by
    rw [t.functions] at h1; rw [t.calls]
    split
    · rfl
    · rename_i hg; rw [if_neg hg] at h1; exact h.noFun g h1
  slot g datas i b r h1 h2 := by
    rw [t.calls] at h1
    split at h1
    · cases h1
    · rename_i hg
      obtain ⟨e, he, h3, h4, h5, h6⟩ := h.slot g datas i b r h1 h2
      refine ⟨e, he, h3, h4, ?_, h6⟩
      refine ⟨h5.fn, ?_, ?_, ?_, ?_⟩
      · rw [t.functions, if_neg hg]; exact h5.code
      · rw [t.esrcs, if_neg hg]; exact h5.esrcs
      · rw [t.edsts, if_neg hg]; exact h5.edsts
      · intro x d hx hd
        rw [t.cf, if_neg hg] at hd
        exact h5.digest x d hx hd
  distinct g datas i j b r r' h1 := by
    rw [t.calls] at h1
    split at h1
    · cases h1
    · exact h.distinct g datas i j b r r' h1
  cfBound x g i d h1 := by
    rw [t.cf] at h1
    split at h1
    · cases h1
    · rename_i hg
      rw [t.calls, if_neg hg]; exact h.cfBound x g i d h1
  files x m d h1 := by rw [t.files] at h1; exact h.files x m d h1
  nd := t.nd

theorem Inv.saveFun {f : FunName} {code : Digest} (deps : List FunName)
    (h : Inv sg vers md5 L db log)
    (hc : ∀ d ds, db.functions.get? f = some (d, ds) → d = code) :
    Inv sg vers md5 L { db with functions := db.functions.set f (code, deps) } log where
  noFun g h1 := by
    simp only [Dict.get?_set] at h1
    split at h1
    · cases h1
    · exact h.noFun g h1
  slot g datas i b r h1 h2 := by
    obtain ⟨e, he, h3, h4, h5, h6⟩ := h.slot g datas i b r h1 h2
    refine ⟨e, he, h3, h4, ⟨h5.fn, ?_, h5.esrcs, h5.edsts, h5.digest⟩, h6⟩
    simp only [Dict.get?_set]
    split
    · rename_i hg; subst hg
      obtain ⟨ds, h7⟩ := h5.code
      rw [hc _ _ h7]; exact ⟨deps, rfl⟩
    · exact h5.code
  distinct := h.distinct
  cfBound := h.cfBound
  files := h.files
  nd := h.nd

theorem Inv.store {env : Env} {f : FunName} {b : B} {r : R}
    {digs : List (FileName × FileName × Digest)} {ext extDsts : List FileName} {ok : Bool} {i : Nat}
    {code : Digest} {deps calls : List FunName} {fs0 : FS} {dirty : Bool}
    (h : Inv sg vers env.md5 L db log)
    (hfun : db.functions.get? f = some (code, deps))
    (st : Stored env f b r digs ext extDsts ok i db db')
    (hf : FilesOK vers env.md5 db')
    (hslot : (i = ((db.functionCalls.get? f).getD []).length ∧ ¬ HasSlot db f b) ∨
      ∃ datas r', db.functionCalls.get? f = some datas ∧ datas[i]? = some (b, r'))
    (hdigs : ∀ t ∈ digs, ∃ c, fs0.content t.1 = some c ∧ t.2.2 = env.md5 c)
    (hrest : ∀ x ∈ sg.srcs f code b, (∀ t ∈ digs, t.1 ≠ x) →
      ∀ d, db.callFile x f i = some d → ∃ c, fs0.content x = some c ∧ d = env.md5 c) :
    Inv sg vers env.md5 L db' (⟨f, code, b, r, dirty, fs0, env.fs, calls, ext, extDsts, ok⟩ :: log) := by
  obtain ⟨datas', hd', hi', hne', hlen'⟩ := st.calls
  -- a slot of `f` other than `i` was there before and has other arguments
  have hother : ∀ (j : Nat) b' r', j ≠ i → datas'[j]? = some (b', r') →
      ∃ datas, db.functionCalls.get? f = some datas ∧ datas[j]? = some (b', r') ∧ b' ≠ b := by
    intro j b' r' hj hj2
    rw [hne' j hj] at hj2
    cases hc : db.functionCalls.get? f with
    | none => rw [hc] at hj2; simp at hj2
    | some datas =>
      rw [hc] at hj2
      simp only [Option.getD_some] at hj2
      refine ⟨datas, rfl, hj2, ?_⟩
      rintro rfl
      rcases hslot with ⟨_, hn⟩ | ⟨ds, r2, h1, h2⟩
      · exact hn ⟨datas, j, r', hc, hj2⟩
      · rw [hc] at h1; cases h1
        exact hj (h.distinct f datas j i b' r' r2 hc hj2 h2)
  refine ⟨?_, ?_, ?_, ?_, hf, st.nd h.nd⟩
  · intro g hg
    rw [st.functions] at hg
    have hgf : g ≠ f := by rintro rfl; rw [hfun] at hg; cases hg
    rw [st.calls_ne g hgf]; exact h.noFun g hg
  · intro g datas j b' r' h1 h2
    by_cases hgi : (g, j) = (f, i)
    · obtain ⟨rfl, rfl⟩ := Prod.mk.inj hgi
      rw [hd'] at h1; cases h1
      rw [hi'] at h2; cases h2
      refine ⟨_, List.mem_cons_self .., rfl, rfl, ⟨rfl, ?_, ?_, ?_, ?_⟩, ?_⟩
      · rw [st.functions]; exact ⟨deps, hfun⟩
      · rw [st.esrcs, if_pos rfl]
      · rw [st.edsts, if_pos rfl]
      · intro x d hx hd
        simp only [Exec.view]
        rcases st.cf x d hd with ⟨h3, h4, c, h5, h6⟩ | ⟨h3, h4⟩
        · rw [if_pos ⟨h3, h4⟩]; exact ⟨c, h5, h6⟩
        · rw [if_neg (fun h => h3 h.1 h.2)]
          rcases h4 with ⟨t, ht, htx, h5⟩ | ⟨h5, h6⟩
          · obtain ⟨c, hc, hc2⟩ := hdigs t ht
            subst htx; exact ⟨c, hc, by rw [h5, hc2]⟩
          · have hx' : x ∈ sg.srcs g code b := by
              rcases hx with hx | hx
              · exact hx
              · exact absurd hx.2 (h3 hx.1)
            exact hrest x hx' h5 d h6
      · intro _; exact ⟨[], log, rfl, by simp⟩
    · have hold : ∃ datas0, db.functionCalls.get? g = some datas0 ∧ datas0[j]? = some (b', r') ∧
          ¬ (f = g ∧ b = b') := by
        by_cases hg : g = f
        · subst hg
          rw [hd'] at h1; cases h1
          have hj : j ≠ i := fun hji => hgi (by rw [hji])
          obtain ⟨ds, h3, h4, h5⟩ := hother j b' r' hj h2
          exact ⟨ds, h3, h4, fun h => h5 h.2.symm⟩
        · rw [st.calls_ne g hg] at h1
          exact ⟨datas, h1, h2, fun h => hg h.1.symm⟩
      obtain ⟨ds, h3, h4, h5⟩ := hold
      obtain ⟨e, he, h6, h7, h8, h9⟩ := h.slot g ds j b' r' h3 h4
      refine ⟨e, List.mem_cons_of_mem _ he, h6, h7, ⟨h8.fn, ?_, ?_, ?_, ?_⟩, ?_⟩
      · rw [st.functions]; exact h8.code
      · rw [st.esrcs, if_neg (fun h => hgi h.symm)]; exact h8.esrcs
      · rw [st.edsts, if_neg (fun h => hgi h.symm)]; exact h8.edsts
      · intro x d hx hd
        rcases st.cf_ne x g j hgi with h10 | h10
        · rw [h10] at hd; exact h8.digest x d hx hd
        · rw [h10] at hd; cases hd
      · intro hL
        obtain ⟨pre, post, h10, h11⟩ := h9 hL
        refine ⟨_ :: pre, post, by rw [h10]; rfl, ?_⟩
        intro e' he' hfn
        rw [List.mem_cons] at he'
        rcases he' with rfl | he'
        · simp only at hfn
          refine ⟨fun hb => h5 ⟨hfn, hb⟩, ?_⟩
          subst hfn
          obtain ⟨ds', h12⟩ := h8.code
          rw [hfun] at h12; cases h12; rfl
        · exact h11 e' he' hfn
  · intro g datas j k b' r1 r2 h1 h2 h3
    by_cases hg : g = f
    · subst hg
      rw [hd'] at h1; cases h1
      by_cases hj : j = i
      · by_cases hk : k = i
        · omega
        · subst hj
          rw [hi'] at h2; cases h2
          obtain ⟨_, _, _, h6⟩ := hother k _ r2 hk h3
          exact absurd rfl h6
      · by_cases hk : k = i
        · subst hk
          rw [hi'] at h3; cases h3
          obtain ⟨_, _, _, h6⟩ := hother j _ r1 hj h2
          exact absurd rfl h6
        · obtain ⟨ds, h4, h5, _⟩ := hother j b' r1 hj h2
          obtain ⟨ds', h6, h7, _⟩ := hother k b' r2 hk h3
          rw [h4] at h6; cases h6
          exact h.distinct g ds j k b' r1 r2 h4 h5 h7
    · rw [st.calls_ne g hg] at h1
      exact h.distinct g datas j k b' r1 r2 h1 h2 h3
  · intro x g j d h1
    by_cases hgi : (g, j) = (f, i)
    · obtain ⟨rfl, rfl⟩ := Prod.mk.inj hgi
      exact ⟨datas', hd', (List.getElem?_eq_some_iff.1 hi').1⟩
    · rcases st.cf_ne x g j hgi with h10 | h10
      · rw [h10] at h1
        obtain ⟨ds, h3, h4⟩ := h.cfBound x g j d h1
        by_cases hg : g = f
        · subst hg
          refine ⟨datas', hd', ?_⟩
          rw [h3] at hlen'; simp only [Option.getD_some] at hlen'; omega
        · rw [st.calls_ne g hg]; exact ⟨ds, h3, h4⟩
      · rw [h10] at h1; cases h1

/-! ### calls in flight -/

/-- since the call was prepared, a call of the same function that found it dirty was completed -/
def DirtySince (p : Pending B R) (log : List (Exec B R)) : Prop :=
  ∃ e ∈ log.take (log.length - p.start), e.fn = p.fn ∧ e.dirty = true

structure PInv (sg : Sig B R) (env : Env) (db : CDB B R) (log : List (Exec B R))
    (p : Pending B R) : Prop where
  start : p.start ≤ log.length
  code : env.funDigest p.fn = some p.code
  clean : p.prep.funDirty = false →
    p.prep.funId = some p.fn ∧ ∃ deps, db.functions.get? p.fn = some (p.code, deps)
  digs : ∀ t ∈ p.prep.callFileDigests, ∃ c, p.fs0.content t.1 = some c ∧ t.2.2 = env.md5 c
  new : p.prep.found = none →
    ∀ x ∈ sg.srcs p.fn p.code p.bound, ∃ t ∈ p.prep.callFileDigests, t.1 = x
  fresh : p.prep.funId = none → ∀ d deps, db.functions.get? p.fn = some (d, deps) → d = p.code
  noslot : p.prep.found = none → (p.prep.funDirty = false ∨ p.prep.funId = none) →
    ¬ HasSlot db p.fn p.bound
  dirty : p.prep.funDirty = true → p.prep.found = none
  old : ∀ g i r, p.prep.found = some ((g, i), r) → g = p.fn ∧ p.prep.funDirty = false ∧
    (¬ DirtySince p log → (∃ datas r', db.functionCalls.get? p.fn = some datas ∧
        datas[i]? = some (p.bound, r')) ∧
      ∀ x ∈ sg.srcs p.fn p.code p.bound, (∀ t ∈ p.prep.callFileDigests, t.1 ≠ x) →
        ∀ d, db.callFile x p.fn i = some d → ∃ c, p.fs0.content x = some c ∧ d = env.md5 c)

/-- what a completed call of `(fn, bound)` changes for other calls in flight -/
structure Completed (fn : FunName) (code : Digest) (bound : B) (dirty del : Bool)
    (deps : List FunName) (db db' : CDB B R) : Prop where
  fun_ne : ∀ g, g ≠ fn → db'.functions.get? g = db.functions.get? g
  fun_eq : ∃ deps, db'.functions.get? fn = some (code, deps)
  fun_dirty : dirty = true → db'.functions.get? fn = some (code, deps)
  fun_clean : dirty = false → db'.functions.get? fn = db.functions.get? fn
  slots : ∀ f b, HasSlot db' f b → HasSlot db f b ∨ (f = fn ∧ b = bound)
  drop : dirty = true → del = true → ∀ b, HasSlot db' fn b → b = bound
  keep : ∀ f datas (j : Nat) b r, (dirty = false ∨ del = false ∨ f ≠ fn) →
    ¬ (f = fn ∧ b = bound) →
    db.functionCalls.get? f = some datas → datas[j]? = some (b, r) →
    ∃ datas', db'.functionCalls.get? f = some datas' ∧ datas'[j]? = some (b, r) ∧
      (findExt db'.externalSrcs (f, j) = findExt db.externalSrcs (f, j) ∧
        findExt db'.externalDsts (f, j) = findExt db.externalDsts (f, j)) ∧
      ∀ x, db'.callFile x f j = db.callFile x f j ∨ db'.callFile x f j = none

theorem PInv.completed {env : Env} {p q : Pending B R} {e : Exec B R}
    (hq : PInv sg env db log q) (hfn : e.fn = p.fn) (hdirty : e.dirty = p.prep.funDirty)
    (hcode : env.funDigest p.fn = some p.code)
    {deps : List FunName} (hc : Completed p.fn p.code p.bound p.prep.funDirty p.prep.funId.isSome deps db db')
    (hne : ¬ (q.fn = p.fn ∧ q.bound = p.bound)) : PInv sg env db' (e :: log) q := by
  have hcq : q.fn = p.fn → q.code = p.code := by
    intro h
    have h1 := hq.code; rw [h, hcode] at h1; exact (Option.some.inj h1).symm
  have hsince : ¬ DirtySince q (e :: log) →
      ¬ DirtySince q log ∧ (p.prep.funDirty = false ∨ q.fn ≠ p.fn) := by
    intro h
    have ht : (e :: log).take ((e :: log).length - q.start) =
        e :: log.take (log.length - q.start) := by
      have h1 := hq.start
      rw [List.length_cons, Nat.sub_add_comm h1, List.take_succ_cons]
    unfold DirtySince at h
    rw [ht] at h
    constructor
    · rintro ⟨e', he', h2⟩
      exact h ⟨e', List.mem_cons_of_mem _ he', h2⟩
    · by_cases h3 : q.fn = p.fn
      · left
        cases hd : p.prep.funDirty with
        | false => rfl
        | true =>
          exfalso
          exact h ⟨e, List.mem_cons_self .., by rw [hfn, h3], by rw [hdirty, hd]⟩
      · exact Or.inr h3
  refine ⟨Nat.le_succ_of_le hq.start, hq.code, ?_, hq.digs, hq.new, ?_, ?_, hq.dirty, ?_⟩
  · intro h
    obtain ⟨h1, deps, h2⟩ := hq.clean h
    refine ⟨h1, ?_⟩
    by_cases hf : q.fn = p.fn
    · rw [hf, hcq hf]; exact hc.fun_eq
    · rw [hc.fun_ne _ hf]; exact ⟨deps, h2⟩
  · intro h d deps h2
    by_cases hf : q.fn = p.fn
    · rw [hf] at h2
      obtain ⟨ds, h3⟩ := hc.fun_eq
      rw [h3] at h2; cases h2; exact (hcq hf).symm
    · rw [hc.fun_ne _ hf] at h2; exact hq.fresh h d deps h2
  · intro h1 h2 h3
    rcases hc.slots _ _ h3 with h4 | h4
    · exact hq.noslot h1 h2 h4
    · exact hne h4
  · intro g i r h
    obtain ⟨h1, h2, h3⟩ := hq.old g i r h
    refine ⟨h1, h2, fun h4 => ?_⟩
    obtain ⟨h5, h6⟩ := hsince h4
    obtain ⟨⟨datas, r', h7, h8⟩, h9⟩ := h3 h5
    obtain ⟨datas', h10, h11, _, h12⟩ := hc.keep _ _ _ _ _ (h6.imp_right Or.inr) hne h7 h8
    refine ⟨⟨datas', r', h10, h11⟩, ?_⟩
    intro x hx ht d hd
    rcases h12 x with h13 | h13
    · rw [h13] at hd; exact h9 x hx ht d hd
    · rw [h13] at hd; cases hd

theorem PInv.touch {env : Env} {q : Pending B R} (hq : PInv sg env db log q) (t : Touch db db') :
    PInv sg env db' log q where
  start := hq.start
  code := hq.code
  clean h := by rw [t.functions]; exact hq.clean h
  digs := hq.digs
  new := hq.new
  fresh h := by rw [t.functions]; exact hq.fresh h
  noslot h1 h2 := by
    rintro ⟨datas, i, r, h3, h4⟩
    rw [t.calls] at h3
    exact hq.noslot h1 h2 ⟨datas, i, r, h3, h4⟩
  dirty := hq.dirty
  old g i r h := by
    obtain ⟨h1, h2, h3⟩ := hq.old g i r h
    refine ⟨h1, h2, fun h4 => ?_⟩
    rw [t.calls]
    obtain ⟨h5, h6⟩ := h3 h4
    exact ⟨h5, fun x hx ht d hd => h6 x hx ht d (t.cf_some hd)⟩

end Verif.DB
