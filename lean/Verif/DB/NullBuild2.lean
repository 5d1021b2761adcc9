import Verif.DB.NullBuild
/-! A stored call whose files stay as they are stays stored, and is answered by a hit. -/
namespace Verif.DB
open CDB
set_option linter.unusedSectionVars false

variable {B R : Type} [DecidableEq B] {sg : Sig B R} {vers : FileName → Nat → Option Content}
  {crashes : Bool}

/-- the tables answer the call `(f, b)` with `r`, if its files stay as they are -/
structure Up (sg : Sig B R) (f : FunName) (code : Digest) (b : B) (r : R)
    (ext extDsts : List FileName) (i : Nat) (s : Sys B R) : Prop where
  recd : ∃ deps, s.db.functions.get? f = some (code, deps)
  slot : ∃ datas, s.db.functionCalls.get? f = some datas ∧ datas[i]? = some (b, r)
  esrcs : findExt s.db.externalSrcs (f, i) = ext
  edsts : findExt s.db.externalDsts (f, i) = extDsts
  fresh : ∀ x ∈ sg.srcs f code b ++ ext, Fresh s.env s.db x
  files : ∀ x ∈ sg.srcs f code b ++ ext, ∃ c, s.env.fs.content x = some c ∧
    s.db.callFile x f i = some (s.env.md5 c)

variable {f : FunName} {code : Digest} {b : B} {r : R} {ext extDsts : List FileName} {i : Nat}
  {s : Sys B R}

/-- new tables that keep the slot keep the call answered -/
theorem Up.keep (h : Up sg f code b r ext extDsts i s) {db' : CDB B R} {ok : FunName → Prop}
    (hok : ok f)
    (hcode : ∃ deps, db'.functions.get? f = some (code, deps))
    (hslot : ∃ datas, db'.functionCalls.get? f = some datas ∧ datas[i]? = some (b, r))
    (hes : findExt db'.externalSrcs (f, i) = findExt s.db.externalSrcs (f, i))
    (hed : findExt db'.externalDsts (f, i) = findExt s.db.externalDsts (f, i))
    (hst : Stay s.env ok s.db db')
    (hcf : ∀ x, db'.callFile x f i = s.db.callFile x f i ∨ db'.callFile x f i = none)
    {s' : Sys B R} (hs : s'.db = db') (he : s'.env.md5 = s.env.md5)
    (hfs : ∀ x ∈ sg.srcs f code b ++ ext, s'.env.fs.content x = s.env.fs.content x) :
    Up sg f code b r ext extDsts i s' := by
  subst hs
  refine ⟨hcode, hslot, hes.trans h.esrcs, hed.trans h.edsts, ?_, ?_⟩
  · intro x hx
    exact (hst x (h.fresh x hx)).1.withEnv he (hfs x hx)
  · intro x hx
    obtain ⟨c, h1, h2⟩ := h.files x hx
    refine ⟨c, by rw [hfs x hx, h1], ?_⟩
    rw [he, ← h2]
    rcases hcf x with h3 | h3
    · exact h3
    · have := (hst x (h.fresh x hx)).2 f i hok (by rw [h2]; rfl)
      rw [h3] at this; cases this

theorem Up.touch (h : Up sg f code b r ext extDsts i s) {db' : CDB B R}
    (ht : Touch s.db db') (hst : Stay s.env (fun _ => True) s.db db')
    {s' : Sys B R} (hs : s'.db = db') (he : s'.env.md5 = s.env.md5)
    (hfs : ∀ x ∈ sg.srcs f code b ++ ext, s'.env.fs.content x = s.env.fs.content x) :
    Up sg f code b r ext extDsts i s' := by
  refine h.keep (ok := fun _ => True) trivial (by rw [ht.functions]; exact h.recd)
    (by rw [ht.calls]; exact h.slot) (by rw [ht.esrcs]) (by rw [ht.edsts]) hst
    (fun x => ht.cf x f i) hs he hfs

/-- the completion of another call -/
theorem Up.complete (hr : Reach sg vers crashes s) (h : Up sg f code b r ext extDsts i s)
    (id : Nat) (r' : R) (deps : List FunName) (ext' extDsts' : List FileName)
    (ha : Allowed vers s (.complete id r' deps ext' extDsts'))
    (hq : ∀ q, s.inflight.get? id = some q → ¬ (q.fn = f ∧ q.bound = b) ∧
      (q.fn = f → q.prep.funDirty = false ∨ q.prep.funId = none)) :
    Up sg f code b r ext extDsts i (step sg s (.complete id r' deps ext' extDsts')).2 := by
  have hI := reach_inv hr
  simp only [step, stepComplete]
  cases hp : s.inflight.get? id with
  | none => exact h
  | some q =>
    simp only
    obtain ⟨hne, hdir⟩ := hq q hp
    have hal : q.prep.found.isSome → ¬ DirtySince q s.log := by
      rintro hf ⟨e, he, h1, h2⟩
      have := ha q hp hf e he h1
      rw [h2] at this; cases this
    have hP := hI.pending id q hp
    obtain ⟨ok, out, hout, _, _, hc, _, _⟩ := complete_inv hI.db hP hI.faithful hal r' deps ext' extDsts'
    have hor : q.prep.funDirty = false ∨ q.prep.funId.isSome = false ∨ f ≠ q.fn := by
      by_cases hf : q.fn = f
      · rcases hdir hf with h | h
        · exact Or.inl h
        · exact Or.inr (Or.inl (by rw [h]; rfl))
      · exact Or.inr (Or.inr (Ne.symm hf))
    obtain ⟨datas, hd, hdi⟩ := h.slot
    obtain ⟨datas', k1, k2, ⟨k3, k4⟩, k5⟩ := hc.keep f datas i b r hor
      (fun hx => hne ⟨hx.1.symm, hx.2.symm⟩) hd hdi
    have hcode : ∃ deps, out.2.functions.get? f = some (code, deps) := by
      by_cases hf : q.fn = f
      · obtain ⟨ds, hds⟩ := hc.fun_eq
        obtain ⟨ds0, hds0⟩ := h.recd
        have : q.code = code := by
          rcases hdir hf with hx | hx
          · obtain ⟨_, ds1, h1⟩ := hP.clean hx
            rw [hf, hds0] at h1; cases h1; rfl
          · exact (hP.fresh hx code ds0 (by rw [hf]; exact hds0)).symm
        rw [hf, this] at hds; exact ⟨ds, hds⟩
      · rw [hc.fun_ne f (Ne.symm hf)]; exact h.recd
    have hst : Stay s.env (fun g => g = f) s.db out.2 := by
      rw [← hout, cache_eq s.env ext' extDsts' q.prep.funDirty q.prep.funId q.fn q.code deps
            (q.prep.found.map Prod.fst) q.bound r' q.prep.callFileDigests s.db
            (fun hd => (hP.clean hd).1)]
      refine Stay.trans ?_ (storeCall_stay _ _ _ _ _ _ _ _)
      by_cases hn : q.prep.funId = none
      · intro x hx
        unfold recordFun
        rw [hn]
        cases q.prep.funDirty with
        | false => exact ⟨hx, fun _ _ _ h => h⟩
        | true => exact ⟨hx.congr rfl, fun _ _ _ h => h⟩
      · refine recordFun_stay _ _ _ _ _ _ hI.db.nd ?_
        rintro g rfl
        rcases hor with h | h | h
        · exact Or.inl h
        · exfalso
          cases hfi : q.prep.funId with
          | none => exact hn hfi
          | some _ => rw [hfi] at h; cases h
        · exact Or.inr h
    rw [hout]
    obtain ⟨y, db⟩ := out
    cases y <;>
    exact h.keep (db' := db) (ok := fun g => g = f) rfl hcode ⟨datas', k1, k2⟩ k3 k4 hst k5 rfl rfl
      (fun _ _ => rfl)

theorem Fresh.erase {env : Env} {db : CDB B R} {x y : FileName} (h : Fresh env db x) (hne : y ≠ x) :
    Fresh env (CDB.deleteFile y db).2 x := by
  obtain ⟨c, m, h1, h2⟩ := h
  refine ⟨c, m, h1, ?_⟩
  simp only [CDB.deleteFile, Dict.get?_erase, if_neg hne]; exact h2

/-- the tables answer a call whose files are as recorded -/
theorem Up.hit (hr : Reach sg vers crashes s) (h : Up sg f code b r ext extDsts i s)
    (hd : s.env.funDigest f = some code)
    (hfun : checkFunction (storage B R) s.env s.db s.env.recursionLimit f = .ok (false, some f))
    (hdst : ∀ x ∈ sg.returnDsts f code r ++ sg.dsts f code b ++ extDsts, (s.env.fs x).isSome)
    (id : Nat) : (step sg s (.prepare id f b)).1 = .hit r := by
  have hI := reach_inv hr
  obtain ⟨datas, h1, h2⟩ := h.slot
  have hfind : findCall f b s.db = some ((f, i), r) := by
    unfold findCall
    rw [h1]
    simp only
    rw [findCallFrom_at h2 (fun j r' hj => hI.db.distinct f datas j i b r' r h1 hj h2)]
    simp
  -- files in order
  let Good : CDB B R → FileName → Prop := fun db x => ∃ c, s.env.fs.content x = some c ∧
    (∃ m, db.files.get? x = some (m, s.env.md5 c)) ∧ db.callFile x f i = some (s.env.md5 c)
  have hgood : ∀ x ∈ sg.srcs f code b ++ ext, Good s.db x := by
    intro x hx
    obtain ⟨c, k1, k2⟩ := h.files x hx
    obtain ⟨c', m, k3, k4⟩ := h.fresh x hx
    rw [k1] at k3; cases k3
    exact ⟨c, k1, ⟨m, k4⟩, k2⟩
  have hone : ∀ db y, Good db y → ∃ db' dg, checkCallFile (storage B R) s.env (some (f, i)) y db =
      (.ok (false, y, dg), db') ∧ (∃ fl, db' = { db with files := fl }) ∧
        ∀ x, Good db x → Good db' x := by
    rintro db y ⟨c, hc, ⟨m, hm⟩, hcf⟩
    obtain ⟨fst, hy, hyc⟩ := FS.content_some.1 hc
    have hadd : ∃ fl, addFile (storage B R) s.env y db =
        (.ok (false, y, s.env.md5 c), { db with files := fl }) ∧
        ∀ x c', s.env.fs.content x = some c' → (∃ m, db.files.get? x = some (m, s.env.md5 c')) →
          ∃ m, Dict.get? fl x = some (m, s.env.md5 c') := by
      unfold addFile
      simp only [hy, storage, CDB.findFile, hm]
      split
      · exact ⟨db.files, rfl, fun _ _ _ h => h⟩
      · simp only [hyc, if_true, CDB.saveFile]
        refine ⟨_, rfl, ?_⟩
        rintro x c' hc' ⟨m', hm'⟩
        simp only [Dict.get?_set]
        split
        · rename_i hyx; subst hyx
          rw [hc] at hc'; cases hc'
          exact ⟨_, rfl⟩
        · exact ⟨m', hm'⟩
    obtain ⟨fl, k1, k2⟩ := hadd
    refine ⟨{ db with files := fl }, s.env.md5 c, ?_, ⟨fl, rfl⟩, ?_⟩
    · unfold checkCallFile
      rw [k1]
      have : (storage B R).findCallFile (f, i) y ({ db with files := fl } : CDB B R) =
          some (s.env.md5 c) := hcf
      simp only [this, if_true]
    · rintro x ⟨c', hc', hm', hcf'⟩
      exact ⟨c', hc', k2 x c' hc' hm', hcf'⟩
  have hall : ∀ xs db, (∀ x ∈ xs, Good db x) →
      ∃ db', checkCallFiles (storage B R) s.env (some (f, i)) xs db = (.ok [], db') ∧
        (∃ fl, db' = { db with files := fl }) ∧ ∀ x, Good db x → Good db' x := by
    intro xs
    induction xs with
    | nil => intro db _; exact ⟨db, rfl, ⟨db.files, rfl⟩, fun _ h => h⟩
    | cons x xs ih =>
      intro db hg
      obtain ⟨db1, dg, k1, ⟨fl1, k2⟩, k3⟩ := hone db x (hg x (by simp))
      obtain ⟨db2, k4, ⟨fl2, k5⟩, k6⟩ := ih db1 (fun y hy => k3 y (hg y (by simp [hy])))
      refine ⟨db2, ?_, ⟨fl2, by rw [k5, k2]⟩, fun y hy => k6 y (k3 y hy)⟩
      unfold checkCallFiles
      rw [k1]
      simp only [k4]
      rfl
  have hext : ∀ xs db, (∀ x ∈ xs, Good db x) →
      (checkExternalLoop (storage B R) s.env (f, i) xs db).1 = [] := by
    intro xs
    induction xs with
    | nil => intro db _; rfl
    | cons x xs ih =>
      intro db hg
      obtain ⟨db1, dg, k1, ⟨fl1, k2⟩, k3⟩ := hone db x (hg x (by simp))
      have := ih db1 (fun y hy => k3 y (hg y (by simp [hy])))
      unfold checkExternalLoop
      rw [k1]
      simp only [this]
      rfl
  obtain ⟨db1, k1, ⟨fl, k2⟩, k3⟩ := hall (sg.srcs f code b) s.db
    (fun x hx => hgood x (List.mem_append_left _ hx))
  have he1 : findExt db1.externalSrcs (f, i) = ext := by rw [k2]; exact h.esrcs
  have he2 : findExt db1.externalDsts (f, i) = extDsts := by rw [k2]; exact h.edsts
  have k4 := hext ext db1 (fun x hx => k3 x (hgood x (List.mem_append_right _ hx)))
  have hlook : lookupCall (storage B R) false (some f) b s.db = some ((f, i), r) := hfind
  simp only [step, stepPrepare, hd]
  unfold prepare
  rw [hfun]
  simp only [hlook, Option.map_some, k1]
  have es : (storage B R).findExternalSrcs (f, i) db1 = ext := he1
  have ed : (storage B R).findExternalDsts (f, i) db1 = extDsts := he2
  rw [es, ed]
  generalize checkExternalLoop (storage B R) s.env (f, i) ext db1 = X at k4
  obtain ⟨y, db2⟩ := X
  simp only at k4
  subst k4
  have hh : Verif.DB.hit s.env (sg.dsts f code b) (sg.returnDsts f code)
      (⟨false, some f, some ((f, i), r), [], ext, extDsts, []⟩ :
        Prep FunName (FunName × Nat) FileName R) = some r := by
    unfold Verif.DB.hit
    have : (sg.returnDsts f code r ++ sg.dsts f code b ++ extDsts).all
        (fun x => (s.env.fs x).isSome) = true := by
      rw [List.all_eq_true]; exact hdst
    simp only [List.isEmpty_nil, Bool.not_true, Bool.or_false, Bool.false_eq_true, if_false]
    rw [if_pos this]
  simp only [hh]

end Verif.DB
