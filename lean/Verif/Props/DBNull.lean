import Verif.DB.NullBuild2
/-!
# C06: the null build

If nothing changed since a call was executed and stored, calling it again returns the stored
result without running the function; so repeating a build runs nothing.
-/
namespace Verif.DB
open CDB
set_option linter.unusedSectionVars false

variable {B R : Type} [DecidableEq B] {sg : Sig B R} {vers : FileName → Nat → Option Content}
  {crashes : Bool} {tr : Trace B R} {s : Sys B R}

/-- the function is recorded -/
def Known (s : Sys B R) (f : FunName) : Prop := ∃ q, findFunction f s.db = some q

/-- `f`, or a cached function it is recorded to call (in any number of steps), has another text
than when it was recorded -/
def Stale (s : Sys B R) (f : FunName) : Prop :=
  ∃ g, RecReach (storage B R) s.db f g ∧ Changed (storage B R) s.env s.db g

/-- Recorded calls have no cycle other than direct recursion, and the depth is below the limit. -/
def Shallow (s : Sys B R) (f : FunName) : Prop :=
  ∃ rank : FunName → Nat, (∀ f g, RecCall (storage B R) s.db f g → g ≠ f → rank g < rank f) ∧
    rank f < s.env.recursionLimit

/-- An event that concerns other calls: it may be anything, except the completion of an equal
call, the completion of a call of `f` that was started when `f` was stale (it discards all
results of `f`), a crash, or the removal of `f` or of one of the files from the database. -/
def Elsewhere (sg : Sig B R) (f : FunName) (b : B) (xs : List FileName) (older : Trace B R) :
    Event B R → Prop
  | .complete id _ _ _ _ => ∀ b' s0, Running sg older id f b' s0 →
      b' ≠ b ∧ ¬ (Known s0 f ∧ Stale s0 f)
  | .crash _ => False
  | .deleteFunction g => g ≠ f
  | .deleteFile x => x ∉ xs
  | _ => True

/-- The call `(f, b)` was executed and stored with result `r`, and nothing it depends on changed
since: not its declared sources since the execution began, not the external sources it reported
since it ended, not the text of `f` and of the functions it calls; all its destinations exist. -/
structure Settled (sg : Sig B R) (tr : Trace B R) (s : Sys B R) (f : FunName) (b : B) (r : R) :
    Prop where
  exec : ∃ later s1 id deps ext extDsts mid s0 rest code,
    tr = later ++ (s1, .complete id r deps ext extDsts) :: (mid ++ (s0, .prepare id f b) :: rest) ∧
    -- the execution: started in s0, not interrupted, stored in s1
    (step sg s0 (.prepare id f b)).1 = .run ∧ (∀ q ∈ mid, q.2.ends id = false) ∧
    (step sg s1 (.complete id r deps ext extDsts)).1 = .done ∧
    -- same text
    s0.env.funDigest f = some code ∧ s.env.funDigest f = some code ∧
    -- same sources
    (∀ x ∈ sg.srcs f code b, (∀ q ∈ mid, q.1.env.fs.content x = s0.env.fs.content x) ∧
      s1.env.fs.content x = s0.env.fs.content x ∧
      (∀ q ∈ later, q.1.env.fs.content x = s0.env.fs.content x) ∧
      s.env.fs.content x = s0.env.fs.content x) ∧
    (∀ x ∈ ext, (∀ q ∈ later, q.1.env.fs.content x = s1.env.fs.content x) ∧
      s.env.fs.content x = s1.env.fs.content x) ∧
    -- what happened since concerns other calls
    (∀ l1 q l2, later = l1 ++ q :: l2 → Elsewhere sg f b (sg.srcs f code b ++ ext)
      (l2 ++ (s1, .complete id r deps ext extDsts) :: (mid ++ (s0, .prepare id f b) :: rest)) q.2) ∧
    -- the destinations exist
    (∀ x ∈ sg.returnDsts f code r ++ sg.dsts f code b ++ extDsts, (s.env.fs x).isSome)
  notStale : ¬ Stale s f
  shallow : Shallow s f

theorem History.running_prep (h : History sg vers crashes tr s) {id : Nat} {f : FunName} {b : B}
    {s0 : Sys B R} (hr : Running sg tr id f b s0) {p : Pending B R}
    (hp : s.inflight.get? id = some p) :
    (prepare (storage B R) s0.env f b (sg.srcs f p.code b) s0.db).1 = .ok p.prep := by
  obtain ⟨mid, older, he, hrun, hmid⟩ := hr
  induction h generalizing mid with
  | init env h => simp at he
  | step ev hs ha hc ih =>
    rename_i tr' s'
    cases mid with
    | nil =>
      simp only [List.nil_append, List.cons.injEq, Prod.mk.injEq] at he
      obtain ⟨⟨rfl, rfl⟩, rfl⟩ := he
      simp only [Verif.DB.step, stepPrepare] at hrun hp
      cases hc' : s'.env.funDigest f with
      | none => rw [hc'] at hrun; simp at hrun
      | some code =>
        rw [hc'] at hrun hp
        simp only at hrun hp
        cases hx : prepare (storage B R) s'.env f b (sg.srcs f code b) s'.db with
        | mk y db =>
          rw [hx] at hrun hp
          cases y with
          | error e => simp at hrun
          | ok q =>
            simp only at hrun hp
            split at hrun
            · simp at hrun
            · rename_i hn
              rw [hn] at hp
              simp only [Dict.get?_set, if_true, Option.some.injEq] at hp
              subst hp
              rw [hx]
    | cons q mid =>
      simp only [List.cons_append, List.cons.injEq] at he
      obtain ⟨rfl, he⟩ := he
      have hr' : Running sg tr' id f b s0 :=
        ⟨mid, older, he, hrun, fun q hq => hmid q (List.mem_cons_of_mem _ hq)⟩
      obtain ⟨p', h1, _⟩ := hs.running_inflight hr'
      have h2 := step_keeps_inflight sg s' ev id p' h1 (hmid (s', ev) (List.mem_cons_self ..))
      rw [hp] at h2; cases h2
      exact ih h1 mid he (fun q hq => hmid q (List.mem_cons_of_mem _ hq))

/-- a call in flight that will discard the results of its function started when it was stale -/
theorem discards_stale {env : Env} {db db' : CDB B R} {f : FunName} {b : B} {srcs : List FileName}
    {p : Prep FunName (FunName × Nat) FileName R}
    (h : prepare (storage B R) env f b srcs db = (.ok p, db')) (hd : p.funDirty = true)
    (hi : p.funId ≠ none) : (∃ q, findFunction f db = some q) ∧
      ∃ g, RecReach (storage B R) db f g ∧ Changed (storage B R) env db g := by
  unfold prepare at h
  cases hcf : checkFunction (storage B R) env db env.recursionLimit f with
  | error e => rw [hcf] at h; simp at h
  | ok q =>
    obtain ⟨dirty, fid⟩ := q
    rw [hcf] at h
    simp only at h
    have hpq : p.funDirty = dirty ∧ p.funId = fid := by
      split at h
      · simp at h
      · split at h
        · simp only [Prod.mk.injEq, Except.ok.injEq] at h
          obtain ⟨rfl, _⟩ := h; exact ⟨rfl, rfl⟩
        · simp only [Prod.mk.injEq, Except.ok.injEq] at h
          obtain ⟨rfl, _⟩ := h; exact ⟨rfl, rfl⟩
    rw [hpq.1] at hd
    rw [hpq.2] at hi
    subst hd
    refine ⟨?_, checkFunction_dirty _ hcf⟩
    obtain ⟨dg, _, hc⟩ := checkFunction_cache hcf
    rcases hc with ⟨_, h2, _⟩ | ⟨_, _, h3⟩ | ⟨h1, _⟩
    · exact absurd h2 hi
    · obtain ⟨q, hq⟩ := Option.isSome_iff_exists.1 h3
      exact ⟨(f, q), by simp [findFunction, hq]⟩
    · cases h1

/-- events elsewhere keep the call answered -/
theorem Up.step {f : FunName} {code : Digest} {b : B} {r : R} {ext extDsts : List FileName} {i : Nat}
    (hh : History sg vers crashes tr s) (h : Up sg f code b r ext extDsts i s) (ev : Event B R)
    (ha : Allowed vers s ev) (he : Elsewhere sg f b (sg.srcs f code b ++ ext) tr ev)
    (hc : ∀ x ∈ sg.srcs f code b ++ ext,
      (Verif.DB.step sg s ev).2.env.fs.content x = s.env.fs.content x) :
    Up sg f code b r ext extDsts i (Verif.DB.step sg s ev).2 := by
  have hI := reach_inv hh.reach
  have hsame : Touch s.db s.db := .refl _
  cases ev with
  | prepare id' g b' =>
    simp only [Verif.DB.step, stepPrepare] at hc ⊢
    cases hg : s.env.funDigest g with
    | none => exact h
    | some code' =>
      rw [hg] at hc
      simp only at hc ⊢
      have hst : Stay s.env (fun _ => True) s.db _ :=
        prepare_stay g b' (sg.srcs g code' b') s.db
      rcases prepare_cases s.env g b' (sg.srcs g code' b') s.db vers hI.db.files hI.faithful with
        ⟨e, db', hp, ht, _⟩ | ⟨p, db', hp, ht, _⟩
      · rw [hp] at hst ⊢
        exact h.touch ht hst rfl rfl (fun _ _ => rfl)
      · rw [hp] at hst ⊢
        simp only
        split <;> exact h.touch ht hst rfl rfl (fun _ _ => rfl)
  | complete id' r' deps ext' extDsts' =>
    refine h.complete hh.reach id' r' deps ext' extDsts' ha ?_
    intro q hq
    obtain ⟨s0, h1, _⟩ := hh.running id' q hq
    constructor
    · rintro ⟨h2, h3⟩
      rw [h2] at h1
      exact (he q.bound s0 h1).1 h3
    · intro h2
      rw [h2] at h1
      by_cases hd : q.prep.funDirty = false
      · exact Or.inl hd
      · right
        refine Classical.byContradiction fun hi => ?_
        have hp := hh.running_prep h1 hq
        exact (he q.bound s0 h1).2 (discards_stale (Prod.ext hp rfl) (by simpa using hd) hi)
  | fail id' => exact h.touch hsame (.refl _) rfl rfl (fun _ _ => rfl)
  | edit y st => exact h.touch hsame (.refl _) rfl rfl hc
  | tick n => exact h.touch hsame (.refl _) rfl rfl hc
  | restart ds => exact h.touch hsame (.refl _) rfl rfl hc
  | crash ds => exact he.elim
  | deleteFunction g =>
    simp only [Verif.DB.step]
    split
    · have hd := deleteFunction_drop g s.db hI.db.nd
      have hgf : g ≠ f := he
      refine h.keep (db' := (CDB.deleteFunction g s.db).2) (ok := fun k => k = f) rfl
        (by rw [hd.functions, if_neg hgf]; exact h.recd)
        (by rw [hd.calls, if_neg hgf]; exact h.slot) (by rw [hd.esrcs, if_neg hgf])
        (by rw [hd.edsts, if_neg hgf]) ?_ (fun x => by left; rw [hd.cf, if_neg hgf]) rfl rfl
        (fun _ _ => rfl)
      intro x hx
      refine ⟨hx.congr hd.files, ?_⟩
      rintro k j rfl hk
      rw [hd.cf, if_neg hgf]; exact hk
    · exact h
  | deleteFile y =>
    simp only [Verif.DB.step]
    split
    · have hy : y ∉ sg.srcs f code b ++ ext := he
      have ht := deleteFile_touch y s.db
      refine ⟨by rw [ht.functions]; exact h.recd, by rw [ht.calls]; exact h.slot,
        by rw [ht.esrcs]; exact h.esrcs, by rw [ht.edsts]; exact h.edsts, ?_, ?_⟩
      · intro x hx
        exact (h.fresh x hx).erase (by rintro rfl; exact hy hx)
      · intro x hx
        obtain ⟨c, h1, h2⟩ := h.files x hx
        refine ⟨c, h1, ?_⟩
        simp only [CDB.deleteFile]
        rw [callFile_erase (db := s.db) y rfl, if_neg (by rintro rfl; exact hy hx)]
        exact h2
    · exact h

/-- when the call is stored, its tables answer it -/
theorem Up.start {f : FunName} {b : B} {s0 : Sys B R} {mid rest : Trace B R} {id : Nat}
    {code : Digest} (hh : History sg vers crashes tr s)
    (he : tr = mid ++ (s0, .prepare id f b) :: rest)
    (hrun : (Verif.DB.step sg s0 (.prepare id f b)).1 = .run)
    (hmid : ∀ q ∈ mid, q.2.ends id = false) (hcode : s0.env.funDigest f = some code)
    (hsame : ∀ q ∈ mid, ∀ x ∈ sg.srcs f code b, q.1.env.fs.content x = s0.env.fs.content x)
    (hnow : ∀ x ∈ sg.srcs f code b, s.env.fs.content x = s0.env.fs.content x)
    (r : R) (deps : List FunName) (ext extDsts : List FileName)
    (ha : Allowed vers s (.complete id r deps ext extDsts))
    (hdone : (Verif.DB.step sg s (.complete id r deps ext extDsts)).1 = .done) :
    ∃ i, Up sg f code b r ext extDsts i (Verif.DB.step sg s (.complete id r deps ext extDsts)).2 := by
  have hI := reach_inv hh.reach
  obtain ⟨p, hp, rfl, rfl, rfl, hfs0, hready⟩ := hh.ready he hrun hmid hcode hsame hnow
  have hP := hI.pending id p hp
  have hal : p.prep.found.isSome → ¬ DirtySince p s.log := by
    rintro hf ⟨e, he, h1, h2⟩
    have := ha p hp hf e he h1
    rw [h2] at this; cases this
  obtain ⟨ok, out, hout, hok, _, hc, _, hst⟩ :=
    complete_inv hI.db hP hI.faithful hal r deps ext extDsts
  have hstay : Stay s.env (fun _ => False) s.db out.2 := by
    rw [← hout, cache_eq s.env ext extDsts p.prep.funDirty p.prep.funId p.fn p.code deps
          (p.prep.found.map Prod.fst) p.bound r p.prep.callFileDigests s.db
          (fun hd => (hP.clean hd).1)]
    exact Stay.trans (recordFun_stay _ _ _ _ _ _ hI.db.nd (fun _ h => h.elim))
      (storeCall_stay _ _ _ _ _ _ _ _)
  have hfresh : out.1 = .ok () → ∀ x ∈ ext, Fresh s.env out.2 x := by
    intro h1
    rw [cache_eq s.env ext extDsts p.prep.funDirty p.prep.funId p.fn p.code deps
          (p.prep.found.map Prod.fst) p.bound r p.prep.callFileDigests s.db
          (fun hd => (hP.clean hd).1)] at hout
    refine storeCall_fresh (vers := vers) ?_ hI.faithful (hout.trans (Prod.ext h1 rfl))
    intro y m d hy
    have : (recordFun p.prep.funDirty p.prep.funId p.fn p.code deps s.db).files = s.db.files := by
      unfold recordFun
      split
      · simp only
        split
        · exact (deleteFunction_drop p.fn s.db hI.db.nd).files
        · rfl
      · rfl
    rw [this] at hy
    exact hI.db.files y m d hy
  simp only [Verif.DB.step, stepComplete, hp] at hdone ⊢
  rw [hout] at hdone ⊢
  obtain ⟨y, db⟩ := out
  cases y with
  | error e => simp at hdone
  | ok u =>
    simp only at hdone hok hst hstay hfresh ⊢
    obtain ⟨i, datas, k1, k2, k3, k4, k5, k6⟩ := hst (hok.1 trivial)
    refine ⟨i, hc.fun_eq, ⟨datas, k1, k2⟩, k3, k4, ?_, ?_⟩
    · intro x hx
      rcases List.mem_append.1 hx with hx | hx
      · exact (hstay x (hready x hx).1).1
      · exact hfresh trivial x hx
    · intro x hx
      by_cases hxe : x ∈ ext
      · exact k5 x hxe
      · have hx : x ∈ sg.srcs p.fn p.code p.bound := by
          rcases List.mem_append.1 hx with hx | hx
          · exact hx
          · exact absurd hx hxe
        obtain ⟨⟨c, m, hcx, _⟩, h2⟩ := hready x hx
        have hcx0 : p.fs0.content x = some c := by rw [hfs0, ← hnow x hx]; exact hcx
        refine ⟨c, hcx, ?_⟩
        rcases k6 x hxe with ⟨t, ht, rfl, h3⟩ | ⟨h3, h4⟩
        · obtain ⟨c', h5, h6⟩ := hP.digs t ht
          rw [hcx0] at h5; cases h5
          rw [h3, h6]
        · rcases h2 with ⟨t, ht, htx⟩ | ⟨g, j, r0, hf, hs⟩
          · exact absurd htx (h3 t ht)
          · obtain ⟨rfl, h5⟩ := h4 g j r0 hf
            obtain ⟨rfl, _, h6⟩ := hP.old g j r0 hf
            have hnd := hal (by rw [hf]; rfl)
            obtain ⟨d, hd⟩ := Option.isSome_iff_exists.1 (hs hnd)
            obtain ⟨c', h7, h8⟩ := (h6 hnd).2 x hx h3 d hd
            rw [hcx0] at h7; cases h7
            rw [h5, hd, h8]

theorem not_stale_clean {f : FunName} (hn : ¬ Stale s f) (hs : Shallow s f) :
    checkFunction (storage B R) s.env s.db s.env.recursionLimit f = .ok (false, some f) := by
  obtain ⟨rank, h1, h2⟩ := hs
  have hreg : ∀ g, RecReach (storage B R) s.db f g → (s.env.funDigest g).isSome := by
    intro g hg
    refine Classical.byContradiction fun hx => ?_
    refine hn ⟨g, hg, ?_⟩
    intro fid d deps _ hd
    rw [hd] at hx; exact hx rfl
  obtain ⟨⟨dirty, fid⟩, h3⟩ := checkFunction_terminates _ rank h1 hreg h2
  cases dirty with
  | true => exact absurd (checkFunction_dirty _ h3) hn
  | false =>
    obtain ⟨dg, _, hc⟩ := checkFunction_cache h3
    rcases hc with ⟨h, _⟩ | ⟨h, _⟩ | ⟨_, h, _⟩
    · cases h
    · cases h
    · rw [h3, h]

/-- **C06** (partial): a call that was executed and stored, and for which nothing it depends on
changed since, is answered with the stored result, without running the function.  Missing (and
false, see below): calls of functions that are recorded to call a function which is not recorded
(`Stale`), or with mutual recursion (not `Shallow`). -/
theorem C06_null_call_partial (h : History sg vers crashes tr s) {f : FunName} {b : B} {r : R}
    (hs : Settled sg tr s f b r) (id : Nat) : (step sg s (.prepare id f b)).1 = .hit r := by
  obtain ⟨⟨later, s1, id0, deps, ext, extDsts, mid, s0, rest, code, rfl, hrun, hmid, hdone, hc0, hc1,
    hsrc, hext, helse, hdst⟩, hns, hsh⟩ := hs
  suffices hup : ∃ i, Up sg f code b r ext extDsts i s by
    obtain ⟨i, hi⟩ := hup
    exact hi.hit h.reach hc1 (not_stale_clean hns hsh) hdst id
  clear hdst hns hsh hc1
  generalize htr : later ++ (s1, .complete id0 r deps ext extDsts) ::
    (mid ++ (s0, .prepare id0 f b) :: rest) = tr at h
  have hsrc1 := fun x hx => (hsrc x hx).1
  have hsrc2 := fun x hx => (hsrc x hx).2.1
  have hsrc3 := fun x hx => (hsrc x hx).2.2.1
  have hsrc4 := fun x hx => (hsrc x hx).2.2.2
  have hext3 := fun x hx => (hext x hx).1
  have hext4 := fun x hx => (hext x hx).2
  clear hsrc hext
  induction h generalizing later with
  | init env h => simp at htr
  | step ev hh ha hc ih =>
    rename_i tr' s'
    cases later with
    | nil =>
      simp only [List.nil_append, List.cons.injEq, Prod.mk.injEq] at htr
      obtain ⟨⟨rfl, rfl⟩, rfl⟩ := htr
      exact Up.start hh rfl hrun hmid hc0 (fun q hq x hx => hsrc1 x hx q hq) hsrc2 r deps ext extDsts
        ha hdone
    | cons q later =>
      simp only [List.cons_append, List.cons.injEq] at htr
      obtain ⟨rfl, rfl⟩ := htr
      have hm : ∀ q ∈ later, q ∈ (s', ev) :: later := fun q hq => List.mem_cons_of_mem _ hq
      obtain ⟨i, hi⟩ := ih later
        (fun l1 q l2 hl => helse ((s', ev) :: l1) q l2 (by rw [hl]; rfl)) rfl
        (fun x hx q hq => hsrc3 x hx q (hm q hq))
        (fun x hx => hsrc3 x hx (s', ev) (List.mem_cons_self ..))
        (fun x hx q hq => hext3 x hx q (hm q hq))
        (fun x hx => hext3 x hx (s', ev) (List.mem_cons_self ..))
      refine ⟨i, hi.step hh ev ha (helse [] (s', ev) later rfl) ?_⟩
      intro x hx
      rcases List.mem_append.1 hx with hx | hx
      · rw [hsrc4 x hx, hsrc3 x hx (s', ev) (List.mem_cons_self ..)]
      · rw [hext4 x hx, hext3 x hx (s', ev) (List.mem_cons_self ..)]

/-- A call that is answered from the database leaves other settled calls settled. -/
theorem Settled.prepare {f g : FunName} {b b' : B} {r r' : R} (h : History sg vers crashes tr s)
    (hs : Settled sg tr s f b r) {id : Nat} (hit : (step sg s (.prepare id g b')).1 = .hit r') :
    Settled sg ((s, .prepare id g b') :: tr) (step sg s (.prepare id g b')).2 f b r ∧
    (step sg s (.prepare id g b')).2.env = s.env ∧
    (step sg s (.prepare id g b')).2.inflight = s.inflight := by
  have hI := reach_inv h.reach
  obtain ⟨henv, hfun, hinf⟩ : (step sg s (.prepare id g b')).2.env = s.env ∧
      (step sg s (.prepare id g b')).2.db.functions = s.db.functions ∧
      (step sg s (.prepare id g b')).2.inflight = s.inflight := by
    simp only [step, stepPrepare] at hit ⊢
    cases hg : s.env.funDigest g with
    | none => exact ⟨rfl, rfl, rfl⟩
    | some code' =>
      rw [hg] at hit
      simp only at hit ⊢
      rcases prepare_cases s.env g b' (sg.srcs g code' b') s.db vers hI.db.files hI.faithful with
        ⟨e, db', hp, ht, _⟩ | ⟨p, db', hp, ht, _⟩
      · rw [hp]; exact ⟨rfl, ht.functions, rfl⟩
      · rw [hp] at hit ⊢
        simp only at hit ⊢
        split at hit
        · exact ⟨rfl, ht.functions, rfl⟩
        · simp at hit
  have hff : ∀ k, (storage B R).findFunction k (step sg s (.prepare id g b')).2.db =
      (storage B R).findFunction k s.db := by
    intro k; simp only [storage, findFunction, hfun]
  have hrc : ∀ k l, RecCall (storage B R) (step sg s (.prepare id g b')).2.db k l →
      RecCall (storage B R) s.db k l := by
    rintro k l ⟨fid, d, deps, h1, h2⟩
    rw [hff] at h1; exact ⟨fid, d, deps, h1, h2⟩
  have hrr : ∀ k l, RecReach (storage B R) (step sg s (.prepare id g b')).2.db k l →
      RecReach (storage B R) s.db k l := by
    intro k l hkl
    induction hkl with
    | refl => exact .refl _
    | step hc _ ih => exact .step (hrc _ _ hc) ih
  refine ⟨⟨?_, ?_, ?_⟩, henv, hinf⟩
  · obtain ⟨later, s1, id0, deps, ext, extDsts, mid, s0, rest, code, rfl, hrun, hmid, hdone, hc0, hc1,
      hsrc, hext, helse, hdst⟩ := hs.exec
    refine ⟨(s, .prepare id g b') :: later, s1, id0, deps, ext, extDsts, mid, s0, rest, code, rfl,
      hrun, hmid, hdone, hc0, by rw [henv]; exact hc1, ?_, ?_, ?_, by rw [henv]; exact hdst⟩
    · intro x hx
      obtain ⟨h1, h2, h3, h4⟩ := hsrc x hx
      refine ⟨h1, h2, ?_, by rw [henv]; exact h4⟩
      intro q hq
      rcases List.mem_cons.1 hq with rfl | hq
      · exact h4
      · exact h3 q hq
    · intro x hx
      obtain ⟨h3, h4⟩ := hext x hx
      refine ⟨?_, by rw [henv]; exact h4⟩
      intro q hq
      rcases List.mem_cons.1 hq with rfl | hq
      · exact h4
      · exact h3 q hq
    · intro l1 q l2 hl
      cases l1 with
      | nil =>
        simp only [List.nil_append, List.cons.injEq] at hl
        obtain ⟨rfl, rfl⟩ := hl
        trivial
      | cons q' l1 =>
        simp only [List.cons_append, List.cons.injEq] at hl
        exact helse l1 q l2 hl.2
  · rintro ⟨k, h1, h2⟩
    refine hs.notStale ⟨k, hrr _ _ h1, ?_⟩
    intro fid d deps h3
    rw [← henv]
    exact h2 fid d deps (by rw [hff]; exact h3)
  · obtain ⟨rank, h1, h2⟩ := hs.shallow
    exact ⟨rank, fun k l hkl => h1 k l (hrc _ _ hkl), by rw [henv]; exact h2⟩

/-- the answers to a sequence of events -/
def answers (sg : Sig B R) : Sys B R → List (Event B R) → List (Out R)
  | _, [] => []
  | s, ev :: evs => (step sg s ev).1 :: answers sg (step sg s ev).2 evs

/-- **C06** (partial): a build all of whose calls are settled runs nothing: every call, in whatever
order and however often, is answered with its stored result. -/
theorem C06_null_build_partial (h : History sg vers crashes tr s) (hi : s.inflight = [])
    (calls : List (Nat × FunName × B × R)) (hs : ∀ c ∈ calls, Settled sg tr s c.2.1 c.2.2.1 c.2.2.2) :
    answers sg s (calls.map (fun c => .prepare c.1 c.2.1 c.2.2.1)) =
      calls.map (fun c => .hit c.2.2.2) := by
  induction calls generalizing tr s with
  | nil => rfl
  | cons c calls ih =>
    have hc := hs c (by simp)
    have hhit := C06_null_call_partial h hc c.1
    simp only [List.map_cons, answers, hhit]
    congr 1
    have hal : Allowed vers s (.prepare c.1 c.2.1 c.2.2.1) := by
      constructor
      · rw [hi]; rfl
      · intro id' p hp; rw [hi] at hp; simp at hp
    have h' := History.step _ h hal (by intro hx; cases hx)
    refine ih h' ?_ ?_
    · rw [(hc.prepare h hhit).2.2, hi]
    · intro c' hc'
      exact ((hs c' (by simp [hc'])).prepare h hhit).1

/-- the hypotheses are met: the call f(7) of `Ex.evs`, after a restart, an edit of another file and
a call of another function -/
def Ex.evsNull : List (Event Nat Nat) :=
  Ex.evs ++ [.restart env.funDigest, .edit "z" (some (file 2)), .prepare 2 "g" 1,
    .complete 2 1 [] [] []]

example : Settled Ex.sg (runEvents Ex.sg [] (Sys.init Ex.env) Ex.evsNull).1
    (after Ex.sg (Sys.init Ex.env) Ex.evsNull) "f" 7 42 := by
  have key : (after Ex.sg (Sys.init Ex.env) Ex.evsNull).db.functions =
    [("f", ("F", [])), ("g", ("G", []))] := by decide
  have nocall : ∀ f g, ¬ RecCall (storage Nat Nat) (after Ex.sg (Sys.init Ex.env) Ex.evsNull).db f g := by
    rintro f g ⟨fid, d, deps, h1, h2⟩
    simp only [storage, findFunction, key, Dict.get?] at h1
    split at h1
    · simp at h1; obtain ⟨_, _, rfl⟩ := h1; cases h2
    · split at h1
      · simp at h1; obtain ⟨_, _, rfl⟩ := h1; cases h2
      · simp at h1
  refine ⟨?_, ?_, ⟨fun _ => 0, fun f g h => absurd h (nocall f g), by decide⟩⟩
  · refine ⟨((runEvents Ex.sg [] (Sys.init Ex.env) Ex.evsNull).1).take 4,
      after Ex.sg (Sys.init Ex.env) [.prepare 1 "f" 7, .edit "o" (some (Ex.file 3))], 1, [], ["h"], [],
      [(after Ex.sg (Sys.init Ex.env) [.prepare 1 "f" 7], .edit "o" (some (Ex.file 3)))],
      Sys.init Ex.env, [], "F", rfl, by decide, by simp [Event.ends], by decide, by decide, by decide,
      ?_, ?_, ?_, by decide⟩
    · intro x hx
      simp only [Ex.sg, List.mem_singleton] at hx
      subst hx
      refine ⟨?_, by decide, ?_, by decide⟩
      · intro q hq; simp only [List.mem_singleton] at hq; subst hq; decide
      · intro q hq
        simp only [Ex.evsNull, Ex.evs, List.cons_append, List.nil_append, runEvents, List.take,
          List.mem_cons, List.not_mem_nil, or_false] at hq
        rcases hq with rfl | rfl | rfl | rfl <;> decide
    · intro x hx
      simp only [List.mem_singleton] at hx
      subst hx
      refine ⟨?_, by decide⟩
      intro q hq
      simp only [Ex.evsNull, Ex.evs, List.cons_append, List.nil_append, runEvents, List.take,
        List.mem_cons, List.not_mem_nil, or_false] at hq
      rcases hq with rfl | rfl | rfl | rfl <;> decide
    · intro l1 q l2 hl
      simp only [Ex.evsNull, Ex.evs, List.cons_append, List.nil_append, runEvents, List.take] at hl
      rcases l1 with _ | ⟨_, _ | ⟨_, _ | ⟨_, _ | ⟨_, l1⟩⟩⟩⟩ <;>
        simp only [List.nil_append, List.cons_append, List.cons.injEq] at hl
      · obtain ⟨rfl, rfl⟩ := hl
        rintro b' s0 ⟨mid, older, he, _, hm⟩
        -- call 2 is a call of g
        exfalso
        rcases mid with _ | ⟨q, mid⟩ <;>
          simp only [List.nil_append, List.cons_append, List.cons.injEq, Prod.mk.injEq] at he
        · have := he.1.2
          simp at this
        · obtain ⟨rfl, _⟩ := he
          have := hm _ (List.mem_cons_self ..)
          simp [Event.ends] at this
      · obtain ⟨_, rfl, rfl⟩ := hl; trivial
      · obtain ⟨_, _, rfl, rfl⟩ := hl; trivial
      · obtain ⟨_, _, _, rfl, rfl⟩ := hl; trivial
      · obtain ⟨_, _, _, _, hl⟩ := hl
        simp at hl
  · rintro ⟨g, h1, h2⟩
    cases h1 with
    | refl => exact h2 "f" "F" [] (by decide) (by decide)
    | step hc _ => exact absurd hc (nocall _ _)

/-- `f(1)` calls `g(1)`, which raises; `f` catches the exception and returns 5 -/
def Ex.evsCaught : List (Event Nat Nat) :=
  [.prepare 1 "f" 1, .prepare 2 "g" 1, .fail 2, .edit "o" (some (file 3)), .complete 1 5 ["g"] [] []]

/-- **C06** is false: a function that calls a cached function which raises (and catches that) is run
again by every build, although nothing changes: whatever calls of `f` are made. -/
theorem C06_caught_violated :
    ∃ (tr : Trace Nat Nat) (s : Sys Nat Nat), History Ex.sg Ex.vers false tr s ∧
      (step Ex.sg s (.prepare 3 "f" 1)).1 = .run ∧
      ∀ r, (step Ex.sg (after Ex.sg s [.prepare 3 "f" 1, .prepare 4 "g" 1, .fail 4,
        .complete 3 r ["g"] [] []]) (.prepare 5 "f" 1)).1 = .run :=
  ⟨_, _, Ex.history Ex.evsCaught (by decide), by decide, fun _ => rfl⟩

end Verif.DB
