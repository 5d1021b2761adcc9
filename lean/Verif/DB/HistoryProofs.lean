import Verif.DB.HistoryInv
/-! Every reachable state of a history satisfies the invariant. -/
namespace Verif.DB
open CDB
set_option linter.unusedSectionVars false

variable {B R : Type} [DecidableEq B]

/-- the part of `cache` up to `save_function` -/
def recordFun (dirty : Bool) (funId : Option FunName) (f : FunName) (code : Digest)
    (deps : List FunName) (db : CDB B R) : CDB B R :=
  if dirty then
    let db1 := if funId.isSome then (deleteFunction f db).2 else db
    { db1 with functions := db1.functions.set f (code, deps) }
  else db

theorem cache_eq (env : Env) (ext extDsts : List FileName) (dirty : Bool)
    (funId : Option FunName) (f : FunName) (code : Digest) (deps : List FunName)
    (cid : Option (FunName × Nat)) (b : B) (r : R) (digs : List (FileName × FileName × Digest))
    (db : CDB B R) (h : dirty = false → funId = some f) :
    cache (storage B R) (saveExternal env ext extDsts) dirty funId f code deps cid b r digs db =
      storeCall env f cid b r digs ext extDsts (recordFun dirty funId f code deps db) := by
  unfold cache storeCall recordFun
  cases dirty with
  | true =>
    simp only [if_true, storage, CDB.saveFunction]
    generalize saveCall cid f b r _ = X
    obtain ⟨x, s⟩ := X
    cases x with
    | error e => rfl
    | ok c =>
      simp only
      generalize saveCallFiles _ c digs s = Y
      obtain ⟨y, s⟩ := Y
      cases y <;> rfl
  | false =>
    rw [h rfl]
    simp only [Bool.false_eq_true, if_false, storage]
    generalize saveCall cid f b r _ = X
    obtain ⟨x, s⟩ := X
    cases x with
    | error e => rfl
    | ok c =>
      simp only
      generalize saveCallFiles _ c digs s = Y
      obtain ⟨y, s⟩ := Y
      cases y <;> rfl

variable {sg : Sig B R} {vers : FileName → Nat → Option Content}
  {L : Bool} {db db' : CDB B R} {log : List (Exec B R)} {env : Env}

/-- Completing a call keeps the invariant. -/
theorem complete_inv {p : Pending B R} (h : Inv sg vers env.md5 L db log)
    (hp : PInv sg env db log p) (hv : Faithful vers env.fs)
    (hallow : p.prep.found.isSome → ¬ DirtySince p log)
    (r : R) (deps : List FunName) (ext extDsts : List FileName) :
    ∃ ok out, cache (storage B R) (saveExternal env ext extDsts) p.prep.funDirty
          p.prep.funId p.fn p.code deps (p.prep.found.map Prod.fst) p.bound r
          p.prep.callFileDigests db = out ∧
      (out.1 = .ok () ↔ ok = true) ∧
      Inv sg vers env.md5 L out.2 (⟨p.fn, p.code, p.bound, r, p.prep.funDirty, p.fs0, env.fs, deps,
        ext, extDsts, ok⟩ :: log) ∧
      Completed p.fn p.code p.bound p.prep.funDirty p.prep.funId.isSome deps db out.2 ∧
      (ok = false → ∃ x ∈ ext, env.fs.content x = none) ∧
      (ok = true → ∃ i datas, out.2.functionCalls.get? p.fn = some datas ∧
        datas[i]? = some (p.bound, r) ∧ findExt out.2.externalSrcs (p.fn, i) = ext ∧
        findExt out.2.externalDsts (p.fn, i) = extDsts ∧
        (∀ x ∈ ext, ∃ c, env.fs.content x = some c ∧
          out.2.callFile x p.fn i = some (env.md5 c)) ∧
        ∀ x, x ∉ ext →
          (∃ t ∈ p.prep.callFileDigests, t.1 = x ∧ out.2.callFile x p.fn i = some t.2.2) ∨
          ((∀ t ∈ p.prep.callFileDigests, t.1 ≠ x) ∧
            ∀ g j r0, p.prep.found = some ((g, j), r0) →
              j = i ∧ out.2.callFile x p.fn i = db.callFile x p.fn i)) := by
  -- the tables after the function is recorded
  generalize hdb1 : recordFun p.prep.funDirty p.prep.funId p.fn p.code deps db = db1
  have key : Inv sg vers env.md5 L db1 log ∧ (∃ ds, db1.functions.get? p.fn = some (p.code, ds)) ∧
      (∀ g, g ≠ p.fn → db1.functions.get? g = db.functions.get? g) ∧
      ((p.prep.funDirty = true → db1.functions.get? p.fn = some (p.code, deps)) ∧
        (p.prep.funDirty = false → db1.functions.get? p.fn = db.functions.get? p.fn)) ∧
      (∀ g, (p.prep.funDirty = false ∨ p.prep.funId.isSome = false ∨ g ≠ p.fn) →
        (db1.functionCalls.get? g = db.functionCalls.get? g ∧
        (∀ j, findExt db1.externalSrcs (g, j) = findExt db.externalSrcs (g, j) ∧
          findExt db1.externalDsts (g, j) = findExt db.externalDsts (g, j)) ∧
        ∀ x j, db1.callFile x g j = db.callFile x g j)) ∧
      (∀ f b, HasSlot db1 f b → HasSlot db f b) ∧
      (p.prep.found = none → ¬ HasSlot db1 p.fn p.bound) ∧
      (p.prep.funDirty = true → p.prep.funId.isSome = true → db1.functionCalls.get? p.fn = none) := by
    subst hdb1
    unfold recordFun
    cases hd : p.prep.funDirty with
    | false =>
      simp only [Bool.false_eq_true, if_false]
      obtain ⟨_, ds, h2⟩ := hp.clean hd
      exact ⟨h, ⟨ds, h2⟩, fun _ _ => trivial, ⟨by simp, by simp⟩, fun _ _ => ⟨trivial, fun _ => ⟨trivial, trivial⟩, fun _ _ => trivial⟩, fun _ _ h => h,
        fun h3 => hp.noslot h3 (Or.inl hd), by simp⟩
    | true =>
      simp only [if_true]
      cases hid : p.prep.funId with
      | none =>
        simp only [Option.isSome_none, Bool.false_eq_true, if_false]
        refine ⟨h.saveFun deps (hp.fresh hid), ⟨deps, by simp⟩, ?_, ⟨by simp, by simp⟩, ?_, ?_, ?_, by simp⟩
        · intro g hg; simp only [Dict.get?_set, if_neg (Ne.symm hg)]
        · intro g _; exact ⟨trivial, fun _ => ⟨trivial, trivial⟩, fun _ _ => rfl⟩
        · rintro f b ⟨datas, i, r, h1, h2⟩; exact ⟨datas, i, r, h1, h2⟩
        · intro h3
          rintro ⟨datas, i, r, h1, h2⟩
          exact hp.noslot h3 (Or.inr hid) ⟨datas, i, r, h1, h2⟩
      | some fid =>
        simp only [Option.isSome_some, if_true]
        have hdrop := deleteFunction_drop p.fn db h.nd
        have hI := h.drop hdrop
        refine ⟨hI.saveFun deps ?_, ⟨deps, by simp⟩, ?_, ⟨by simp, by simp⟩, ?_, ?_, ?_, ?_⟩
        · intro d ds h1; rw [hdrop.functions, if_pos rfl] at h1; cases h1
        · intro g hg
          simp only [Dict.get?_set, if_neg (Ne.symm hg)]
          rw [hdrop.functions, if_neg (Ne.symm hg)]
        · intro g hg
          have hg' : p.fn ≠ g := by
            rcases hg with hg | hg | hg
            · cases hg
            · simp at hg
            · exact Ne.symm hg
          refine ⟨?_, fun j => ⟨?_, ?_⟩, fun x j => ?_⟩
          · have := hdrop.calls g; rw [if_neg hg'] at this; exact this
          · have := hdrop.esrcs (g, j); rw [if_neg hg'] at this; exact this
          · have := hdrop.edsts (g, j); rw [if_neg hg'] at this; exact this
          · have := hdrop.cf x g j; rw [if_neg hg'] at this; exact this
        · rintro f b ⟨datas, i, r, h1, h2⟩
          have h3 := hdrop.calls f
          simp only at h1
          rw [h3] at h1
          split at h1
          · cases h1
          · exact ⟨datas, i, r, h1, h2⟩
        · intro _
          rintro ⟨datas, i, r, h1, h2⟩
          have h3 := hdrop.calls p.fn
          simp only at h1
          rw [h3, if_pos rfl] at h1; cases h1
        · intro _ _
          have h3 := hdrop.calls p.fn
          rw [if_pos rfl] at h3; exact h3
  obtain ⟨hI, ⟨ds, hfun⟩, hfne, hfd, hcalls, hslots, hno, hgone⟩ := key
  have hcq := cache_eq env ext extDsts p.prep.funDirty p.prep.funId p.fn p.code deps
    (p.prep.found.map Prod.fst) p.bound r p.prep.callFileDigests db (fun hd => (hp.clean hd).1)
  rw [hdb1] at hcq
  rw [hcq]
  -- the slot found at prepare is still the slot of these arguments
  have hfound : ∀ g i r0, p.prep.found = some ((g, i), r0) → p.prep.funDirty = false ∧
      (∃ datas r', db1.functionCalls.get? p.fn = some datas ∧ datas[i]? = some (p.bound, r')) ∧
      ∀ x ∈ sg.srcs p.fn p.code p.bound, (∀ t ∈ p.prep.callFileDigests, t.1 ≠ x) →
        ∀ d, db1.callFile x p.fn i = some d → ∃ c, p.fs0.content x = some c ∧ d = env.md5 c := by
    intro g i r0 hf
    obtain ⟨h1, h2, h3⟩ := hp.old g i r0 hf
    obtain ⟨h4, h5⟩ := h3 (hallow (by rw [hf]; rfl))
    obtain ⟨h6, _, h7⟩ := hcalls p.fn (Or.inl h2)
    refine ⟨h2, by rw [h6]; exact h4, ?_⟩
    intro x hx ht d hd
    rw [h7] at hd; exact h5 x hx ht d hd
  obtain ⟨i, db2, ok, h1, h2, h3, h4, h5, h6, h7, h8, h9⟩ := storeCall_cases env p.fn
    (p.prep.found.map Prod.fst) p.bound r p.prep.callFileDigests ext extDsts db1 vers hI.files hv (by
      intro g i hg
      simp only [Option.map_eq_some_iff] at hg
      obtain ⟨⟨c, r0⟩, hq, rfl⟩ := hg
      obtain ⟨_, ⟨datas, r', hd, hdi⟩, _⟩ := hfound g i r0 hq
      exact ⟨datas, hd, (List.getElem?_eq_some_iff.1 hdi).1⟩)
  have hsl : (i = ((db1.functionCalls.get? p.fn).getD []).length ∧ ¬ HasSlot db1 p.fn p.bound) ∨
      ∃ datas r', db1.functionCalls.get? p.fn = some datas ∧ datas[i]? = some (p.bound, r') := by
    cases hf : p.prep.found with
    | none =>
      left
      rw [hf] at h6
      exact ⟨h6 rfl, hno hf⟩
    | some q =>
      obtain ⟨⟨g, j⟩, r0⟩ := q
      right
      rw [hf] at h5
      have hij : i = j := h5 g j rfl
      subst hij
      exact (hfound g i r0 hf).2.1
  refine ⟨ok, _, rfl, h2, ?_, ?_, h9, ?_⟩
  · rw [h1]
    refine hI.store hfun h3 h4 hsl ?_ ?_
    · exact hp.digs
    · intro x hx ht d hd
      cases hf : p.prep.found with
      | none =>
        obtain ⟨t, ht2, ht3⟩ := hp.new hf x hx
        exact absurd ht3 (ht t ht2)
      | some q =>
        obtain ⟨⟨g, j⟩, r0⟩ := q
        rw [hf] at h5
        have hij : i = j := h5 g j rfl
        subst hij
        exact (hfound g i r0 hf).2.2 x hx ht d hd
  · rw [h1]
    obtain ⟨datas', hd', hi', hne', hlen'⟩ := h3.calls
    refine ⟨?_, ⟨ds, by rw [h3.functions]; exact hfun⟩, by rw [h3.functions]; exact hfd.1,
      by rw [h3.functions]; exact hfd.2, ?_, ?_, ?_⟩
    · intro g hg; rw [h3.functions]; exact hfne g hg
    · rintro f b ⟨datas, j, r', k1, k2⟩
      by_cases hf : f = p.fn
      · subst hf
        rw [hd'] at k1; cases k1
        by_cases hj : j = i
        · subst hj; rw [hi'] at k2; cases k2; right; exact ⟨rfl, rfl⟩
        · left
          rw [hne' j hj] at k2
          cases hc : db1.functionCalls.get? p.fn with
          | none => rw [hc] at k2; simp at k2
          | some ds' =>
            rw [hc] at k2
            exact hslots _ _ ⟨ds', j, r', hc, k2⟩
      · left
        rw [h3.calls_ne f hf] at k1
        exact hslots _ _ ⟨datas, j, r', k1, k2⟩
    · rintro hd hid b ⟨datas, j, r', k1, k2⟩
      rw [hd'] at k1; cases k1
      by_cases hj : j = i
      · subst hj; rw [hi'] at k2; cases k2; rfl
      · rw [hne' j hj, hgone hd hid] at k2; simp at k2
    · intro f datas j b r' hor hne k1 k2
      obtain ⟨m1, m3, m2⟩ := hcalls f hor
      by_cases hf : f = p.fn
      · subst hf
        have hb : b ≠ p.bound := fun hb => hne ⟨rfl, hb⟩
        have hji : j ≠ i := by
          rintro rfl
          rcases hsl with ⟨hl, _⟩ | ⟨ds', r2, n1, n2⟩
          · rw [m1, k1] at hl
            have := (List.getElem?_eq_some_iff.1 k2).1
            simp only [Option.getD_some] at hl
            omega
          · rw [m1, k1] at n1; cases n1
            rw [k2] at n2; cases n2; exact hb rfl
        refine ⟨datas', hd', ?_, ⟨?_, ?_⟩, ?_⟩
        · rw [hne' j hji, m1, k1]; exact k2
        · rw [h3.esrcs, if_neg (by simp [hji.symm]), (m3 j).1]
        · rw [h3.edsts, if_neg (by simp [hji.symm]), (m3 j).2]
        · intro x
          rcases h3.cf_ne x p.fn j (by simp [hji]) with h | h
          · left; rw [h, m2]
          · right; exact h
      · refine ⟨datas, by rw [h3.calls_ne f hf, m1]; exact k1, k2,
          ⟨by rw [h3.esrcs, if_neg (by simp [Ne.symm hf]), (m3 j).1],
           by rw [h3.edsts, if_neg (by simp [Ne.symm hf]), (m3 j).2]⟩, ?_⟩
        intro x
        rcases h3.cf_ne x f j (by simp [hf]) with h | h
        · left; rw [h, m2]
        · right; exact h
  · intro hok
    rw [h1]
    obtain ⟨datas', hd', hi', _, _⟩ := h3.calls
    refine ⟨i, datas', hd', hi', by rw [h3.esrcs, if_pos rfl], by rw [h3.edsts, if_pos rfl],
      h7 hok, ?_⟩
    intro x hx
    rcases h8 x hx with h | ⟨k1, k2⟩
    · exact Or.inl h
    · right
      refine ⟨k1, ?_⟩
      intro g j r0 hf
      obtain ⟨_, k3, _⟩ := hp.old g j r0 hf
      refine ⟨?_, by rw [k2, (hcalls p.fn (Or.inl k3)).2.2]⟩
      rw [hf] at h5
      exact (h5 g j rfl).symm

/-- What is assumed about the events of a history.
* A call does not reuse the number of a running call, and no two equal calls (same function,
  same arguments) run at the same time.
* A call that found an earlier result completes only if no overlapping call of the same function
  discarded the results of that function.
* A file with a given modification time always has the same content. -/
def Allowed (vers : FileName → Nat → Option Content) (s : Sys B R) : Event B R → Prop
  | .prepare id f b => s.inflight.get? id = none ∧
      ∀ id' p, s.inflight.get? id' = some p → ¬ (p.fn = f ∧ p.bound = b)
  | .complete id _ _ _ _ => ∀ p, s.inflight.get? id = some p → p.prep.found.isSome →
      ∀ e ∈ s.log.take (s.log.length - p.start), e.fn = p.fn → e.dirty = false
  | .edit x st => ∀ f, st = some f → vers x f.mtime = f.content
  | _ => True

/-- was the event a crash? -/
def Event.isCrash : Event B R → Bool
  | .crash _ => true
  | _ => false

/-- The states reached from a start without a state file; crashes only if `crashes`. -/
inductive Reach (sg : Sig B R) (vers : FileName → Nat → Option Content) (crashes : Bool) :
    Sys B R → Prop
  | init (env : Env) (h : ∀ x f, env.fs x = some f → vers x f.mtime = f.content) :
      Reach sg vers crashes (Sys.init env)
  | step {s : Sys B R} (ev : Event B R) (hs : Reach sg vers crashes s) (ha : Allowed vers s ev)
      (hc : ev.isCrash = true → crashes = true) : Reach sg vers crashes (step sg s ev).2

structure SysInv (sg : Sig B R) (vers : FileName → Nat → Option Content) (crashes : Bool)
    (s : Sys B R) : Prop where
  db : Inv sg vers s.env.md5 (!crashes) s.db s.log
  saved : Inv sg vers s.env.md5 false s.saved s.log
  pending : ∀ id p, s.inflight.get? id = some p → PInv sg s.env s.db s.log p
  apart : ∀ id id' p q, s.inflight.get? id = some p → s.inflight.get? id' = some q → id ≠ id' →
    ¬ (p.fn = q.fn ∧ p.bound = q.bound)
  faithful : Faithful vers s.env.fs

theorem stepPrepare_inv {crashes : Bool} {s : Sys B R} (h : SysInv sg vers crashes s) (id : Nat)
    (f : FunName) (b : B) (ha : Allowed vers s (.prepare id f b)) :
    SysInv sg vers crashes (stepPrepare sg id f b s).2 := by
  unfold stepPrepare
  cases hcode : s.env.funDigest f with
  | none => exact h
  | some code =>
    simp only
    have htouch : ∀ db', Touch s.db db' → FilesOK vers s.env.md5 db' →
        SysInv sg vers crashes { s with db := db' } := fun db' ht hf =>
      ⟨h.db.touch ht hf, h.saved, fun i p hp => (h.pending i p hp).touch ht, h.apart, h.faithful⟩
    rcases prepare_cases s.env f b (sg.srcs f code b) s.db vers h.db.files h.faithful with
      ⟨e, db', hp, ht, hf⟩ | ⟨p, db', hp, ht, hf, hcf, hdig, hsrc, hd1, hd2, hd3⟩
    · rw [hp]; exact htouch db' ht hf
    · rw [hp]
      simp only
      split
      · exact htouch db' ht hf
      · have h' := htouch db' ht hf
        refine ⟨h'.db, h'.saved, ?_, ?_, h'.faithful⟩
        · intro id' q hq
          simp only [Dict.get?_set] at hq
          split at hq
          · simp only [Option.some.injEq] at hq
            subst hq
            obtain ⟨digest, hdg, hcase⟩ := checkFunction_cache hcf
            rw [hcode] at hdg; cases hdg
            refine ⟨Nat.le_refl _, hcode, ?_, ?_, ?_, ?_, ?_, hd1, ?_⟩
            · intro hcl
              rcases hcase with hx | hx | ⟨_, h2, h3⟩
              · simp only at hcl; rw [hcl] at hx; simp at hx
              · simp only at hcl; rw [hcl] at hx; simp at hx
              · refine ⟨h2, ?_⟩; simp only; rw [ht.functions]; exact h3
            · intro t htm
              obtain ⟨h1, h2, c, h3, h4⟩ := hdig t htm
              exact ⟨c, by rw [h1]; exact h3, h4⟩
            · intro hfn x hx
              obtain ⟨c, hc, hor⟩ := hsrc x hx
              rcases hor with hm | ⟨i, r, hfo, _⟩
              · exact ⟨_, hm, rfl⟩
              · simp only at hfn; rw [hfn] at hfo; cases hfo
            · intro hid d deps hdd
              simp only at hid hdd
              rw [ht.functions] at hdd
              rcases hcase with ⟨_, _, h3⟩ | ⟨_, h2, _⟩ | ⟨_, h2, _⟩
              · rw [h3] at hdd; cases hdd
              · rw [hid] at h2; cases h2
              · rw [hid] at h2; cases h2
            · intro hfn hor
              simp only at hfn hor
              rintro ⟨datas, i, r, k1, k2⟩
              simp only at k1
              rw [ht.calls] at k1
              rcases hor with hor | hor
              · exact hd2 hfn hor ⟨datas, i, r, k1, k2⟩
              · rcases hcase with ⟨_, _, h3⟩ | ⟨_, h2, _⟩ | ⟨_, h2, _⟩
                · rw [h.db.noFun f h3] at k1; cases k1
                · rw [hor] at h2; cases h2
                · rw [hor] at h2; cases h2
            · intro g i r hfo
              simp only at hfo
              obtain ⟨h1, h2, ⟨datas, h3, h4⟩, _⟩ := hd3 g i r hfo
              refine ⟨h1, h2, fun _ => ⟨⟨datas, r, ?_, h4⟩, ?_⟩⟩
              · simp only; rw [ht.calls]; exact h3
              · intro x hx hnt d hcd
                simp only at hx hnt hcd
                obtain ⟨c, hc, hor⟩ := hsrc x hx
                rcases hor with hm | ⟨i', r', hfo', hcf'⟩
                · exact absurd rfl (hnt _ hm)
                · rw [hfo] at hfo'; cases hfo'
                  have := ht.cf_some hcd
                  rw [hcf'] at this; cases this
                  exact ⟨c, hc, rfl⟩
          · exact h'.pending id' q hq
        · intro i j p' q hp' hq hne
          simp only [Dict.get?_set] at hp' hq
          split at hp'
          · rename_i hi
            simp only [Option.some.injEq] at hp'
            subst hp'
            rw [if_neg (by rw [hi]; exact hne)] at hq
            intro hx
            exact ha.2 j q hq ⟨hx.1.symm, hx.2.symm⟩
          · split at hq
            · simp only [Option.some.injEq] at hq
              subst hq
              exact ha.2 i p' hp'
            · exact h.apart i j p' q hp' hq hne

theorem stepComplete_inv {crashes : Bool} {s : Sys B R} (h : SysInv sg vers crashes s) (id : Nat)
    (r : R) (deps : List FunName) (ext extDsts : List FileName)
    (ha : Allowed vers s (.complete id r deps ext extDsts)) :
    SysInv sg vers crashes (stepComplete id r deps ext extDsts s).2 := by
  unfold stepComplete
  cases hp : s.inflight.get? id with
  | none => exact h
  | some p =>
    simp only
    have hal : p.prep.found.isSome → ¬ DirtySince p s.log := by
      rintro hf ⟨e, he, h1, h2⟩
      have := ha p hp hf e he h1
      rw [h2] at this; cases this
    have hP := h.pending id p hp
    obtain ⟨ok, _, rfl, h1, h2, h3, _, _⟩ := complete_inv h.db hP h.faithful hal r deps ext extDsts
    have gen : ∀ ok' db1, ok' = ok → (cache (storage B R) (saveExternal s.env ext extDsts)
          p.prep.funDirty p.prep.funId p.fn p.code deps (p.prep.found.map Prod.fst) p.bound r
          p.prep.callFileDigests s.db).2 = db1 →
        SysInv sg vers crashes { s with
          db := db1, inflight := s.inflight.erase id,
          log := ⟨p.fn, p.code, p.bound, r, p.prep.funDirty, p.fs0, s.env.fs, deps, ext, extDsts,
            ok'⟩
            :: s.log } := by
      rintro ok' db1 rfl rfl
      refine ⟨h2, h.saved.log_cons _, ?_, ?_, h.faithful⟩
      · intro id' q hq
        simp only [Dict.get?_erase] at hq
        split at hq
        · cases hq
        · rename_i hid
          refine PInv.completed (p := p) (h.pending id' q hq) rfl rfl hP.code h3 ?_
          intro hx
          exact h.apart id id' p q hp hq hid ⟨hx.1.symm, hx.2.symm⟩
      · intro i j p' q hp' hq
        simp only [Dict.get?_erase] at hp' hq
        split at hp'
        · cases hp'
        · split at hq
          · cases hq
          · exact h.apart i j p' q hp' hq
    split
    · rename_i err db1 heq
      refine gen false db1 ?_ (by rw [heq])
      rw [heq] at h1
      cases ok with
      | false => rfl
      | true => simp at h1
    · rename_i db1 heq
      refine gen true db1 ?_ (by rw [heq])
      rw [heq] at h1
      exact (h1.1 rfl).symm

theorem deleteFile_touch (x : FileName) (db : CDB B R) : Touch db (CDB.deleteFile x db).2 := by
  refine ⟨rfl, rfl, rfl, rfl, fun y g i => ?_, Dict.nodup_erase _⟩
  simp only [CDB.deleteFile]
  rw [callFile_erase (db := db) x rfl]
  split <;> simp

theorem step_inv {crashes : Bool} {s : Sys B R} (h : SysInv sg vers crashes s) (ev : Event B R)
    (ha : Allowed vers s ev) (hc : ev.isCrash = true → crashes = true) :
    SysInv sg vers crashes (step sg s ev).2 := by
  have hclear : ∀ (p : Pending B R) id, Dict.get? ([] : Dict Nat (Pending B R)) id ≠ some p := by
    intro p id; simp
  have hempty : s.inflight.isEmpty = true → s.inflight = [] := by simp
  cases ev with
  | prepare id f b => exact stepPrepare_inv h id f b ha
  | complete id r deps ext extDsts => exact stepComplete_inv h id r deps ext extDsts ha
  | fail id =>
    refine ⟨h.db, h.saved, ?_, ?_, h.faithful⟩
    · intro id' p hp
      simp only [step, Dict.get?_erase] at hp
      split at hp
      · cases hp
      · exact h.pending id' p hp
    · intro i j p q hp hq
      simp only [step, Dict.get?_erase] at hp hq
      split at hp
      · cases hp
      · split at hq
        · cases hq
        · exact h.apart i j p q hp hq
  | edit x st =>
    refine ⟨h.db, h.saved, ?_, h.apart, ?_⟩
    · intro id p hp
      have := h.pending id p hp
      exact ⟨this.start, this.code, this.clean, this.digs, this.new, this.fresh, this.noslot,
        this.dirty, this.old⟩
    · intro y f hy
      simp only [step] at hy
      split at hy
      · rename_i hyx; subst hyx; exact ha f hy
      · exact h.faithful y f hy
  | tick n =>
    refine ⟨h.db, h.saved, ?_, h.apart, h.faithful⟩
    intro id p hp
    have := h.pending id p hp
    exact ⟨this.start, this.code, this.clean, this.digs, this.new, this.fresh, this.noslot,
      this.dirty, this.old⟩
  | restart ds =>
    exact ⟨h.db, h.db.weaken, fun id p hp => absurd hp (hclear p id),
      fun i j p q hp => absurd hp (hclear p i), h.faithful⟩
  | crash ds =>
    have : crashes = true := hc rfl
    subst this
    exact ⟨h.saved, h.saved, fun id p hp => absurd hp (hclear p id),
      fun i j p q hp => absurd hp (hclear p i), h.faithful⟩
  | deleteFunction f =>
    simp only [step]
    split
    · rename_i he
      refine ⟨h.db.drop (deleteFunction_drop f s.db h.db.nd), h.saved, ?_, ?_, h.faithful⟩
      · intro id p hp; simp only [hempty he] at hp; exact absurd hp (hclear p id)
      · intro i j p q hp; simp only [hempty he] at hp; exact absurd hp (hclear p i)
    · exact h
  | deleteFile x =>
    simp only [step]
    split
    · have ht := deleteFile_touch x s.db
      have hfo : FilesOK vers s.env.md5 (CDB.deleteFile x s.db).2 := by
        intro y m d hy
        simp only [CDB.deleteFile, Dict.get?_erase] at hy
        split at hy
        · cases hy
        · exact h.db.files y m d hy
      exact ⟨h.db.touch ht hfo, h.saved, fun id p hp => (h.pending id p hp).touch ht, h.apart,
        h.faithful⟩
    · exact h

theorem reach_inv {crashes : Bool} {s : Sys B R} (h : Reach sg vers crashes s) :
    SysInv sg vers crashes s := by
  induction h with
  | init env henv =>
    refine ⟨Inv.init, Inv.init, ?_, ?_, henv⟩
    · intro id p hp; simp [Sys.init] at hp
    · intro i j p q hp; simp [Sys.init] at hp
  | step ev hs ha hc ih => exact step_inv ih ev ha hc

end Verif.DB
