import Verif.Props.DBCalls
/-!
# C17: removing a function or a file from the database (engines `pickle` and `cache`)
-/
namespace Verif.DB
open CDB
set_option linter.unusedSectionVars false

variable {B R : Type} [DecidableEq B] {sg : Sig B R} {vers : FileName → Nat → Option Content}
  {crashes : Bool} {tr : Trace B R} {s : Sys B R}

/-- No call of `f` that was running completed in the events `later` (newest first), which happened
after `older`. -/
def NoCompletion (sg : Sig B R) (later older : Trace B R) (P : FunName → B → Prop) : Prop :=
  ∀ l1 q l2 id f b s0 r d e x, later = l1 ++ q :: l2 → q.2 = .complete id r d e x →
    Running sg (l2 ++ older) id f b s0 → ¬ P f b

/-- Completing, in terms of the tables; for a call that is not running nothing happens. -/
theorem complete_tables (h : History sg vers crashes tr s) {id : Nat} {r : R} {deps : List FunName}
    {ext extDsts : List FileName} (ha : Allowed vers s (.complete id r deps ext extDsts)) :
    (step sg s (.complete id r deps ext extDsts)).2.db = s.db ∨
    ∃ p : Pending B R, s.inflight.get? id = some p ∧
      Completed p.fn p.code p.bound p.prep.funDirty p.prep.funId.isSome deps s.db
        (step sg s (.complete id r deps ext extDsts)).2.db := by
  have hI := reach_inv h.reach
  cases hp : s.inflight.get? id with
  | none => left; simp only [step, stepComplete, hp]
  | some p =>
    right
    have hP := hI.pending id p hp
    have hal : p.prep.found.isSome → ¬ DirtySince p s.log := by
      rintro hf ⟨e, he, h1, h2⟩
      have := ha p hp hf e he h1
      rw [h2] at this; cases this
    obtain ⟨ok, out, hout, _, _, hc, _⟩ :=
      complete_inv hI.db hP hI.faithful hal r deps ext extDsts
    have hdb : (step sg s (.complete id r deps ext extDsts)).2.db = out.2 := by
      simp only [step, stepComplete, hp]
      rw [hout]
      obtain ⟨y, db⟩ := out
      cases y <;> rfl
    exact ⟨p, rfl, by rw [hdb]; exact hc⟩

/-- A property of the tables that is kept by everything but completions of the calls in `P` (and
crashes). -/
structure Kept (P : FunName → B → Prop) (J : CDB B R → Prop) : Prop where
  touch : ∀ db db', Touch db db' → J db → J db'
  drop : ∀ f db db', DropFun f db db' → J db → J db'
  complete : ∀ (fn : FunName) code bound dirty del deps (db db' : CDB B R), ¬ P fn bound →
    (∀ f datas (i j : Nat) b r r', db.functionCalls.get? f = some datas →
      datas[i]? = some (b, r) → datas[j]? = some (b, r') → i = j) →
    (∀ f datas (i j : Nat) b r r', db'.functionCalls.get? f = some datas →
      datas[i]? = some (b, r) → datas[j]? = some (b, r') → i = j) →
    Completed fn code bound dirty del deps db db' → J db → J db'

theorem Kept.along {P : FunName → B → Prop} {J : CDB B R → Prop} (hk : Kept P J)
    {later older : Trace B R} {s1 : Sys B R} {ev : Event B R}
    (h : History sg vers false (later ++ (s1, ev) :: older) s)
    (hn : NoCompletion sg later ((s1, ev) :: older) P)
    (h1 : J (step sg s1 ev).2.db) : J s.db := by
  generalize ht : later ++ (s1, ev) :: older = tr at h
  induction h generalizing later with
  | init env h => simp at ht
  | step ev' hs ha hc ih =>
    rename_i tr' s'
    cases later with
    | nil =>
      simp only [List.nil_append, List.cons.injEq, Prod.mk.injEq] at ht
      obtain ⟨⟨rfl, rfl⟩, rfl⟩ := ht
      exact h1
    | cons q later =>
      simp only [List.cons_append, List.cons.injEq] at ht
      obtain ⟨rfl, ht⟩ := ht
      have hn' : NoCompletion sg later ((s1, ev) :: older) P := by
        intro l1 q' l2 id f b s0 r d e x hl hq hr
        exact hn (_ :: l1) q' l2 id f b s0 r d e x (by rw [hl]; rfl) hq hr
      have hj := ih hn' ht
      have hI := reach_inv hs.reach
      cases ev' with
      | prepare id f b =>
        simp only [Verif.DB.step, stepPrepare]
        cases hg : s'.env.funDigest f with
        | none => exact hj
        | some code' =>
          simp only
          rcases prepare_cases s'.env f b (sg.srcs f code' b) s'.db vers hI.db.files hI.faithful with
            ⟨e, db', hp, ht, _⟩ | ⟨p, db', hp, ht, _⟩
          · rw [hp]; exact hk.touch _ _ ht hj
          · rw [hp]; simp only; split <;> exact hk.touch _ _ ht hj
      | complete id r deps ext extDsts =>
        rcases complete_tables hs ha with heq | ⟨p, hp, hcm⟩
        · rw [heq]; exact hj
        · obtain ⟨s0, hr⟩ := hs.running id p hp
          have hnp : ¬ P p.fn p.bound := by
            refine hn [] _ later id p.fn p.bound s0 r deps ext extDsts rfl rfl ?_
            rw [ht]; exact hr.1
          exact hk.complete _ _ _ _ _ _ _ _ hnp hI.db.distinct
            (reach_inv (hs.step _ ha hc).reach).db.distinct hcm hj
      | fail id => exact hj
      | edit x st => exact hj
      | tick n => exact hj
      | restart ds => exact hj
      | crash ds => exact absurd (hc rfl) (by simp)
      | deleteFunction f =>
        simp only [Verif.DB.step]
        split
        · exact hk.drop f _ _ (deleteFunction_drop f s'.db hI.db.nd) hj
        · exact hj
      | deleteFile x =>
        simp only [Verif.DB.step]
        split
        · exact hk.touch _ _ (deleteFile_touch x s'.db) hj
        · exact hj

/-- What a hit needs in the tables. -/
theorem hit_tables (h : History sg vers crashes tr s) {id : Nat} {f : FunName} {b : B} {r : R}
    (hh : (step sg s (.prepare id f b)).1 = .hit r) :
    ∃ code datas i, s.env.funDigest f = some code ∧ s.db.functionCalls.get? f = some datas ∧
      datas[i]? = some (b, r) ∧ (s.db.functions.get? f).isSome ∧
      (∀ x ∈ sg.srcs f code b, (s.db.callFile x f i).isSome) ∧
      (∀ x ∈ findExt s.db.externalSrcs (f, i), (s.env.fs.content x).isSome →
        (s.db.callFile x f i).isSome) := by
  have hI := reach_inv h.reach
  simp only [step, stepPrepare] at hh
  cases hcode : s.env.funDigest f with
  | none => rw [hcode] at hh; simp at hh
  | some code =>
    rw [hcode] at hh
    simp only at hh
    rcases prepare_cases s.env f b (sg.srcs f code b) s.db vers hI.db.files hI.faithful with
      ⟨e, db', hp, ht, hf⟩ | ⟨p, db', hp, ht, hf, hcf, hdig, hsrc, hd1, hd2, hd3⟩
    · rw [hp] at hh; simp at hh
    · rw [hp] at hh
      simp only at hh
      cases hhit : hit s.env (sg.dsts f code b) (sg.returnDsts f code) p with
      | none => rw [hhit] at hh; simp at hh
      | some r' =>
        rw [hhit] at hh
        simp only [Out.hit.injEq] at hh
        subst hh
        obtain ⟨h1, h2, h3, ⟨⟨g, i⟩, h4⟩, h5⟩ := hit_some hhit
        obtain ⟨rfl, _, ⟨datas, h6, h7⟩, h8, h9, h10⟩ := hd3 g i r' h4
        obtain ⟨e, he, hb, hres, hslot, hlat⟩ := hI.db.slot g datas i b r' h6 h7
        obtain ⟨_, hfc⟩ := hslot.code
        refine ⟨code, datas, i, rfl, h6, h7, by rw [hfc]; rfl, ?_, ?_⟩
        · intro x hx
          obtain ⟨c, hc, hor⟩ := hsrc x hx
          rcases hor with hm | ⟨i', r'', hfo, hcf'⟩
          · rw [h2] at hm; cases hm
          · rw [h4] at hfo; cases hfo
            rw [hcf']; rfl
        · intro x hx hc
          obtain ⟨c, hc⟩ := Option.isSome_iff_exists.1 hc
          rw [h10 h3 x hx c hc]; rfl

theorem kept_noFun (f : FunName) : Kept (fun g (_ : B) => g = f)
    (fun db : CDB B R => ∀ b, ¬ HasSlot db f b) where
  touch := fun db db' ht h b hb => by
    obtain ⟨datas, i, r, h1, h2⟩ := hb
    rw [ht.calls] at h1; exact h b ⟨datas, i, r, h1, h2⟩
  drop := fun g db db' hd h b hb => by
    obtain ⟨datas, i, r, h1, h2⟩ := hb
    rw [hd.calls] at h1
    split at h1
    · cases h1
    · exact h b ⟨datas, i, r, h1, h2⟩
  complete := fun fn code bound dirty del deps db db' hp _ _ hc h b hb => by
    rcases hc.slots f b hb with hx | hx
    · exact h b hx
    · exact hp hx.1.symm

theorem kept_noFile (f : FunName) (b : B) (x : FileName) (rec : Bool) :
    Kept (fun g b' => g = f ∧ b' = b)
    (fun db : CDB B R => ∀ datas (i : Nat) r, db.functionCalls.get? f = some datas →
      datas[i]? = some (b, r) → db.callFile x f i = none ∧
        (rec = true → x ∈ findExt db.externalSrcs (f, i))) where
  touch := fun db db' ht h datas i r h1 h2 => by
    rw [ht.calls] at h1
    obtain ⟨h3, h4⟩ := h datas i r h1 h2
    refine ⟨?_, by rw [ht.esrcs]; exact h4⟩
    rcases ht.cf x f i with h5 | h5
    · rw [h5]; exact h3
    · exact h5
  drop := fun g db db' hd h datas i r h1 h2 => by
    rw [hd.calls] at h1
    split at h1
    · cases h1
    · rename_i hg
      obtain ⟨h3, h4⟩ := h datas i r h1 h2
      rw [hd.cf, hd.esrcs, if_neg hg, if_neg hg]
      exact ⟨h3, h4⟩
  complete := fun fn code bound dirty del deps db db' hp hu hu' hc h datas i r h1 h2 => by
    rcases hc.slots f b ⟨datas, i, r, h1, h2⟩ with ⟨datas0, j, r0, k1, k2⟩ | hx
    · have hor : dirty = false ∨ del = false ∨ f ≠ fn := by
        by_cases h5 : dirty = false
        · exact Or.inl h5
        · by_cases h6 : del = false
          · exact Or.inr (Or.inl h6)
          · right; right
            rintro rfl
            have := hc.drop (by simpa using h5) (by simpa using h6) b ⟨datas, i, r, h1, h2⟩
            exact hp ⟨rfl, this.symm⟩
      have hne : ¬ (f = fn ∧ b = bound) := fun hx => hp ⟨hx.1.symm, hx.2.symm⟩
      obtain ⟨datas', m1, m2, ⟨m3, _⟩, m4⟩ := hc.keep f datas0 j b r0 hor hne k1 k2
      have hij : i = j := hu' f datas i j b r r0 h1 h2 (by rw [h1] at m1; cases m1; exact m2)
      subst hij
      obtain ⟨h3, h4⟩ := h datas0 i r0 k1 k2
      refine ⟨?_, by rw [m3]; exact h4⟩
      rcases m4 x with h5 | h5
      · rw [h5]; exact h3
      · exact h5
    · exact absurd ⟨hx.1.symm, hx.2.symm⟩ hp

/-- **C17**, functions: once a function is deleted from the database, none of its calls returns a
stored value until one of them has been executed again.  The answer says whether the function was
recorded, and nothing that is stored about another function changes. -/
theorem C17_delete_function {later older : Trace B R} {s1 : Sys B R} {f : FunName}
    (h : History sg vers false (later ++ (s1, .deleteFunction f) :: older) s)
    (hidle : s1.inflight = []) :
    ((step sg s1 (.deleteFunction f)).1 = .deleted true ↔ Known s1 f) ∧
    (NoCompletion sg later ((s1, .deleteFunction f) :: older) (fun g _ => g = f) →
      ∀ id b r, (step sg s (.prepare id f b)).1 ≠ .hit r) ∧
    (∀ g, g ≠ f → ∀ b, findFunction g (step sg s1 (.deleteFunction f)).2.db = findFunction g s1.db ∧
      findCall g b (step sg s1 (.deleteFunction f)).2.db = findCall g b s1.db) := by
  have hI := reach_inv (h.prefix rfl).reach
  have hd := deleteFunction_drop f s1.db hI.db.nd
  have he : (step sg s1 (.deleteFunction f)).2.db = (CDB.deleteFunction f s1.db).2 := by
    simp [step, hidle]
  refine ⟨?_, ?_, ?_⟩
  · obtain ⟨ht, _⟩ := reach_tidy (h.prefix rfl).reach
    have hnf := hI.db.noFun f
    simp only [step, hidle, List.isEmpty_nil, if_true, Out.deleted.injEq, Known, findFunction,
      CDB.deleteFunction, Bool.or_eq_true]
    constructor
    · intro hor
      have hs : (s1.db.functions.get? f).isSome := by
        rcases hor with (((h1 | h1) | h1) | h1) | h1
        · exact h1
        · cases hf : s1.db.functions.get? f with
          | none => rw [hnf hf] at h1; cases h1
          | some q => rfl
        · exact ht.esrcs f h1
        · exact ht.edsts f h1
        · obtain ⟨q, hq, h2⟩ := List.any_eq_true.1 h1
          obtain ⟨h3, h4⟩ := ht.cf q hq
          rw [Bool.or_eq_true] at h2
          rcases h2 with h2 | h2
          · obtain ⟨v, hv⟩ := Option.isSome_iff_exists.1 h2
            exact h4 (f, v) (Dict.mem_of_get? hv)
          · exact absurd (List.isEmpty_iff.1 h2) h3
      obtain ⟨q, hq⟩ := Option.isSome_iff_exists.1 hs
      rw [hq]
      exact ⟨_, rfl⟩
    · rintro ⟨q, hq⟩
      cases hf : s1.db.functions.get? f with
      | none => rw [hf] at hq; cases hq
      | some q => simp
  · intro hn id b r hh
    have := (kept_noFun (R := R) f).along h hn (by
      rintro b ⟨datas, i, r, h1, _⟩
      rw [he, hd.calls, if_pos rfl] at h1; cases h1)
    obtain ⟨code, datas, i, _, h2, h3, _⟩ := hit_tables h hh
    exact this b ⟨datas, i, r, h2, h3⟩
  · intro g hg b
    rw [he]
    simp only [findFunction, findCall, hd.functions, hd.calls, if_neg (Ne.symm hg), and_self]

/-- **C17**, files: once a file is deleted from the database, a call that has it as declared source
does not return a stored value until it has been executed again; likewise a call for which it is
recorded as external source, if the file exists.  The answer says whether anything was recorded
about the file; stored results do not change. -/
theorem C17_delete_file {later older : Trace B R} {s1 : Sys B R} {x : FileName}
    (h : History sg vers false (later ++ (s1, .deleteFile x) :: older) s)
    (hidle : s1.inflight = []) {f : FunName} {b : B}
    (hn : NoCompletion sg later ((s1, .deleteFile x) :: older) (fun g b' => g = f ∧ b' = b))
    (id : Nat) (r : R) :
    (∀ code, s.env.funDigest f = some code → x ∈ sg.srcs f code b →
      (step sg s (.prepare id f b)).1 ≠ .hit r) ∧
    (∀ c r', findCall f b s1.db = some (c, r') → x ∈ findExt s1.db.externalSrcs c →
      (s.env.fs.content x).isSome → (step sg s (.prepare id f b)).1 ≠ .hit r) := by
  have hI := reach_inv (h.prefix rfl).reach
  have he : (step sg s1 (.deleteFile x)).2.db = (CDB.deleteFile x s1.db).2 := by
    simp [step, hidle]
  have ht := deleteFile_touch x s1.db
  have hcf : ∀ g i, (CDB.deleteFile x s1.db).2.callFile x g i = none := by
    intro g i
    simp only [CDB.deleteFile]
    rw [callFile_erase (db := s1.db) x rfl]
    simp
  constructor
  · intro code hcode hx hh
    have := (kept_noFile (R := R) f b x false).along h hn (by
      intro datas i r h1 h2
      rw [he]; exact ⟨hcf f i, by simp⟩)
    obtain ⟨code', datas, i, h1, h2, h3, _, h4, _⟩ := hit_tables h hh
    rw [hcode] at h1; cases h1
    have h5 := h4 x hx
    rw [(this datas i r h2 h3).1] at h5; cases h5
  · intro c r' hfc hx hex hh
    have := (kept_noFile (R := R) f b x true).along h hn (by
      intro datas i r h1 h2
      rw [he] at h1 ⊢
      rw [ht.calls] at h1
      refine ⟨hcf f i, fun _ => ?_⟩
      rw [ht.esrcs]
      obtain ⟨hcc, datas', k1, k2⟩ := findCall_some hfc
      rw [h1] at k1; cases k1
      have := hI.db.distinct f datas i c.2 b r r' h1 h2 k2
      subst this
      rw [← hcc]; exact hx)
    obtain ⟨code', datas, i, h1, h2, h3, _, _, h4⟩ := hit_tables h hh
    have h5 := h4 x ((this datas i r h2 h3).2 rfl) hex
    rw [(this datas i r h2 h3).1] at h5; cases h5

/-- deleting "f", or its source "a", or its external source "h", after f(7) was executed -/
example : ∀ ev ∈ ([.deleteFunction "f", .deleteFile "a", .deleteFile "h"] : List (Event Nat Nat)),
    (step Ex.sg Ex.s1 ev).1 = .deleted true ∧
    (step Ex.sg Ex.s1 (.prepare 2 "f" 7)).1 = .hit 42 ∧
    (step Ex.sg (step Ex.sg Ex.s1 ev).2 (.prepare 2 "f" 7)).1 = .run := by decide

example : History Ex.sg Ex.vers false ([] ++ (Ex.s1, .deleteFile "h") :: Ex.tr1)
      (step Ex.sg Ex.s1 (.deleteFile "h")).2 ∧ Ex.s1.inflight = [] ∧
    NoCompletion Ex.sg [] ((Ex.s1, .deleteFile "h") :: Ex.tr1) (fun g b' => g = "f" ∧ b' = 7) ∧
    findCall "f" 7 Ex.s1.db = some (("f", 0), 42) ∧ "h" ∈ findExt Ex.s1.db.externalSrcs ("f", 0) :=
  ⟨.step _ Ex.history1 (allowedB_sound (by decide)) (by decide), by decide,
   by intro l1 q l2 _ _ _ _ _ _ _ _ h; simp at h, by decide, by decide⟩

end Verif.DB
