import Verif.Props.DB
import Verif.Props.DBNull
/-!
# More properties of cached calls (engines `pickle` and `cache`): C05, C07, C10-C14, C17, C22, C23, C61
-/
namespace Verif.DB
open CDB
set_option linter.unusedSectionVars false

variable {B R : Type} [DecidableEq B] {sg : Sig B R} {vers : FileName → Nat → Option Content}
  {crashes : Bool} {tr : Trace B R} {s : Sys B R}

/-! ### C05 -/

/-- **C05**, arguments and return value: in every state of the database, a stored value is
returned only if all declared destinations and those read off the value exist. -/
theorem C05_declared (s : Sys B R) (id : Nat) (f : FunName) (b : B) (r : R)
    (hh : (step sg s (.prepare id f b)).1 = .hit r) {code : Digest}
    (hcode : s.env.funDigest f = some code) {x : FileName}
    (hx : x ∈ sg.dsts f code b ∨ x ∈ sg.returnDsts f code r) : (s.env.fs x).isSome := by
  simp only [step, stepPrepare, hcode] at hh
  generalize prepare (storage B R) s.env f b (sg.srcs f code b) s.db = X at hh
  obtain ⟨y, db⟩ := X
  cases y with
  | error e => simp at hh
  | ok p =>
    simp only at hh
    cases hhit : hit s.env (sg.dsts f code b) (sg.returnDsts f code) p with
    | none => rw [hhit] at hh; simp at hh
    | some r' =>
      rw [hhit] at hh
      simp only [Out.hit.injEq] at hh
      subst hh
      obtain ⟨_, _, _, _, h⟩ := hit_some hhit
      refine h x ?_
      simp only [List.mem_append]
      rcases hx with hx | hx
      · exact Or.inl (Or.inr hx)
      · exact Or.inl (Or.inl hx)

/-- **C05**, registered destinations: no stored value is returned while a destination registered by
the last execution for these arguments does not exist. -/
theorem C05_registered (h : History sg vers false tr s)
    (hmd5 : ∀ c c', s.env.md5 c = s.env.md5 c' → c = c')
    {s0 s1 : Sys B R} {ev : Event B R} {f : FunName} {b : B} {r0 : R} {ext extDsts : List FileName}
    (hl : LastExecution sg tr s0 s1 ev f b r0 ext extDsts) {x : FileName} (hx : x ∈ extDsts)
    (hgone : s.env.fs x = none) (id : Nat) (r : R) :
    (step sg s (.prepare id f b)).1 ≠ .hit r := by
  intro hh
  obtain ⟨_, _, code, _, _, _, h1⟩ := hit_last h hmd5 hl id r hh
  have := h1 x (List.mem_append_right _ hx)
  rw [hgone] at this; cases this

namespace Ex
/-- call 1 of f(7) registers the destination "p" and writes "o" and "p" -/
def evsDst : List (Event Nat Nat) :=
  [.prepare 1 "f" 7, .edit "o" (some (file 3)), .edit "p" (some (file 3)), .complete 1 42 [] ["h"] ["p"]]
end Ex

/-- hypotheses of C05 met: the call hits as long as "p" and "o" exist -/
example : (step Ex.sg (after Ex.sg (Sys.init Ex.env) Ex.evsDst) (.prepare 2 "f" 7)).1 = .hit 42 := by
  decide
example : LastExecution Ex.sg (runEvents Ex.sg [] (Sys.init Ex.env)
      (Ex.evsDst ++ [.edit "p" none])).1 (Sys.init Ex.env)
      (after Ex.sg (Sys.init Ex.env) [.prepare 1 "f" 7, .edit "o" (some (Ex.file 3)),
        .edit "p" (some (Ex.file 3))])
      (.complete 1 42 [] ["h"] ["p"]) "f" 7 42 ["h"] ["p"] ∧
    (after Ex.sg (Sys.init Ex.env) (Ex.evsDst ++ [.edit "p" none])).env.fs "p" = none :=
  ⟨LastExecution.cons ⟨[], _, rfl, ⟨1, [], rfl, [_, _], [], rfl, by decide, by
    intro q hq; simp at hq; rcases hq with rfl | rfl <;> rfl⟩, by intros; simp⟩ _
      (by intros; simp), by decide⟩

/-! ### C07, C11: examples, and that a raising execution leaves the stored results -/

/-- the hypotheses of `C07_edit_drops_all` are met: f(7) is executed with text F; then the text is
changed, f(8) is executed with the new text -/
example : ∃ (s : Sys Nat Nat),
    History Ex.sg Ex.vers false (runEvents Ex.sg [] (Sys.init Ex.env) (Ex.evs ++ [Ex.evF,
      .prepare 2 "f" 8, .complete 2 43 [] [] []])).1 s ∧
    (step Ex.sg s (.prepare 3 "f" 8)).1 = .hit 43 ∧ (step Ex.sg s (.prepare 3 "f" 7)).1 = .run :=
  ⟨_, Ex.history _ (by decide), by decide, by decide⟩

/-- what is stored about calls: results, text and callees of functions, external files -/
structure SameStored (db db' : CDB B R) : Prop where
  funs : ∀ f, findFunction f db' = findFunction f db
  calls : ∀ f b, findCall f b db' = findCall f b db
  srcs : ∀ c, findExt db'.externalSrcs c = findExt db.externalSrcs c
  dsts : ∀ c, findExt db'.externalDsts c = findExt db.externalDsts c

/-- **C11**: starting a call, and ending it by an exception, changes nothing that is stored. -/
theorem C11_stored_results_stay (h : History sg vers crashes tr s) (id : Nat) (f : FunName) (b : B) :
    SameStored s.db (step sg s (.prepare id f b)).2.db ∧
    SameStored s.db (step sg s (.fail id)).2.db := by
  have hI := reach_inv h.reach
  have of : ∀ db', Touch s.db db' → SameStored s.db db' := fun db' ht =>
    ⟨fun f => by simp only [findFunction, ht.functions],
     fun f b => by simp only [findCall, ht.calls],
     fun c => by rw [ht.esrcs], fun c => by rw [ht.edsts]⟩
  refine ⟨?_, of _ (.refl _)⟩
  simp only [step, stepPrepare]
  cases hg : s.env.funDigest f with
  | none => exact of _ (.refl _)
  | some code' =>
    simp only
    rcases prepare_cases s.env f b (sg.srcs f code' b) s.db vers hI.db.files hI.faithful with
      ⟨e, db', hp, ht, _⟩ | ⟨p, db', hp, ht, _⟩
    · rw [hp]; exact of _ ht
    · rw [hp]; simp only; split <;> exact of _ ht

/-- a state in which a call is running, which then fails: the result stored before is still there -/
example : ∃ s : Sys Nat Nat, History Ex.sg Ex.vers false (runEvents Ex.sg [] (Sys.init Ex.env)
      (Ex.evs ++ [.edit "a" (some (Ex.file 2)), .prepare 2 "f" 7])).1 s ∧
    (step Ex.sg (step Ex.sg s (.fail 2)).2 (.prepare 3 "f" 7)).1 = .run ∧
    (findCall "f" 7 (step Ex.sg s (.fail 2)).2.db).map Prod.snd = some 42 :=
  ⟨_, Ex.history _ (by decide), by decide, by decide⟩

/-! ### C10 -/

theorem not_hasSlot_findCall {f : FunName} {b : B} {db : CDB B R} (h : ¬ HasSlot db f b) :
    findCall f b db = none := by
  cases hf : findCall f b db with
  | none => rfl
  | some q =>
    obtain ⟨⟨g, i⟩, r⟩ := q
    obtain ⟨_, datas, h1, h2⟩ := findCall_some hf
    exact absurd ⟨datas, i, r, h1, h2⟩ h

theorem findCall_slot {f : FunName} {b : B} {db : CDB B R} {datas : List (B × R)} {i : Nat} {r : R}
    (h1 : db.functionCalls.get? f = some datas) (h2 : datas[i]? = some (b, r))
    (hd : ∀ j r', datas[j]? = some (b, r') → j = i) : findCall f b db = some ((f, i), r) := by
  unfold findCall
  rw [h1]
  simp only
  rw [findCallFrom_at h2 hd]
  simp

/-- **C10**.  Completing a call of `f` (started in `s0`) changes nothing that is stored about another
function; and if `f` and the functions it is recorded to call had not changed when the call started,
it changes nothing stored for `f` under other arguments either. -/
theorem C10_frame (h : History sg vers crashes tr s) {id : Nat} {f : FunName} {b : B} {s0 : Sys B R}
    (hr : Running sg tr id f b s0) {r : R} {deps : List FunName} {ext extDsts : List FileName}
    (ha : Allowed vers s (.complete id r deps ext extDsts)) {s' : Sys B R}
    (hs' : s' = (step sg s (.complete id r deps ext extDsts)).2) :
    (∀ g, g ≠ f → findFunction g s'.db = findFunction g s.db) ∧
    (¬ Stale s0 f → findFunction f s'.db = findFunction f s.db) ∧
    (∀ g b', g ≠ f ∨ (b' ≠ b ∧ ¬ Stale s0 f) →
      findCall g b' s'.db = findCall g b' s.db ∧
      ∀ c r', findCall g b' s.db = some (c, r') →
        findExt s'.db.externalSrcs c = findExt s.db.externalSrcs c ∧
        findExt s'.db.externalDsts c = findExt s.db.externalDsts c) := by
  have hI := reach_inv h.reach
  obtain ⟨p, hp, hpf, hpb, _, _⟩ := h.running_inflight hr
  have hprep := h.running_prep hr hp
  have hP := hI.pending id p hp
  have hal : p.prep.found.isSome → ¬ DirtySince p s.log := by
    rintro hf ⟨e, he, h1, h2⟩
    have := ha p hp hf e he h1
    rw [h2] at this; cases this
  obtain ⟨ok, out, hout, _, hinv, hc, _, _⟩ :=
    complete_inv hI.db hP hI.faithful hal r deps ext extDsts
  have hdb : s'.db = out.2 := by
    rw [hs']
    simp only [step, stepComplete, hp]
    rw [hout]
    obtain ⟨y, db⟩ := out
    cases y <;> rfl
  have hclean : ¬ Stale s0 f → p.prep.funDirty = false := by
    intro hn
    cases hd : p.prep.funDirty with
    | false => rfl
    | true =>
      exfalso
      apply hn
      generalize hX : prepare (storage B R) s0.env f b (sg.srcs f p.code b) s0.db = X at hprep
      obtain ⟨y, db⟩ := X
      simp only at hprep
      subst hprep
      unfold prepare at hX
      cases hcf : checkFunction (storage B R) s0.env s0.db s0.env.recursionLimit f with
      | error e => rw [hcf] at hX; simp at hX
      | ok q =>
        obtain ⟨dirty, fid⟩ := q
        rw [hcf] at hX
        simp only at hX
        have : p.prep.funDirty = dirty := by
          split at hX
          · simp at hX
          · split at hX
            · simp only [Prod.mk.injEq, Except.ok.injEq] at hX
              rw [← hX.1]
            · simp only [Prod.mk.injEq, Except.ok.injEq] at hX
              rw [← hX.1]
        rw [hd] at this
        subst this
        exact checkFunction_dirty _ hcf
  rw [hdb]
  subst hpf hpb
  refine ⟨?_, ?_, ?_⟩
  · intro g hg
    simp only [findFunction, hc.fun_ne g hg]
  · intro hn
    simp only [findFunction, hc.fun_clean (hclean hn)]
  · intro g b' hor
    have hor1 : p.prep.funDirty = false ∨ p.prep.funId.isSome = false ∨ g ≠ p.fn := by
      rcases hor with h | ⟨_, h⟩
      · exact Or.inr (Or.inr h)
      · exact Or.inl (hclean h)
    have hne : ¬ (g = p.fn ∧ b' = p.bound) := by
      rintro ⟨h1, h2⟩
      rcases hor with h | ⟨h, _⟩
      · exact h h1
      · exact h h2
    cases hf : findCall g b' s.db with
    | none =>
      refine ⟨?_, by simp⟩
      apply not_hasSlot_findCall
      intro hx
      rcases hc.slots g b' hx with hy | hy
      · exact findCall_none hf hy
      · exact hne hy
    | some q =>
      obtain ⟨⟨g', i⟩, r0⟩ := q
      obtain ⟨rfl, datas, h1, h2⟩ := findCall_some hf
      obtain ⟨datas', k1, k2, k3, _⟩ := hc.keep g' datas i b' r0 hor1 hne h1 h2
      refine ⟨findCall_slot k1 k2
        (fun j r' hj => hinv.distinct g' datas' j i b' r' r0 k1 hj k2), ?_⟩
      rintro c r' hcr
      simp only [Option.some.injEq, Prod.mk.injEq] at hcr
      obtain ⟨rfl, _⟩ := hcr
      exact k3

/-- hypotheses of C10 met: a second call of `f`, whose text is unchanged, is about to complete -/
example : ∃ (s s0 : Sys Nat Nat), History Ex.sg Ex.vers false (runEvents Ex.sg [] (Sys.init Ex.env)
      (Ex.evs ++ [.prepare 2 "f" 8])).1 s ∧
    Running Ex.sg (runEvents Ex.sg [] (Sys.init Ex.env) (Ex.evs ++ [.prepare 2 "f" 8])).1 2 "f" 8 s0 ∧
    ¬ Stale s0 "f" ∧ Allowed Ex.vers s (.complete 2 43 [] [] []) ∧
    (findCall "f" 7 s.db).map Prod.snd = some 42 := by
  refine ⟨after Ex.sg (Sys.init Ex.env) (Ex.evs ++ [.prepare 2 "f" 8]), Ex.s1,
    Ex.history _ (by decide), ⟨[], _, rfl, by decide, by simp⟩, ?_, allowedB_sound (by decide),
    by decide⟩
  have key : Ex.s1.db.functions = [("f", ("F", []))] := by decide
  rintro ⟨g, h1, h2⟩
  cases h1 with
  | refl => exact h2 "f" "F" [] (by decide) (by decide)
  | step hc _ =>
    obtain ⟨fid, d, deps, h1, h2⟩ := hc
    simp only [storage, findFunction, key, Dict.get?] at h1
    simp at h1
    obtain ⟨_, _, rfl⟩ := h1
    cases h2

/-! ### C12 -/

section
variable {σ FunId CallId FileId : Type} (st : Storage σ FunId CallId FileId B R)

theorem checkCallFiles_missing (env : Env) (cid : Option CallId) {xs : List FileName} {x : FileName}
    (hx : x ∈ xs) (hm : env.fs x = none) (db : σ) :
    ∃ y, (checkCallFiles st env cid xs db).1 = .error (.os y) := by
  have haf : ∀ y (db : σ) e, (addFile st env y db).1 = .error e → e = .os y := by
    intro y db e
    unfold addFile
    cases hy : env.fs y with
    | none => simp only [Except.error.injEq]; exact fun h => h.symm
    | some fs =>
      simp only
      cases st.findFile y db with
      | known fid m d =>
        simp only
        split
        · simp
        · cases fs.content with
          | none => simp only [Except.error.injEq]; exact fun h => h.symm
          | some c => simp only; split <;> simp
      | unknown fid =>
        simp only
        cases fs.content with
        | none => simp only [Except.error.injEq]; exact fun h => h.symm
        | some c => simp
  have hcf : ∀ y (db : σ) e, (checkCallFile st env cid y db).1 = .error e → e = .os y := by
    intro y db e
    unfold checkCallFile
    have := haf y db
    generalize addFile st env y db = X at this
    obtain ⟨z, db1⟩ := X
    cases z with
    | error e' => simp only [Except.error.injEq]; rintro rfl; exact this e' rfl
    | ok t =>
      obtain ⟨a, b, c⟩ := t
      simp only
      cases cid with
      | none => simp
      | some c' =>
        simp only
        cases st.findCallFile c' b db1 with
        | none => simp
        | some old => simp only; split <;> simp
  induction xs generalizing db with
  | nil => cases hx
  | cons y xs ih =>
    unfold checkCallFiles
    by_cases hyx : y = x
    · subst hyx
      have : (checkCallFile st env cid y db).1 = .error (.os y) := by
        simp [checkCallFile, addFile, hm]
      generalize checkCallFile st env cid y db = X at this
      obtain ⟨z, db1⟩ := X
      simp only at this
      subst this
      exact ⟨y, rfl⟩
    · have hx' : x ∈ xs := by
        rcases List.mem_cons.1 hx with h | h
        · exact absurd h.symm hyx
        · exact h
      have := hcf y db
      generalize checkCallFile st env cid y db = X at this
      obtain ⟨z, db1⟩ := X
      cases z with
      | error e => exact ⟨y, by simp only; rw [this e rfl]⟩
      | ok t =>
        obtain ⟨a, b, c⟩ := t
        simp only
        obtain ⟨y', h'⟩ := ih hx' db1
        generalize checkCallFiles st env cid xs db1 = Y at h'
        obtain ⟨w, db2⟩ := Y
        simp only at h'
        subst h'
        exact ⟨y', rfl⟩

/-- **C12**, both engines: if a declared source does not exist, preparing the call raises `OSError`
(unless the check of the function itself already raised). -/
theorem C12_prepare_raises (env : Env) (f : FunName) (b : B) {srcs : List FileName} {x : FileName}
    (hx : x ∈ srcs) (hm : env.fs x = none) (db : σ)
    (hf : ∃ q, checkFunction st env db env.recursionLimit f = .ok q) :
    ∃ y, (prepare st env f b srcs db).1 = .error (.os y) := by
  obtain ⟨⟨dirty, fid⟩, hf⟩ := hf
  unfold prepare
  rw [hf]
  simp only
  obtain ⟨y, hy⟩ := checkCallFiles_missing st env
    ((lookupCall st dirty fid b db).map Prod.fst) hx hm db
  generalize checkCallFiles st env ((lookupCall st dirty fid b db).map Prod.fst) srcs db = X at hy
  obtain ⟨w, db2⟩ := X
  simp only at hy
  subst hy
  exact ⟨y, rfl⟩
end

/-- **C12**: in every state of the database, a call one of whose declared sources does not exist
raises (`OSError`, unless the check of the function itself raised): the function is not run and no
stored value is returned, and no call is left in flight. -/
theorem C12_missing_source (s : Sys B R) (id : Nat) (f : FunName) (b : B) {code : Digest}
    (hcode : s.env.funDigest f = some code) {x : FileName} (hx : x ∈ sg.srcs f code b)
    (hm : s.env.fs x = none) :
    ∃ e, (step sg s (.prepare id f b)).1 = .raised e ∧
      (step sg s (.prepare id f b)).2.inflight = s.inflight ∧
      ((∃ q, checkFunction (storage B R) s.env s.db s.env.recursionLimit f = .ok q) →
        ∃ y, e = .os y) := by
  simp only [step, stepPrepare, hcode]
  cases hcf : checkFunction (storage B R) s.env s.db s.env.recursionLimit f with
  | error e =>
    have : prepare (storage B R) s.env f b (sg.srcs f code b) s.db = (.error e, s.db) := by
      unfold prepare; rw [hcf]
    rw [this]
    exact ⟨e, rfl, rfl, by rintro ⟨q, hq⟩; cases hq⟩
  | ok q =>
    obtain ⟨y, hy⟩ := C12_prepare_raises (storage B R) s.env f b hx hm s.db ⟨q, hcf⟩
    generalize prepare (storage B R) s.env f b (sg.srcs f code b) s.db = X at hy
    obtain ⟨w, db2⟩ := X
    simp only at hy
    subst hy
    exact ⟨_, rfl, rfl, fun _ => ⟨y, rfl⟩⟩

/-- hypotheses of C12 met: the source "a" of f(7) is removed -/
example : (step Ex.sg (step Ex.sg Ex.s1 (.edit "a" none)).2 (.prepare 2 "f" 7)).1 = .raised (.os "a") ∧
    (step Ex.sg Ex.s1 (.edit "a" none)).2.env.fs "a" = none ∧ "a" ∈ Ex.sg.srcs "f" "F" 7 := by decide

/-! ### C13 -/

/-- **C13** (partial): in every history in which a file's modification time determines its content,
checking a file reports the digest of its present content.  Missing (and false): the same without
that assumption. -/
theorem C13_check_partial (h : History sg vers crashes tr s) (x : FileName) {dirty : Bool}
    {fid : FileName} {d : Digest}
    (hc : (addFile (storage B R) s.env x s.db).1 = .ok (dirty, fid, d)) :
    ∃ c, s.env.fs.content x = some c ∧ d = s.env.md5 c := by
  have hI := reach_inv h.reach
  rcases addFile_cases s.env x s.db vers hI.db.files hI.faithful with
    ⟨e, h1, _⟩ | ⟨d', c, db1, h1, h2, _⟩
  · rw [h1] at hc; cases hc
  · rw [h1] at hc; cases hc; exact ⟨c, h2, rfl⟩

/-- hypothesis of C13 met after an edit -/
example : (addFile (storage Nat Nat) (step Ex.sg Ex.s1 Ex.evA).2.env "a"
    (step Ex.sg Ex.s1 Ex.evA).2.db).1 = .ok (true, "a", "two") := by rfl

/-- **C13**, within a second of the modification time (line 291): whatever is recorded about the file and
whatever modification times other contents had, a successful check gives the digest of the present content,
and the file is clean exactly if that digest was recorded.  For every engine. -/
theorem C13_recent_partial {σ FunId CallId FileId : Type} (st : Storage σ FunId CallId FileId B R)
    (env : Env) (x : FileName) (db : σ) {dirty : Bool} {fid : FileId} {d : Digest} {f : FState}
    (hf : env.fs x = some f) (hnow : env.now ≤ f.mtime + oneSecond)
    (hc : (addFile st env x db).1 = .ok (dirty, fid, d)) :
    (∃ c, f.content = some c ∧ d = env.md5 c) ∧
    (dirty = false ↔ ∃ i m, st.findFile x db = .known i m d) := by
  unfold addFile at hc
  rw [hf] at hc
  simp only at hc
  cases hk : st.findFile x db with
  | known i m d' =>
    rw [hk] at hc
    simp only at hc
    rw [if_neg (by omega)] at hc
    cases hfc : f.content with
    | none => rw [hfc] at hc; simp at hc
    | some c =>
      rw [hfc] at hc
      simp only at hc
      split at hc
      · rename_i hd
        simp only [Except.ok.injEq, Prod.mk.injEq] at hc
        obtain ⟨rfl, rfl, rfl⟩ := hc
        exact ⟨⟨c, rfl, rfl⟩, by simp [hd]⟩
      · rename_i hd
        simp only [Except.ok.injEq, Prod.mk.injEq] at hc
        obtain ⟨rfl, rfl, rfl⟩ := hc
        refine ⟨⟨c, rfl, rfl⟩, ?_⟩
        simp only [Bool.true_eq_false, FoundFile.known.injEq, false_iff, not_exists]
        intro i' m' h
        exact hd h.2.2.symm
  | unknown i =>
    rw [hk] at hc
    simp only at hc
    cases hfc : f.content with
    | none => rw [hfc] at hc; simp at hc
    | some c =>
      rw [hfc] at hc
      simp only [Except.ok.injEq, Prod.mk.injEq] at hc
      obtain ⟨rfl, rfl, rfl⟩ := hc
      exact ⟨⟨c, rfl, rfl⟩, by simp⟩

/-- hypotheses met: the file was checked and written again in the same clock tick -/
example : (addFile (storage Nat Nat) ⟨fun _ => some ⟨5, some "new"⟩, 6, fun _ => none, id, 0⟩ "a"
    (addFile (storage Nat Nat) ⟨fun _ => some ⟨5, some "old"⟩, 5, fun _ => none, id, 0⟩ "a" {}).2).1 =
      .ok (true, "a", "new") := by rfl

/-- **C13** is false: two writes with the same modification time (a clock tick), the first one
checked; once the clock is more than a second further the second write is never noticed. -/
theorem C13_coarse_mtime_violated :
    ∃ (env1 env2 : Env) (db : CDB Nat Nat),
      db = (addFile (storage Nat Nat) env1 "a" {}).2 ∧
      env2.fs "a" ≠ env1.fs "a" ∧ env2.fs.content "a" = some "new" ∧
      ∀ now, now > 5 + oneSecond →
        (addFile (storage Nat Nat) { env2 with now := now } "a" db).1 = .ok (false, "a", "old") ∧
        (addFile (storage Nat Nat) { env2 with now := now } "a" db).2 = db := by
  refine ⟨⟨fun _ => some ⟨5, some "old"⟩, 5, fun _ => none, id, 0⟩,
    ⟨fun _ => some ⟨5, some "new"⟩, 5, fun _ => none, id, 0⟩, _, rfl, by decide, by decide, ?_⟩
  intro now hn
  have hdb : (addFile (storage Nat Nat) ⟨fun _ => some ⟨5, some "old"⟩, 5, fun _ => none, id, 0⟩ "a"
      ({} : CDB Nat Nat)).2 = { files := [("a", (5, "old"))] } := by decide
  rw [hdb]
  simp [addFile, storage, CDB.findFile, Dict.get?, hn]

/-! ### C14 -/

/-- **C14**, declared sources: if a declared source was edited during the last execution (its
content at the end differs from that at the start) and was not changed back, the next call runs
the function again. -/
theorem C14_declared_partial (h : History sg vers false tr s)
    (hmd5 : ∀ c c', s.env.md5 c = s.env.md5 c' → c = c')
    {s0 s1 : Sys B R} {ev : Event B R} {f : FunName} {b : B} {r0 : R} {ext extDsts : List FileName}
    (hl : LastExecution sg tr s0 s1 ev f b r0 ext extDsts)
    {code : Digest} (hcode : s.env.funDigest f = some code) {x : FileName}
    (hx : x ∈ sg.srcs f code b) (hext : x ∉ ext)
    (hedit : s1.env.fs.content x ≠ s0.env.fs.content x)
    (hstay : s.env.fs.content x = s1.env.fs.content x) (id : Nat) (r : R) :
    (step sg s (.prepare id f b)).1 ≠ .hit r :=
  C02_edited_source h hmd5 hl hcode hx hext (by rw [hstay]; exact hedit) id r

/-- hypotheses met: "a" is edited while f(7) runs -/
example : ∃ s : Sys Nat Nat, History Ex.sg Ex.vers false (runEvents Ex.sg [] (Sys.init Ex.env)
      [.prepare 1 "f" 7, .edit "a" (some (Ex.file 2)), .edit "o" (some (Ex.file 3)),
       .complete 1 42 [] [] []]).1 s ∧ (step Ex.sg s (.prepare 2 "f" 7)).1 = .run :=
  ⟨_, Ex.history _ (by decide), by decide⟩

/-- **C14** is false for external sources: "h" is edited while f(7) runs (after f read it); the
next call returns the value computed from the old content. -/
theorem C14_external_violated :
    ∃ (tr : Trace Nat Nat) (s0 s1 s : Sys Nat Nat), History Ex.sg Ex.vers false tr s ∧
      LastExecution Ex.sg tr s0 s1 (.complete 1 42 [] ["h"] []) "f" 7 42 ["h"] [] ∧
      s1.env.fs.content "h" ≠ s0.env.fs.content "h" ∧
      s.env.fs.content "h" = s1.env.fs.content "h" ∧
      (step Ex.sg s (.prepare 2 "f" 7)).1 = .hit 42 :=
  ⟨_, Sys.init Ex.env, after Ex.sg (Sys.init Ex.env) [.prepare 1 "f" 7, .edit "h" (some (Ex.file 2)),
      .edit "o" (some (Ex.file 3))], _,
   Ex.history [.prepare 1 "f" 7, .edit "h" (some (Ex.file 2)), .edit "o" (some (Ex.file 3)),
      .complete 1 42 [] ["h"] []] (by decide),
   ⟨[], _, rfl, ⟨1, [], rfl, [_, _], [], rfl, by decide, by
      intro q hq; simp at hq; rcases hq with rfl | rfl <;> rfl⟩, by intros; simp⟩,
   by decide, by decide, by decide⟩

/-! ### C22 -/

/-- **C22** (pickle and cache engine): a call that ran, however it overlaps with other calls (within
`Allowed`), completes without an exception if the external sources it reports are readable, and its
result is then stored. -/
theorem C22_cache_completes (h : History sg vers crashes tr s) {id : Nat} {f : FunName} {b : B}
    {s0 : Sys B R} (hr : Running sg tr id f b s0) {r : R} {deps : List FunName}
    {ext extDsts : List FileName} (ha : Allowed vers s (.complete id r deps ext extDsts))
    (hext : ∀ x ∈ ext, (s.env.fs.content x).isSome) :
    (step sg s (.complete id r deps ext extDsts)).1 = .done ∧
    ∃ c, findCall f b (step sg s (.complete id r deps ext extDsts)).2.db = some (c, r) := by
  have hI := reach_inv h.reach
  obtain ⟨p, hp, rfl, rfl, _, _⟩ := h.running_inflight hr
  have hP := hI.pending id p hp
  have hal : p.prep.found.isSome → ¬ DirtySince p s.log := by
    rintro hf ⟨e, he, h1, h2⟩
    have := ha p hp hf e he h1
    rw [h2] at this; cases this
  obtain ⟨ok, out, hout, hok, hinv, hc, hbad, hst⟩ :=
    complete_inv hI.db hP hI.faithful hal r deps ext extDsts
  have hokt : ok = true := by
    cases ok with
    | true => rfl
    | false =>
      obtain ⟨x, hx, hn⟩ := hbad rfl
      have := hext x hx
      rw [hn] at this; cases this
  simp only [step, stepComplete, hp]
  rw [hout]
  have h1 := hok.2 hokt
  obtain ⟨i, datas, k1, k2, _⟩ := hst hokt
  obtain ⟨y, db⟩ := out
  simp only at h1
  subst h1
  refine ⟨rfl, (p.fn, i), ?_⟩
  exact findCall_slot k1 k2 (fun j r' hj => hinv.distinct p.fn datas j i p.bound r' r k1 hj k2)

/-- hypotheses of C22 met: f(2) calls f(1) recursively, both for the first time -/
example : ∃ (s s0 : Sys Nat Nat), History Ex.sg Ex.vers false (runEvents Ex.sg [] (Sys.init Ex.env)
      [.prepare 1 "f" 2, .prepare 2 "f" 1, .complete 2 1 [] [] []]).1 s ∧
    Running Ex.sg (runEvents Ex.sg [] (Sys.init Ex.env)
      [.prepare 1 "f" 2, .prepare 2 "f" 1, .complete 2 1 [] [] []]).1 1 "f" 2 s0 ∧
    Allowed Ex.vers s (.complete 1 2 ["f"] ["h"] []) ∧ (s.env.fs.content "h").isSome :=
  ⟨after Ex.sg (Sys.init Ex.env) [.prepare 1 "f" 2, .prepare 2 "f" 1, .complete 2 1 [] [] []],
   Sys.init Ex.env, Ex.history _ (by decide),
   ⟨[_, _], [], rfl, by decide, by intro q hq; simp at hq; rcases hq with rfl | rfl <;> rfl⟩,
   allowedB_sound (by decide), by decide⟩

/-! ### C61 -/

/-- **C61** is false: `f(7)` reports an external source that does not exist; the call raises
`OSError`; the next call returns the value of the failed one. -/
theorem C61_failed_store_violated :
    ∃ (tr : Trace Nat Nat) (s : Sys Nat Nat), History Ex.sg Ex.vers false tr s ∧
      (step Ex.sg s (.complete 1 42 [] ["missing"] [])).1 = .raised (.os "missing") ∧
      (step Ex.sg (step Ex.sg s (.complete 1 42 [] ["missing"] [])).2 (.prepare 2 "f" 7)).1 = .hit 42 :=
  ⟨_, _, Ex.history [.prepare 1 "f" 7, .edit "o" (some (Ex.file 3))] (by decide), by decide, by decide⟩

/-! ### C23 -/

/-- **C23** (partial) is C01 (`C01_hit_sound`) for the interleavings in `Allowed`; restated here for
calls of different functions or with different arguments: if no two equal calls overlap and no
call that found an earlier result overlaps one that discarded the results of its function, a hit
is sound.  Missing (and false): overlapping equal calls. -/
theorem C23_interleaved_partial (h : History sg vers crashes tr s)
    (hmd5 : ∀ c c', s.env.md5 c = s.env.md5 c' → c = c')
    (id : Nat) (f : FunName) (b : B) (r : R) (hh : (step sg s (.prepare id f b)).1 = .hit r) :
    ∃ newer s0 s1 ev older ext extDsts code, tr = newer ++ (s1, ev) :: older ∧
      Execution sg older s0 s1 ev f b r ext extDsts ∧
      s0.env.funDigest f = some code ∧ s.env.funDigest f = some code ∧
      ∀ x ∈ sg.srcs f code b, ∃ c, s.env.fs.content x = some c ∧
        ((step sg s1 ev).1 = .done ∧ x ∈ ext → s1.env.fs.content x = some c) ∧
        (¬ ((step sg s1 ev).1 = .done ∧ x ∈ ext) → s0.env.fs.content x = some c) :=
  C01_hit_sound h hmd5 id f b r hh

namespace Ex
/-- every function has the sources "a" and "h" -/
def sg2 : Sig Nat Nat := ⟨fun _ _ _ => ["a", "h"], fun _ _ _ => [], fun _ _ _ => []⟩

/-- f(7) was executed. "a" is edited.  Call A of f(7) starts (it will return 2).  "h" is edited.
Call B of f(7) starts and completes.  Then A completes. -/
def evsOverlap : List (Event Nat Nat) :=
  [.prepare 1 "f" 7, .complete 1 1 [] [] [], .edit "a" (some (file 2)), .prepare 2 "f" 7,
   .edit "h" (some (file 2)), .prepare 3 "f" 7, .complete 3 3 [] [] [], .complete 2 2 [] [] []]
end Ex

/-- **C23** is false when equal calls overlap: the last call returns 2, the value of the execution
that started before "h" was edited. -/
theorem C23_overlap_violated :
    (step Ex.sg2 (after Ex.sg2 (Sys.init Ex.env) Ex.evsOverlap) (.prepare 4 "f" 7)).1 = .hit 2 ∧
    ((after Ex.sg2 (Sys.init Ex.env) (Ex.evsOverlap.take 3)).env.fs.content "h" = some "one") ∧
    ((after Ex.sg2 (Sys.init Ex.env) Ex.evsOverlap).env.fs.content "h" = some "two") ∧
    (∀ n ∈ [2, 3], Running Ex.sg2 (runEvents Ex.sg2 [] (Sys.init Ex.env) (Ex.evsOverlap.take 6)).1 n "f" 7
      (after Ex.sg2 (Sys.init Ex.env) (Ex.evsOverlap.take (2 * n - 1)))) := by
  refine ⟨by decide, by decide, by decide, ?_⟩
  intro n hn
  simp only [List.mem_cons, List.not_mem_nil, or_false] at hn
  rcases hn with rfl | rfl
  · exact ⟨[_, _], _, rfl, by decide, by intro q hq; simp at hq; rcases hq with rfl | rfl <;> rfl⟩
  · exact ⟨[], _, rfl, by decide, by simp⟩

end Verif.DB
