import Verif.DB.HistoryMore
import Verif.DB.Example
/-! `check_function` against reachability, and a checker for concrete histories. -/
namespace Verif.DB
set_option linter.unusedSectionVars false

section
variable {σ FunId CallId FileId B R : Type} (st : Storage σ FunId CallId FileId B R)

/-- `g` is recorded as called by `f` -/
def RecCall (s : σ) (f g : FunName) : Prop :=
  ∃ fid d deps, st.findFunction f s = some (fid, d, deps) ∧ g ∈ deps

/-- Reachable through recorded calls. -/
inductive RecReach (s : σ) : FunName → FunName → Prop
  | refl (f) : RecReach s f f
  | step {f g h} (hc : RecCall st s f g) (hr : RecReach s g h) : RecReach s f h

/-- the function is not recorded, or was recorded with another text than it has now -/
def Changed (env : Env) (s : σ) (f : FunName) : Prop :=
  ∀ fid d deps, st.findFunction f s = some (fid, d, deps) → env.funDigest f ≠ some d

theorem anyDirty_ok {check : FunName → Except Err (Bool × Option FunId)} {ds : List FunName}
    {r : Bool} (h : anyDirty check ds = .ok r) :
    (r = true → ∃ d ∈ ds, ∃ i, check d = .ok (true, i)) ∧
    (r = false → ∀ d ∈ ds, ∃ i, check d = .ok (false, i)) := by
  induction ds with
  | nil => simp [anyDirty] at h; subst h; simp
  | cons d ds ih =>
    unfold anyDirty at h
    cases hc : check d with
    | error e => rw [hc] at h; cases h
    | ok q =>
      obtain ⟨b, i⟩ := q
      rw [hc] at h
      cases b with
      | true =>
        simp only [Except.ok.injEq] at h; subst h
        exact ⟨fun _ => ⟨d, by simp, i, hc⟩, by simp⟩
      | false =>
        obtain ⟨h1, h2⟩ := ih h
        refine ⟨fun hr => ?_, fun hr => ?_⟩
        · obtain ⟨d', hd', hx⟩ := h1 hr
          exact ⟨d', by simp [hd'], hx⟩
        · intro d' hd'
          rcases List.mem_cons.1 hd' with rfl | hd'
          · exact ⟨i, hc⟩
          · exact h2 hr d' hd'

theorem anyDirty_total {check : FunName → Except Err (Bool × Option FunId)} {ds : List FunName}
    (h : ∀ d ∈ ds, ∃ q, check d = .ok q) : ∃ r, anyDirty check ds = .ok r := by
  induction ds with
  | nil => exact ⟨false, rfl⟩
  | cons d ds ih =>
    obtain ⟨⟨b, i⟩, hq⟩ := h d (by simp)
    unfold anyDirty
    rw [hq]
    cases b with
    | true => exact ⟨true, rfl⟩
    | false => exact ih (fun d hd => h d (by simp [hd]))

theorem checkFunction_dirty {env : Env} {s : σ} {n : Nat} {f : FunName} {i : Option FunId}
    (h : checkFunction st env s n f = .ok (true, i)) :
    ∃ g, RecReach st s f g ∧ Changed st env s g := by
  induction n generalizing f i with
  | zero => simp [checkFunction] at h
  | succ n ih =>
    unfold checkFunction at h
    cases hd : env.funDigest f with
    | none => rw [hd] at h; cases h
    | some digest =>
      rw [hd] at h
      simp only at h
      cases hf : st.findFunction f s with
      | none => exact ⟨f, .refl f, by intro fid d deps hx; rw [hf] at hx; cases hx⟩
      | some q =>
        obtain ⟨fid, old, deps⟩ := q
        rw [hf] at h
        simp only at h
        split at h
        · rename_i hne
          refine ⟨f, .refl f, ?_⟩
          intro fid' d deps' hx
          rw [hf] at hx; cases hx
          rw [hd]; intro hx; cases hx; exact hne rfl
        · cases ha : anyDirty (checkFunction st env s n)
              (deps.filter (fun d => decide (d ≠ f))) with
          | error e => rw [ha] at h; cases h
          | ok b =>
            rw [ha] at h
            simp only [Except.ok.injEq, Prod.mk.injEq] at h
            obtain ⟨rfl, _⟩ := h
            obtain ⟨d, hd', i', hx⟩ := (anyDirty_ok ha).1 rfl
            obtain ⟨g, h1, h2⟩ := ih hx
            exact ⟨g, .step ⟨fid, old, deps, hf, (List.mem_filter.1 hd').1⟩ h1, h2⟩

theorem checkFunction_one {env : Env} {s : σ} {n : Nat} {f : FunName} {i : Option FunId}
    (h : checkFunction st env s n f = .ok (false, i)) :
    ∃ fid d deps m, st.findFunction f s = some (fid, d, deps) ∧ env.funDigest f = some d ∧
      ∀ g ∈ deps, g ≠ f → ∃ j, checkFunction st env s m g = .ok (false, j) := by
  cases n with
  | zero => simp [checkFunction] at h
  | succ n =>
    unfold checkFunction at h
    cases hd : env.funDigest f with
    | none => rw [hd] at h; cases h
    | some digest =>
      rw [hd] at h
      simp only at h
      cases hf : st.findFunction f s with
      | none => rw [hf] at h; simp at h
      | some q =>
        obtain ⟨fid, old, deps⟩ := q
        rw [hf] at h
        simp only at h
        split at h
        · simp at h
        · rename_i hne
          cases ha : anyDirty (checkFunction st env s n)
              (deps.filter (fun d => decide (d ≠ f))) with
          | error e => rw [ha] at h; cases h
          | ok b =>
            rw [ha] at h
            simp only [Except.ok.injEq, Prod.mk.injEq] at h
            obtain ⟨rfl, _⟩ := h
            refine ⟨fid, old, deps, n, rfl, by simpa using hne, ?_⟩
            intro g hg hgf
            exact (anyDirty_ok ha).2 rfl g (List.mem_filter.2 ⟨hg, by simpa using hgf⟩)

theorem checkFunction_clean {env : Env} {s : σ} {f g : FunName} (hr : RecReach st s f g)
    {n : Nat} {i : Option FunId} (h : checkFunction st env s n f = .ok (false, i)) :
    (∃ fid d deps, st.findFunction g s = some (fid, d, deps) ∧ env.funDigest g = some d) := by
  induction hr generalizing n i with
  | refl f =>
    obtain ⟨fid, d, deps, m, h1, h2, _⟩ := checkFunction_one st h
    exact ⟨fid, d, deps, h1, h2⟩
  | step hc hr ih =>
    rename_i f g h'
    obtain ⟨fid, d, deps, m, h1, h2, h3⟩ := checkFunction_one st h
    obtain ⟨fid', d', deps', h4, h5⟩ := hc
    rw [h1] at h4; cases h4
    by_cases hgf : g = f
    · subst hgf; exact ih h
    · obtain ⟨j, hj⟩ := h3 g h5 hgf
      exact ih hj

/-- without cycles (other than direct self calls) the check ends, if it may nest deep enough -/
theorem checkFunction_terminates {env : Env} {s : σ} (rank : FunName → Nat)
    (hrank : ∀ f g, RecCall st s f g → g ≠ f → rank g < rank f) {f : FunName}
    (hreg : ∀ g, RecReach st s f g → (env.funDigest g).isSome) {n : Nat} (hn : rank f < n) :
    ∃ q, checkFunction st env s n f = .ok q := by
  induction n generalizing f with
  | zero => omega
  | succ n ih =>
    unfold checkFunction
    obtain ⟨digest, hd⟩ := Option.isSome_iff_exists.1 (hreg f (.refl f))
    rw [hd]
    simp only
    cases hf : st.findFunction f s with
    | none => exact ⟨_, rfl⟩
    | some q =>
      obtain ⟨fid, old, deps⟩ := q
      simp only
      split
      · exact ⟨_, rfl⟩
      · obtain ⟨r, hr⟩ := anyDirty_total (check := checkFunction st env s n)
          (ds := deps.filter (fun d => decide (d ≠ f))) (by
            intro d hd'
            obtain ⟨h1, h2⟩ := List.mem_filter.1 hd'
            simp only [decide_eq_true_eq] at h2
            have hc : RecCall st s f d := ⟨fid, old, deps, hf, h1⟩
            exact ih (fun g hg => hreg g (.step hc hg)) (by have := hrank f d hc h2; omega))
        rw [hr]
        exact ⟨_, rfl⟩

/-- two unchanged functions that call each other: the check never ends -/
theorem checkFunction_mutual {env : Env} {s : σ} {f g : FunName} (hfg : f ≠ g) {i j : FunId}
    {d e : Digest} (hf : st.findFunction f s = some (i, d, [g]))
    (hg : st.findFunction g s = some (j, e, [f]))
    (hd : env.funDigest f = some d) (he : env.funDigest g = some e) (n : Nat) :
    checkFunction st env s n f = .error .recursion ∧
      checkFunction st env s n g = .error .recursion := by
  induction n with
  | zero => exact ⟨rfl, rfl⟩
  | succ n ih =>
    constructor
    · unfold checkFunction
      rw [hd, hf]
      simp [hfg.symm, anyDirty, ih.2]
    · unfold checkFunction
      rw [he, hg]
      simp [hfg, anyDirty, ih.1]

end

/-! ### checking concrete histories -/
section
variable {B R : Type} [DecidableEq B]

def allowedB (vers : FileName → Nat → Option Content) (s : Sys B R) : Event B R → Bool
  | .prepare id f b => (s.inflight.get? id).isNone &&
      s.inflight.all (fun q => !(decide (q.2.fn = f) && decide (q.2.bound = b)))
  | .complete id _ _ _ _ =>
    match s.inflight.get? id with
    | none => true
    | some p => p.prep.found.isNone ||
        (s.log.take (s.log.length - p.start)).all (fun e => decide (e.fn ≠ p.fn) || !e.dirty)
  | .edit x st =>
    match st with
    | none => true
    | some f => decide (vers x f.mtime = f.content)
  | _ => true

theorem allowedB_sound {vers : FileName → Nat → Option Content} {s : Sys B R} {ev : Event B R}
    (h : allowedB vers s ev = true) : Allowed vers s ev := by
  cases ev with
  | prepare id f b =>
    simp only [allowedB, Bool.and_eq_true, Option.isNone_iff_eq_none, List.all_eq_true] at h
    refine ⟨h.1, ?_⟩
    rintro id' p hp ⟨h1, h2⟩
    have := h.2 _ (Dict.mem_of_get? hp)
    simp [h1, h2] at this
  | complete id r d e x =>
    intro p hp hf e' he hfn
    simp only [allowedB, hp, Bool.or_eq_true, Option.isNone_iff_eq_none, List.all_eq_true] at h
    rcases h with h | h
    · rw [h] at hf; cases hf
    · simpa [hfn] using h e' he
  | edit x st =>
    intro f hf
    subst hf
    simpa [allowedB] using h
  | _ => trivial

def allowedAllB (sg : Sig B R) (vers : FileName → Nat → Option Content) (crashes : Bool) :
    Sys B R → List (Event B R) → Bool
  | _, [] => true
  | s, ev :: evs => allowedB vers s ev && (!ev.isCrash || crashes) &&
      allowedAllB sg vers crashes (step sg s ev).2 evs

theorem allowedAllB_sound {sg : Sig B R} {vers : FileName → Nat → Option Content} {crashes : Bool}
    {s : Sys B R} {evs : List (Event B R)} (h : allowedAllB sg vers crashes s evs = true) :
    AllowedAll sg vers crashes s evs := by
  induction evs generalizing s with
  | nil => trivial
  | cons ev evs ih =>
    simp only [allowedAllB, Bool.and_eq_true, Bool.or_eq_true, Bool.not_eq_true'] at h
    refine ⟨allowedB_sound h.1.1, ?_, ih h.2⟩
    intro hc
    rcases h.1.2 with h' | h'
    · rw [h'] at hc; cases hc
    · exact h'

/-- the state after events, oldest first -/
def after (sg : Sig B R) (s : Sys B R) (evs : List (Event B R)) : Sys B R :=
  (runEvents sg [] s evs).2

theorem Ex.history (evs : List (Event Nat Nat))
    (h : allowedAllB Ex.sg Ex.vers false (Sys.init Ex.env) evs = true) :
    History Ex.sg Ex.vers false (runEvents Ex.sg [] (Sys.init Ex.env) evs).1
      (after Ex.sg (Sys.init Ex.env) evs) :=
  Ex.start.run evs (allowedAllB_sound h)

end
end Verif.DB
