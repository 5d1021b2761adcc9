import Verif.DB.CheckFun
import Verif.Props.DB
/-!
# Properties about functions that call each other (C08, C09)
-/
namespace Verif.DB
set_option linter.unusedSectionVars false

section
variable {σ FunId CallId FileId B R : Type} (st : Storage σ FunId CallId FileId B R)

/-- **C09** (partial), for any storage engine.  If the check answers, it says "run it again"
exactly when the function or one reachable through recorded calls is not recorded or has another
text now.  Missing: it does not always answer, see `C09_mutual_violated`. -/
theorem C09_exact_partial {env : Env} {s : σ} {n : Nat} {f : FunName} {dirty : Bool}
    {i : Option FunId} (h : checkFunction st env s n f = .ok (dirty, i)) :
    dirty = true ↔ ∃ g, RecReach st s f g ∧ Changed st env s g := by
  constructor
  · rintro rfl; exact checkFunction_dirty st h
  · rintro ⟨g, hr, hc⟩
    cases dirty with
    | true => rfl
    | false =>
      obtain ⟨fid, d, deps, h1, h2⟩ := checkFunction_clean st hr h
      exact absurd h2 (hc fid d deps h1)

/-- **C09** (partial), termination: if the recorded calls have no cycle except functions calling
themselves, all functions concerned are registered in this process, and the longest chain fits the
recursion limit, the check answers. -/
theorem C09_terminates_partial {env : Env} {s : σ} (rank : FunName → Nat)
    (hrank : ∀ f g, RecCall st s f g → g ≠ f → rank g < rank f) {f : FunName}
    (hreg : ∀ g, RecReach st s f g → (env.funDigest g).isSome) {n : Nat} (hn : rank f < n) :
    ∃ dirty i, checkFunction st env s n f = .ok (dirty, i) :=
  let ⟨(d, i), h⟩ := checkFunction_terminates st rank hrank hreg hn; ⟨d, i, h⟩

end

namespace Ex
/-- `f(2)` calls `g(1)` which calls `f(0)` -/
def evsMutual : List (Event Nat Nat) :=
  [.prepare 1 "f" 2, .prepare 2 "g" 1, .prepare 3 "f" 0, .edit "o" (some (file 3)),
   .complete 3 0 [] [] [], .complete 2 1 ["f"] [] [], .complete 1 2 ["g"] [] []]
end Ex

/-- **C09** is false: after a call of two mutually recursive cached functions the check does not
end (`RecursionError`), whatever the recursion limit. -/
theorem C09_mutual_violated :
    ∃ (tr : Trace Nat Nat) (s : Sys Nat Nat), History Ex.sg Ex.vers false tr s ∧
      (∀ n, checkFunction (CDB.storage Nat Nat) s.env s.db n "f" = .error .recursion) ∧
      ∀ id b, (step Ex.sg s (.prepare id "f" b)).1 = .raised .recursion := by
  have hrec : ∀ n, checkFunction (CDB.storage Nat Nat) (after Ex.sg (Sys.init Ex.env) Ex.evsMutual).env
      (after Ex.sg (Sys.init Ex.env) Ex.evsMutual).db n "f" = .error .recursion := fun n =>
    (checkFunction_mutual (CDB.storage Nat Nat) (g := "g") (by decide) (i := "f") (j := "g")
      (d := "F") (e := "G") (by decide) (by decide) (by decide) (by decide) n).1
  refine ⟨_, _, Ex.history Ex.evsMutual (by decide), hrec, ?_⟩
  intro id b
  have hd : (after Ex.sg (Sys.init Ex.env) Ex.evsMutual).env.funDigest "f" = some "F" := by decide
  simp only [step, stepPrepare, hd, prepare, hrec]

/-- the hypotheses of the two partial theorems are met by a state with a recorded call f → g -/
def Ex.evsFG : List (Event Nat Nat) :=
  [.prepare 1 "f" 2, .prepare 2 "g" 1, .edit "o" (some (file 3)),
   .complete 2 1 [] [] [], .complete 1 2 ["g"] [] []]

example : (∀ f g, RecCall (CDB.storage Nat Nat) (after Ex.sg (Sys.init Ex.env) Ex.evsFG).db f g →
      g ≠ f → (fun f => if f = "f" then 1 else 0) g < (fun f => if f = "f" then 1 else 0) f) ∧
    RecCall (CDB.storage Nat Nat) (after Ex.sg (Sys.init Ex.env) Ex.evsFG).db "f" "g" := by
  have key : (after Ex.sg (Sys.init Ex.env) Ex.evsFG).db.functions =
    [("g", ("G", [])), ("f", ("F", ["g"]))] := by decide
  constructor
  · rintro f g ⟨fid, d, deps, h1, h2⟩ hgf
    simp only [CDB.storage, CDB.findFunction, key, Dict.get?] at h1
    split at h1
    · simp at h1; obtain ⟨_, _, rfl⟩ := h1; cases h2
    · split at h1
      · rename_i hf
        simp at h1; obtain ⟨_, _, rfl⟩ := h1
        simp at h2; subst h2
        rw [← hf]; decide
      · simp at h1
  · exact ⟨"f", "F", ["g"], by decide, by decide⟩

variable {B R : Type} [DecidableEq B] {sg : Sig B R} {vers : FileName → Nat → Option Content}
  {tr : Trace B R} {s : Sys B R}

/-- Every execution of `f` in the trace that completed reported a direct call of `g`. -/
def AlwaysCalls (sg : Sig B R) (tr : Trace B R) (f g : FunName) : Prop :=
  ∀ newer s0 s1 older id b r deps ext extDsts,
    tr = newer ++ (s1, .complete id r deps ext extDsts) :: older →
    Running sg older id f b s0 → g ∈ deps

/-- `f` calls `g` through a chain of such calls (no calls at all: `f = g`). -/
inductive AlwaysReaches (sg : Sig B R) (tr : Trace B R) : FunName → FunName → Prop
  | refl (f) : AlwaysReaches sg tr f f
  | step {f g h} (hc : AlwaysCalls sg tr f g) (hr : AlwaysReaches sg tr g h) :
      AlwaysReaches sg tr f h

/-- The execution of `g` (with any arguments) that ended last. -/
def LastOf (sg : Sig B R) (tr : Trace B R) (g : FunName) (s0 : Sys B R) : Prop :=
  ∃ newer s1 older id b r deps ext extDsts,
    tr = newer ++ (s1, .complete id r deps ext extDsts) :: older ∧
    Running sg older id g b s0 ∧
    ∀ n2 s0' s1' o2 id' b' r' deps' ext' extDsts',
      tr = n2 ++ (s1', .complete id' r' deps' ext' extDsts') :: o2 →
      Running sg o2 id' g b' s0' → newer.length ≤ n2.length

theorem hit_checked (h : History sg vers false tr s) {id : Nat} {f : FunName} {b : B} {r : R}
    (hh : (step sg s (.prepare id f b)).1 = .hit r) :
    ∃ n i, checkFunction (CDB.storage B R) s.env s.db n f = .ok (false, i) := by
  have hI := reach_inv h.reach
  simp only [step, stepPrepare] at hh
  cases hcode : s.env.funDigest f with
  | none => rw [hcode] at hh; simp at hh
  | some code =>
    rw [hcode] at hh
    simp only at hh
    rcases prepare_cases s.env f b (sg.srcs f code b) s.db vers hI.db.files hI.faithful with
      ⟨e, db', hp, _⟩ | ⟨p, db', hp, ht, hf, hcf, _⟩
    · rw [hp] at hh; simp at hh
    · rw [hp] at hh
      simp only at hh
      cases hhit : hit s.env (sg.dsts f code b) (sg.returnDsts f code) p with
      | none => rw [hhit] at hh; simp at hh
      | some r' => exact ⟨_, _, by rw [hcf, (hit_some hhit).1]⟩

/-- the record of a function, as an execution in the trace -/
theorem recorded_exec (h : History sg vers false tr s) {f : FunName} {d : Digest}
    {deps : List FunName} (hf : s.db.functions.get? f = some (d, deps)) :
    ∃ newer s0 s1 older id b r ext extDsts,
      tr = newer ++ (s1, .complete id r deps ext extDsts) :: older ∧ Running sg older id f b s0 ∧
      s0.env.funDigest f = some d ∧
      ∀ n2 s0' s1' o2 id' b' r' deps' ext' extDsts',
        tr = n2 ++ (s1', .complete id' r' deps' ext' extDsts') :: o2 →
        Running sg o2 id' f b' s0' → n2.length ≤ newer.length → s0'.env.funDigest f = some d := by
  obtain ⟨pre, e, post, h1, h2, h3, h4, h5, h6⟩ := reach_finv h.reach f d deps hf
  rw [h.log_eq] at h1
  obtain ⟨newer, q, older, h7, h8, h9, _⟩ := filterMap_split h1
  obtain ⟨s1, ev⟩ := q
  have hp := h.prefix h7
  cases ev with
  | complete id r deps' ext extDsts =>
    simp only [execOf] at h8
    cases hq : s1.inflight.get? id with
    | none => rw [hq] at h8; simp at h8
    | some p =>
      rw [hq] at h8
      simp only [Option.some.injEq] at h8
      subst h8
      simp only at h2 h4 h5
      subst h2 h4 h5
      obtain ⟨s0, k1, k2, k3⟩ := hp.running id p hq
      refine ⟨newer, s0, s1, older, id, _, r, ext, extDsts, h7, k1, k3, ?_⟩
      intro n2 s0' s1' o2 id' b' r' deps'' ext' extDsts' ht hx hl
      obtain ⟨p', m1, m2, m3, m4, m5⟩ := (h.prefix ht).running_inflight hx
      simp only at m1
      by_cases hlt : n2.length < newer.length
      · have hmem : (s1', Event.complete id' r' deps'' ext' extDsts') ∈ newer := by
          have : tr[n2.length]? = some (s1', Event.complete id' r' deps'' ext' extDsts') := by
            rw [ht]; simp
          rw [h7, List.getElem?_append_left hlt] at this
          exact List.mem_of_getElem? this
        obtain ⟨e', n1, n2, n3⟩ : ∃ e', execOf sg (s1', .complete id' r' deps'' ext' extDsts') =
            some e' ∧ e'.fn = p'.fn ∧ e'.code = p'.code := by
          simp only [execOf, m1]; exact ⟨_, rfl, rfl, rfl⟩
        have hex := h6 e' (by rw [← h9]; exact List.mem_filterMap.2 ⟨_, hmem, n1⟩) (n2.trans m2)
        rw [m5, ← n3, hex.2]
      · have hlen : n2.length = newer.length := by omega
        have heq := List.append_inj (ht.symm.trans h7) hlen
        simp only [List.cons.injEq, Prod.mk.injEq, Event.complete.injEq] at heq
        obtain ⟨_, ⟨rfl, rfl, _⟩, _⟩ := heq
        rw [m1] at hq; cases hq
        exact m5
  | _ => simp [execOf] at h8

/-- **C08** (partial).  If every execution of `f` (directly or through other functions all of whose
executions do so) called `g`, and the text of `g` differs from the one the last execution of `g`
used, then no stored value of `f` is returned.  Missing: the case that `g` was called with the new
text before `f` (`C08_violated`), and callees that only some executions of `f` call
(`C08_branch_violated`). -/
theorem C08_partial (h : History sg vers false tr s) {f g : FunName}
    (hfg : AlwaysReaches sg tr f g) {s0 : Sys B R} (hl : LastOf sg tr g s0)
    (hedit : s.env.funDigest g ≠ s0.env.funDigest g) (id : Nat) (b : B) (r : R) :
    (step sg s (.prepare id f b)).1 ≠ .hit r := by
  intro hh
  obtain ⟨n, i, hcf⟩ := hit_checked h hh
  have hreach : RecReach (CDB.storage B R) s.db f g := by
    have : ∀ n i, checkFunction (CDB.storage B R) s.env s.db n f = .ok (false, i) →
        RecReach (CDB.storage B R) s.db f g := by
      clear hcf n i hh hl hedit
      induction hfg with
      | refl f => exact fun _ _ _ => .refl f
      | step hc hr ih =>
        rename_i f g h'
        intro n i hcf
        obtain ⟨fid, d, deps, m, h1, h2, h3⟩ := checkFunction_one _ hcf
        have hrec : s.db.functions.get? f = some (d, deps) := by
          simp only [CDB.storage, CDB.findFunction, Option.map_eq_some_iff] at h1
          obtain ⟨⟨d', deps'⟩, h4, h5⟩ := h1
          simp only [Prod.mk.injEq] at h5
          rw [h4, h5.2.1, h5.2.2]
        obtain ⟨newer, s0', s1, older, id', b', r', ext, extDsts, h4, h5, _⟩ := recorded_exec h hrec
        have hg := hc newer s0' s1 older id' b' r' deps ext extDsts h4 h5
        refine .step ⟨fid, d, deps, h1, hg⟩ ?_
        by_cases hgf : g = f
        · subst hgf; exact ih n i hcf
        · obtain ⟨j, hj⟩ := h3 g hg hgf
          exact ih m j hj
    exact this n i hcf
  obtain ⟨fid, d, deps, h1, h2⟩ := checkFunction_clean _ hreach hcf
  have hrec : s.db.functions.get? g = some (d, deps) := by
    simp only [CDB.storage, CDB.findFunction, Option.map_eq_some_iff] at h1
    obtain ⟨⟨d', deps'⟩, h4, h5⟩ := h1
    simp only [Prod.mk.injEq] at h5
    rw [h4, h5.2.1, h5.2.2]
  obtain ⟨newer, s0', s1, older, id', b', r', ext, extDsts, h4, h5, h6, h7⟩ := recorded_exec h hrec
  obtain ⟨n2, s1', o2, id'', b'', r'', deps'', ext', extDsts', k1, k2, k3⟩ := hl
  have := k3 newer s0' s1 older id' b' r' deps ext extDsts h4 h5
  exact hedit (by rw [h2, h7 n2 s0 s1' o2 id'' b'' r'' deps'' ext' extDsts' k1 k2 this])

namespace Ex
/-- new text of "g" -/
def editG : Event Nat Nat :=
  .restart fun f => if f = "f" then some "F" else if f = "g" then some "G2" else none
end Ex

/-- the hypotheses of C08_partial are met: f called g, then g was edited -/
example : ∃ tr s s0, History Ex.sg Ex.vers false tr s ∧ AlwaysReaches Ex.sg tr "f" "g" ∧
    LastOf Ex.sg tr "g" s0 ∧ s.env.funDigest "g" ≠ s0.env.funDigest "g" ∧
    AlwaysCalls Ex.sg tr "f" "g" := by
  have hac : AlwaysCalls Ex.sg (runEvents Ex.sg [] (Sys.init Ex.env) (Ex.evsFG ++ [Ex.editG])).1
      "f" "g" := by
    intro newer s0 s1 older id b r deps ext extDsts ht hr
    have h : History Ex.sg Ex.vers false _ _ := Ex.history (Ex.evsFG ++ [Ex.editG]) (by decide)
    obtain ⟨p, h1, h2, _⟩ := (h.prefix ht).running_inflight hr
    simp only at h1
    simp only [runEvents, Ex.evsFG, List.cons_append, List.nil_append, Ex.editG] at ht
    rcases newer with _ | ⟨a, _ | ⟨a2, _ | ⟨a3, _ | ⟨a4, _ | ⟨a5, _ | ⟨a6, newer⟩⟩⟩⟩⟩⟩
    · simp at ht
    · simp only [List.cons_append, List.nil_append, List.cons.injEq, Prod.mk.injEq,
        Event.complete.injEq] at ht
      rw [← ht.2.1.2.2.2.1]; decide
    · simp only [List.cons_append, List.nil_append, List.cons.injEq, Prod.mk.injEq,
        Event.complete.injEq] at ht
      obtain ⟨_, _, ⟨rfl, rfl, _⟩, _⟩ := ht
      exfalso
      revert h1
      have : ∀ q : Option (Pending Nat Nat), q = some p →
        (q.elim true (fun p => decide (p.fn = "f"))) = false → False := by
        rintro _ rfl h; simp [h2] at h
      intro h1; exact this _ h1 (by decide)
    · simp at ht
    · simp at ht
    · simp at ht
    · simp at ht
  refine ⟨_, _, after Ex.sg (Sys.init Ex.env) [.prepare 1 "f" 2],
    Ex.history (Ex.evsFG ++ [Ex.editG]) (by decide), .step hac (.refl _),
    ⟨[_, _], _, _, 2, 1, 1, [], [], [], rfl, ⟨[_], [_], rfl, by decide, ?_⟩, ?_⟩, by decide, hac⟩
  · intro q hq; simp at hq; subst hq; rfl
  · intro n2 s0' s1' o2 id' b' r' deps' ext' extDsts' ht hr
    have h : History Ex.sg Ex.vers false _ _ := Ex.history (Ex.evsFG ++ [Ex.editG]) (by decide)
    obtain ⟨p, h1, h2, _⟩ := (h.prefix ht).running_inflight hr
    simp only at h1
    simp only [runEvents, Ex.evsFG, List.cons_append, List.nil_append, Ex.editG] at ht
    rcases n2 with _ | ⟨a, _ | ⟨a2, n2⟩⟩
    · simp at ht
    · simp only [List.cons_append, List.nil_append, List.cons.injEq, Prod.mk.injEq,
        Event.complete.injEq] at ht
      obtain ⟨_, ⟨rfl, rfl, _⟩, _⟩ := ht
      exfalso
      have : ∀ q : Option (Pending Nat Nat), q = some p →
        (q.elim true (fun p => decide (p.fn = "g"))) = false → False := by
        rintro _ rfl h; simp [h2] at h
      exact this _ h1 (by decide)
    · simp

/-- **C08** is false: f(2) called g; then g is edited; g is called (and stored with the new text);
f(2) is answered with the old value without running. -/
theorem C08_violated :
    ∃ evs : List (Event Nat Nat), evs = Ex.evsFG ++
        [Ex.editG, .prepare 3 "g" 1, .complete 3 77 [] [] []] ∧
      History Ex.sg Ex.vers false (runEvents Ex.sg [] (Sys.init Ex.env) evs).1
        (after Ex.sg (Sys.init Ex.env) evs) ∧
      (step Ex.sg (after Ex.sg (Sys.init Ex.env) evs) (.prepare 4 "f" 2)).1 = .hit 2 :=
  ⟨_, rfl, Ex.history _ (by decide), by decide⟩

/-- **C08** is false also when g is not called in between: f(1) calls nothing and is stored first;
f(2) calls g, which is not recorded because f was already recorded; g is edited; f(2) is answered
without running. -/
theorem C08_branch_violated :
    ∃ evs : List (Event Nat Nat), evs =
        [.prepare 1 "f" 1, .edit "o" (some (Ex.file 3)), .complete 1 1 [] [] [],
         .prepare 2 "f" 2, .prepare 3 "g" 1, .complete 3 1 [] [] [], .complete 2 2 ["g"] [] [],
         Ex.editG] ∧
      History Ex.sg Ex.vers false (runEvents Ex.sg [] (Sys.init Ex.env) evs).1
        (after Ex.sg (Sys.init Ex.env) evs) ∧
      (step Ex.sg (after Ex.sg (Sys.init Ex.env) evs) (.prepare 4 "f" 2)).1 = .hit 2 :=
  ⟨_, rfl, Ex.history _ (by decide), by decide⟩

end Verif.DB
