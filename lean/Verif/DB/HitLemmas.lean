import Verif.DB.Trace
/-! From a hit to the execution that produced the result. -/
namespace Verif.DB
open CDB
set_option linter.unusedSectionVars false

variable {B R : Type} [DecidableEq B] {sg : Sig B R} {vers : FileName → Nat → Option Content}
  {crashes : Bool} {tr : Trace B R} {s : Sys B R}

theorem hit_some {env : Env} {dsts : List FileName} {rd : R → List FileName}
    {α β γ : Type} {p : Prep α β γ R} {r : R} (h : hit env dsts rd p = some r) :
    p.funDirty = false ∧ p.callFileDigests = [] ∧ p.externalDigests = [] ∧
      (∃ c, p.found = some (c, r)) ∧
      ∀ x ∈ rd r ++ dsts ++ p.externalDsts, (env.fs x).isSome := by
  unfold hit at h
  split at h
  · cases h
  · rename_i c r' hf
    split at h
    · cases h
    · rename_i h1
      split at h
      · rename_i h2
        simp only [Option.some.injEq] at h; subst h
        simp only [Bool.or_eq_true, Bool.not_eq_true', not_or, Bool.not_eq_true,
          Bool.not_eq_false, List.isEmpty_iff] at h1
        exact ⟨h1.1.1, h1.1.2, h1.2, ⟨c, hf⟩, List.all_eq_true.1 h2⟩
      · cases h

/-- the execution behind a hit, in terms of the log -/
theorem hit_log (hr : Reach sg vers crashes s) (id : Nat) (f : FunName) (b : B) (r : R)
    (hh : (step sg s (.prepare id f b)).1 = .hit r) :
    ∃ e ∈ s.log, e.fn = f ∧ e.bound = b ∧ e.result = r ∧ s.env.funDigest f = some e.code ∧
      (∀ x ∈ sg.srcs f e.code b, ∃ c c', s.env.fs.content x = some c ∧
        (e.view x).content x = some c' ∧ s.env.md5 c = s.env.md5 c') ∧
      (e.ok = true → ∀ x ∈ e.ext, ∀ c, s.env.fs.content x = some c →
        ∃ c', e.fs1.content x = some c' ∧ s.env.md5 c = s.env.md5 c') ∧
      (∀ x ∈ sg.returnDsts f e.code r ++ sg.dsts f e.code b ++ e.extDsts, (s.env.fs x).isSome) ∧
      (crashes = false → ∃ pre post, s.log = pre ++ e :: post ∧
        ∀ e' ∈ pre, e'.fn = f → e'.bound ≠ b ∧ e'.code = e.code) := by
  have hI := reach_inv hr
  simp only [step, stepPrepare] at hh
  cases hcode : s.env.funDigest f with
  | none => rw [hcode] at hh; simp at hh
  | some code =>
    rw [hcode] at hh
    simp only at hh
    rcases prepare_cases s.env f b (sg.srcs f code b) s.db vers hI.db.files hI.faithful with
      ⟨e, db', hp, ht, hf⟩ | ⟨p, db', hp, ht, hf, hcf, hdig, hsrc, hd1, hd2, hd3⟩
    · rw [hp] at hh; simp at hh
    · rw [hp] at hh
      simp only at hh
      cases hhit : hit s.env (sg.dsts f code b) (sg.returnDsts f code) p with
      | none => rw [hhit] at hh; simp at hh
      | some r' =>
        rw [hhit] at hh
        simp only [Out.hit.injEq] at hh
        subst hh
        obtain ⟨h1, h2, h3, ⟨⟨g, i⟩, h4⟩, h5⟩ := hit_some hhit
        obtain ⟨rfl, _, ⟨datas, h6, h7⟩, h8, h9, h10⟩ := hd3 g i r' h4
        obtain ⟨e, he, hb, hres, hslot, hlat⟩ := hI.db.slot g datas i b r' h6 h7
        obtain ⟨digest, hdg, hcase⟩ := checkFunction_cache hcf
        rw [hcode] at hdg; cases hdg
        have hec : e.code = code := by
          rcases hcase with hx | hx | ⟨_, _, deps, hx⟩
          · rw [h1] at hx; simp at hx
          · rw [h1] at hx; simp at hx
          · obtain ⟨deps', hx'⟩ := hslot.code
            rw [hx] at hx'; cases hx'; rfl
        refine ⟨e, he, hslot.fn, hb, hres, by rw [hec], ?_, ?_, ?_, ?_⟩
        · intro x hx
          rw [hec] at hx
          obtain ⟨c, hc, hor⟩ := hsrc x hx
          rcases hor with hm | ⟨i', r'', hfo, hcf'⟩
          · rw [h2] at hm; cases hm
          · rw [h4] at hfo; cases hfo
            obtain ⟨c', hc', hmd⟩ := hslot.digest x _ (Or.inl (by rw [hec, hb]; exact hx)) hcf'
            exact ⟨c, c', hc, hc', hmd⟩
        · intro hok x hx c hc
          have := h10 h3 x (by rw [hslot.esrcs]; exact hx) c hc
          obtain ⟨c', hc', hmd⟩ := hslot.digest x _ (Or.inr ⟨hok, hx⟩) this
          refine ⟨c', ?_, hmd⟩
          simpa [Exec.view, hok, hx] using hc'
        · rw [hec, ← hslot.edsts, ← h9]; exact h5
        · intro hcr
          exact hlat (by rw [hcr]; rfl)

/-! ### positions of executions in the trace -/

theorem step_keeps_inflight (sg : Sig B R) (s : Sys B R) (ev : Event B R) (id : Nat)
    (p : Pending B R) (h : s.inflight.get? id = some p) (he : ev.ends id = false) :
    (step sg s ev).2.inflight.get? id = some p := by
  cases ev with
  | prepare id' f b =>
    have hid : id' ≠ id := by simpa [Event.ends] using he
    simp only [step, stepPrepare]
    cases s.env.funDigest f with
    | none => exact h
    | some code =>
      simp only
      generalize prepare (storage B R) s.env f b (sg.srcs f code b) s.db = X
      obtain ⟨x, db⟩ := X
      cases x with
      | error e => exact h
      | ok q =>
        simp only
        split
        · exact h
        · simp only [Dict.get?_set, if_neg hid]; exact h
  | complete id' r deps ext extDsts =>
    have hid : id' ≠ id := by simpa [Event.ends] using he
    simp only [step, stepComplete]
    cases hp : s.inflight.get? id' with
    | none => exact h
    | some p' =>
      simp only
      split <;>
      · simp only [Dict.get?_erase, if_neg hid]; exact h
  | fail id' =>
    have hid : id' ≠ id := by simpa [Event.ends] using he
    simp only [step, Dict.get?_erase, if_neg hid]; exact h
  | edit x st => exact h
  | tick n => exact h
  | restart ds => simp [Event.ends] at he
  | crash ds => simp [Event.ends] at he
  | deleteFunction f => simp only [step]; split <;> exact h
  | deleteFile f => simp only [step]; split <;> exact h

theorem prepare_run_inflight (sg : Sig B R) (s : Sys B R) (id : Nat) (f : FunName) (b : B)
    (h : (step sg s (.prepare id f b)).1 = .run) :
    ∃ p, (step sg s (.prepare id f b)).2.inflight.get? id = some p ∧ p.fn = f ∧ p.bound = b ∧
      p.fs0 = s.env.fs ∧ s.env.funDigest f = some p.code := by
  simp only [step, stepPrepare] at h ⊢
  cases hc : s.env.funDigest f with
  | none => rw [hc] at h; simp at h
  | some code =>
    rw [hc] at h
    simp only at h ⊢
    generalize prepare (storage B R) s.env f b (sg.srcs f code b) s.db = X at h
    obtain ⟨x, db⟩ := X
    cases x with
    | error e => simp at h
    | ok q =>
      simp only at h ⊢
      split at h
      · simp at h
      · rename_i hn
        exact ⟨⟨f, code, b, q, s.env.fs, s.log.length⟩, by simp [Dict.get?_set], rfl, rfl, rfl, rfl⟩

theorem History.running_inflight (h : History sg vers crashes tr s) {id : Nat} {f : FunName} {b : B}
    {s0 : Sys B R} (hr : Running sg tr id f b s0) :
    ∃ p, s.inflight.get? id = some p ∧ p.fn = f ∧ p.bound = b ∧ p.fs0 = s0.env.fs ∧
      s0.env.funDigest f = some p.code := by
  obtain ⟨mid, older, he, hrun, hmid⟩ := hr
  induction h generalizing mid with
  | init env h => simp at he
  | step ev hs ha hc ih =>
    rename_i tr' s'
    cases mid with
    | nil =>
      simp only [List.nil_append, List.cons.injEq, Prod.mk.injEq] at he
      obtain ⟨⟨rfl, rfl⟩, rfl⟩ := he
      exact prepare_run_inflight sg s' id f b hrun
    | cons q mid =>
      simp only [List.cons_append, List.cons.injEq] at he
      obtain ⟨rfl, he⟩ := he
      obtain ⟨p, h1, h2⟩ := ih mid he (fun q hq => hmid q (List.mem_cons_of_mem _ hq))
      exact ⟨p, step_keeps_inflight sg s' ev id p h1 (hmid (s', ev) (List.mem_cons_self ..)), h2⟩

/-- An execution in the trace is an entry of the log. -/
theorem Execution.execOf {older : Trace B R} {s0 s1 : Sys B R} {ev : Event B R} {f : FunName}
    {b : B} {r : R} {ext extDsts : List FileName}
    (h : History sg vers crashes older s1)
    (hx : Execution sg older s0 s1 ev f b r ext extDsts) :
    ∃ e, Verif.DB.execOf sg (s1, ev) = some e ∧ e.fn = f ∧ e.bound = b ∧ e.result = r ∧
      e.ext = ext ∧ e.extDsts = extDsts ∧ e.fs0 = s0.env.fs ∧ e.fs1 = s1.env.fs ∧
      s0.env.funDigest f = some e.code ∧ (e.ok = true ↔ (step sg s1 ev).1 = .done) := by
  obtain ⟨id, deps, rfl, hr⟩ := hx.ended
  obtain ⟨p, h1, h2, h3, h4, h5⟩ := h.running_inflight hr
  simp only [Verif.DB.execOf, h1]
  refine ⟨_, rfl, h2, h3, rfl, rfl, rfl, h4, rfl, h5, ?_⟩
  cases (step sg s1 (.complete id r deps ext extDsts)).1 <;> simp

theorem execOf_execution {q : Sys B R × Event B R} {older : Trace B R}
    (h : History sg vers crashes older q.1) {e : Exec B R} (he : execOf sg q = some e) :
    ∃ s0, Execution sg older s0 q.1 q.2 e.fn e.bound e.result e.ext e.extDsts ∧
      e.fs0 = s0.env.fs ∧ e.fs1 = q.1.env.fs ∧ s0.env.funDigest e.fn = some e.code ∧
      (e.ok = true ↔ (step sg q.1 q.2).1 = .done) := by
  obtain ⟨s1, ev⟩ := q
  cases ev with
  | complete id r deps ext extDsts =>
    simp only [execOf] at he
    cases hp : s1.inflight.get? id with
    | none => rw [hp] at he; simp at he
    | some p =>
      rw [hp] at he
      simp only [Option.some.injEq] at he
      obtain ⟨s0, h1, h2, h3⟩ := h.running id p hp
      subst he
      refine ⟨s0, ⟨id, deps, rfl, h1⟩, h2, rfl, h3, ?_⟩
      cases (step sg s1 (.complete id r deps ext extDsts)).1 <;> simp
  | _ => simp [execOf] at he

/-- splitting the log at an entry splits the trace -/
theorem filterMap_split {α β : Type} {g : α → Option β} {l : List α} {pre post : List β} {e : β}
    (h : l.filterMap g = pre ++ e :: post) :
    ∃ n q o, l = n ++ q :: o ∧ g q = some e ∧ n.filterMap g = pre ∧ o.filterMap g = post := by
  induction l generalizing pre with
  | nil => simp at h
  | cons a l ih =>
    rw [List.filterMap_cons] at h
    cases ha : g a with
    | none =>
      rw [ha] at h
      obtain ⟨n, q, o, h1, h2, h3, h4⟩ := ih h
      exact ⟨a :: n, q, o, by rw [h1]; rfl, h2, by rw [List.filterMap_cons, ha]; exact h3, h4⟩
    | some v =>
      rw [ha] at h
      cases pre with
      | nil =>
        simp only [List.nil_append, List.cons.injEq] at h
        obtain ⟨rfl, h⟩ := h
        exact ⟨[], a, l, rfl, ha, rfl, h⟩
      | cons v' pre =>
        simp only [List.cons_append, List.cons.injEq] at h
        obtain ⟨rfl, h⟩ := h
        obtain ⟨n, q, o, h1, h2, h3, h4⟩ := ih h
        exact ⟨a :: n, q, o, by rw [h1]; rfl, h2, by rw [List.filterMap_cons, ha, h3], h4⟩

end Verif.DB
