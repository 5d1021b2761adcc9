import Verif.DB.Example
/-!
# Properties of cached calls (engines `pickle` and `cache`)

Stated about histories (`Verif/DB/Trace.lean`): a trace of events, newest first, together with the
states in which they happened.  `step sg s (.prepare id f b)` is the observable answer of
`Database.call` to a call of `f` with bound arguments `b`: `hit r` (a stored value is returned),
`run` (the function is run) or `raised`.
-/
namespace Verif.DB
set_option linter.unusedSectionVars false

variable {B R : Type} [DecidableEq B] {sg : Sig B R} {vers : FileName → Nat → Option Content}
  {crashes : Bool} {tr : Trace B R} {s : Sys B R}

/-- everything a hit tells about the trace -/
theorem hit_trace (h : History sg vers crashes tr s)
    (hmd5 : ∀ c c', s.env.md5 c = s.env.md5 c' → c = c')
    (id : Nat) (f : FunName) (b : B) (r : R) (hh : (step sg s (.prepare id f b)).1 = .hit r) :
    ∃ newer s0 s1 ev older ext extDsts code, tr = newer ++ (s1, ev) :: older ∧
      Execution sg older s0 s1 ev f b r ext extDsts ∧
      s0.env.funDigest f = some code ∧ s.env.funDigest f = some code ∧
      (∀ x ∈ sg.srcs f code b, ∃ c, s.env.fs.content x = some c ∧
        ((step sg s1 ev).1 = .done ∧ x ∈ ext → s1.env.fs.content x = some c) ∧
        (¬ ((step sg s1 ev).1 = .done ∧ x ∈ ext) → s0.env.fs.content x = some c)) ∧
      ((step sg s1 ev).1 = .done → ∀ x ∈ ext, ∀ c, s.env.fs.content x = some c →
        s1.env.fs.content x = some c) ∧
      (∀ x ∈ sg.returnDsts f code r ++ sg.dsts f code b ++ extDsts, (s.env.fs x).isSome) ∧
      (crashes = false → ∀ n2 s2 ev2 o2 s0' b' r' e' d', tr = n2 ++ (s2, ev2) :: o2 →
        Execution sg o2 s0' s2 ev2 f b' r' e' d' → n2.length < newer.length →
        b' ≠ b ∧ s0'.env.funDigest f = some code) := by
  obtain ⟨e, he, h1, h2, h3, h4, h5, h6, h7, h8⟩ := hit_log h.reach id f b r hh
  have hsplit : ∃ newer q older, tr = newer ++ q :: older ∧ execOf sg q = some e ∧
      (crashes = false → ∀ e' ∈ newer.filterMap (execOf sg), e'.fn = f →
        e'.bound ≠ b ∧ e'.code = e.code) := by
    cases crashes with
    | true =>
      rw [h.log_eq, List.mem_filterMap] at he
      obtain ⟨q, hq, hqe⟩ := he
      obtain ⟨n, o, ho⟩ := List.append_of_mem hq
      exact ⟨n, q, o, ho, hqe, by simp⟩
    | false =>
      obtain ⟨pre, post, h9, h10⟩ := h8 rfl
      rw [h.log_eq] at h9
      obtain ⟨n, q, o, h11, h12, h13, _⟩ := filterMap_split h9
      exact ⟨n, q, o, h11, h12, fun _ => by rw [h13]; exact h10⟩
  obtain ⟨newer, q, older, h9, h10, h11⟩ := hsplit
  obtain ⟨s1, ev⟩ := q
  obtain ⟨s0, k1, k2, k3, k4, k5⟩ := execOf_execution (h.prefix h9) h10
  simp only at k1 k2 k3 k4 k5
  rw [h1, h2, h3] at k1
  rw [h1] at k4
  refine ⟨newer, s0, s1, ev, older, e.ext, e.extDsts, e.code, h9, k1, k4, h4, ?_, ?_, h7, ?_⟩
  · intro x hx
    obtain ⟨c, c', h12, h13, h14⟩ := h5 x hx
    have := hmd5 c c' h14
    subst this
    refine ⟨c, h12, ?_, ?_⟩
    · intro hd
      rw [Exec.view, if_pos ⟨k5.2 hd.1, hd.2⟩, k3] at h13; exact h13
    · intro hd
      rw [Exec.view, if_neg (fun hx => hd ⟨k5.1 hx.1, hx.2⟩), k2] at h13; exact h13
  · intro hd x hx c hc
    obtain ⟨c', h12, h13⟩ := h6 (k5.2 hd) x hx c hc
    have := hmd5 c c' h13
    subst this
    rw [← k3]; exact h12
  · intro hcr n2 s2 ev2 o2 s0' b' r' e' d' ht hx hl
    obtain ⟨e2, m1, m2, m3, _, _, _, _, _, m4, _⟩ := hx.execOf (h.prefix ht)
    have hmem : (s2, ev2) ∈ newer := by
      have : tr[n2.length]? = some (s2, ev2) := by rw [ht]; simp
      rw [h9, List.getElem?_append_left hl] at this
      exact List.mem_of_getElem? this
    obtain ⟨m5, m6⟩ := h11 hcr e2 (List.mem_filterMap.2 ⟨_, hmem, m1⟩) m2
    exact ⟨m3 ▸ m5, m6 ▸ m4⟩

/-- **C01**.  A value returned without running the function was produced by an earlier execution
of the same function with equal arguments, under the same source text, and every declared source
has the content it had when that execution started (when it ended, if the execution reported the
file as an external source too). -/
theorem C01_hit_sound (h : History sg vers crashes tr s)
    (hmd5 : ∀ c c', s.env.md5 c = s.env.md5 c' → c = c')
    (id : Nat) (f : FunName) (b : B) (r : R) (hh : (step sg s (.prepare id f b)).1 = .hit r) :
    ∃ newer s0 s1 ev older ext extDsts code, tr = newer ++ (s1, ev) :: older ∧
      Execution sg older s0 s1 ev f b r ext extDsts ∧
      s0.env.funDigest f = some code ∧ s.env.funDigest f = some code ∧
      ∀ x ∈ sg.srcs f code b, ∃ c, s.env.fs.content x = some c ∧
        ((step sg s1 ev).1 = .done ∧ x ∈ ext → s1.env.fs.content x = some c) ∧
        (¬ ((step sg s1 ev).1 = .done ∧ x ∈ ext) → s0.env.fs.content x = some c) := by
  obtain ⟨newer, s0, s1, ev, older, ext, extDsts, code, h1, h2, h3, h4, h5, _⟩ :=
    hit_trace h hmd5 id f b r hh
  exact ⟨newer, s0, s1, ev, older, ext, extDsts, code, h1, h2, h3, h4, h5⟩

/-- the hypotheses of C01 are met by a history with one execution -/
example : History Ex.sg Ex.vers false Ex.tr1 Ex.s1 ∧
    (∀ c c', Ex.s1.env.md5 c = Ex.s1.env.md5 c' → c = c') ∧
    (step Ex.sg Ex.s1 (.prepare 2 "f" 7)).1 = .hit 42 :=
  ⟨Ex.history1, fun _ _ h => h, by decide⟩

/-- The execution of `f` with `b` that ended last in `tr`: started in `s0`, ended in `s1`. -/
structure LastExecution (sg : Sig B R) (tr : Trace B R) (s0 s1 : Sys B R) (ev : Event B R)
    (f : FunName) (b : B) (r : R) (ext extDsts : List FileName) : Prop where
  split : ∃ newer older, tr = newer ++ (s1, ev) :: older ∧
    Execution sg older s0 s1 ev f b r ext extDsts ∧
    ∀ n2 s2 ev2 o2 s0' r' e' d', tr = n2 ++ (s2, ev2) :: o2 →
      Execution sg o2 s0' s2 ev2 f b r' e' d' → newer.length ≤ n2.length

theorem LastExecution.cons {s0 s1 : Sys B R} {ev : Event B R} {f : FunName} {b : B} {r : R}
    {ext extDsts : List FileName} (h : LastExecution sg tr s0 s1 ev f b r ext extDsts)
    (q : Sys B R × Event B R) (hq : ∀ id r d e x, q.2 ≠ .complete id r d e x) :
    LastExecution sg (q :: tr) s0 s1 ev f b r ext extDsts := by
  obtain ⟨n, o, h1, h2, h3⟩ := h.split
  refine ⟨q :: n, o, by rw [h1]; rfl, h2, ?_⟩
  intro n2 s2 ev2 o2 s0' r' e' d' ht hx
  cases n2 with
  | nil =>
    simp only [List.nil_append, List.cons.injEq] at ht
    obtain ⟨rfl, _⟩ := ht
    obtain ⟨id, deps, he, _⟩ := hx.ended
    exact absurd he (hq _ _ _ _ _)
  | cons q' n2 =>
    simp only [List.cons_append, List.cons.injEq] at ht
    have := h3 n2 s2 ev2 o2 s0' r' e' d' ht.2 hx
    simp only [List.length_cons]; omega

namespace Ex
/-- the states in which call 1 was started and ended -/
def sStart : Sys Nat Nat := Sys.init env
def sEnd : Sys Nat Nat :=
  (runEvents Ex.sg [] (Sys.init env) [.prepare 1 "f" 7, .edit "o" (some (file 3))]).2

theorem last1 : LastExecution Ex.sg tr1 sStart sEnd (.complete 1 42 [] ["h"] []) "f" 7 42 ["h"] [] :=
  ⟨[], _, rfl, ⟨1, [], rfl, [_], [], rfl, by decide, by
    intro q hq; simp at hq; subst hq; rfl⟩, by intros; simp⟩

/-- then "a" or "h" is edited, or the process restarts with another text of "f" -/
def evA : Event Nat Nat := .edit "a" (some (file 2))
def evH : Event Nat Nat := .edit "h" (some (file 2))
def evF : Event Nat Nat := .restart fun f => if f = "f" then some "F2" else some "G"

theorem historyA : History Ex.sg Ex.vers false ((s1, evA) :: tr1) (step Ex.sg s1 evA).2 :=
  .step evA history1 (by intro f h; simp at h; subst h; rfl) (by decide)
theorem historyH : History Ex.sg Ex.vers false ((s1, evH) :: tr1) (step Ex.sg s1 evH).2 :=
  .step evH history1 (by intro f h; simp at h; subst h; rfl) (by decide)
theorem historyF : History Ex.sg Ex.vers false ((s1, evF) :: tr1) (step Ex.sg s1 evF).2 :=
  .step evF history1 trivial (by decide)
end Ex

theorem hit_last (h : History sg vers false tr s)
    (hmd5 : ∀ c c', s.env.md5 c = s.env.md5 c' → c = c')
    {s0 s1 : Sys B R} {ev : Event B R} {f : FunName} {b : B} {r0 : R} {ext extDsts : List FileName}
    (hl : LastExecution sg tr s0 s1 ev f b r0 ext extDsts) (id : Nat) (r : R)
    (hh : (step sg s (.prepare id f b)).1 = .hit r) :
    r = r0 ∧ s0.env.funDigest f = s.env.funDigest f ∧ ∃ code, s.env.funDigest f = some code ∧
      (∀ x ∈ sg.srcs f code b, ∃ c, s.env.fs.content x = some c ∧
        ((step sg s1 ev).1 = .done ∧ x ∈ ext → s1.env.fs.content x = some c) ∧
        (¬ ((step sg s1 ev).1 = .done ∧ x ∈ ext) → s0.env.fs.content x = some c)) ∧
      ((step sg s1 ev).1 = .done → ∀ x ∈ ext, ∀ c, s.env.fs.content x = some c →
        s1.env.fs.content x = some c) ∧
      (∀ x ∈ sg.returnDsts f code r ++ sg.dsts f code b ++ extDsts, (s.env.fs x).isSome) := by
  obtain ⟨newer, s0', s1', ev', older, ext', extDsts', code, h1, h2, h3, h4, h5, h6, h7, h8⟩ :=
    hit_trace h hmd5 id f b r hh
  obtain ⟨n, o, k1, k2, k3⟩ := hl.split
  have hle := k3 newer s1' ev' older s0' r ext' extDsts' h1 h2
  have hge : ¬ n.length < newer.length := by
    intro hlt
    exact (h8 rfl n s1 ev o s0 b r0 ext extDsts k1 k2 hlt).1 rfl
  have hlen : n.length = newer.length := by omega
  have heq : n = newer ∧ ((s1, ev) :: o : Trace B R) = (s1', ev') :: older :=
    List.append_inj (k1.symm.trans h1) hlen
  obtain ⟨_, heq⟩ := heq
  simp only [List.cons.injEq, Prod.mk.injEq] at heq
  obtain ⟨⟨rfl, rfl⟩, rfl⟩ := heq
  obtain ⟨id1, deps1, m1, m2⟩ := h2.ended
  obtain ⟨id2, deps2, m3, m4⟩ := k2.ended
  rw [m1] at m3
  simp only [Event.complete.injEq] at m3
  obtain ⟨rfl, rfl, rfl, rfl, rfl⟩ := m3
  -- the two executions started in the same state
  have hs0 : s0.env.fs = s0'.env.fs ∧ s0.env.funDigest f = s0'.env.funDigest f := by
    have hp := h.prefix h1
    obtain ⟨p, n1, _, _, n2, n3⟩ := hp.running_inflight m2
    obtain ⟨p', n4, _, _, n5, n6⟩ := hp.running_inflight m4
    simp only at n1 n4
    rw [n1] at n4; cases n4
    exact ⟨n5 ▸ n2, n6.trans n3.symm⟩
  refine ⟨rfl, by rw [hs0.2, h3, h4], code, h4, ?_, h6, h7⟩
  rw [hs0.1]; exact h5

/-- **C02**.  If a declared source has another content than when the last execution for these
arguments started (in particular if it does not exist any more), no stored value is returned,
whatever happened since: failed attempts, other calls that checked the file, restarts. -/
theorem C02_edited_source (h : History sg vers false tr s)
    (hmd5 : ∀ c c', s.env.md5 c = s.env.md5 c' → c = c')
    {s0 s1 : Sys B R} {ev : Event B R} {f : FunName} {b : B} {r0 : R} {ext extDsts : List FileName}
    (hl : LastExecution sg tr s0 s1 ev f b r0 ext extDsts)
    {code : Digest} (hcode : s.env.funDigest f = some code) {x : FileName}
    (hx : x ∈ sg.srcs f code b) (hext : x ∉ ext)
    (hedit : s.env.fs.content x ≠ s0.env.fs.content x) (id : Nat) (r : R) :
    (step sg s (.prepare id f b)).1 ≠ .hit r := by
  intro hh
  obtain ⟨_, _, code', h1, h2, _⟩ := hit_last h hmd5 hl id r hh
  rw [hcode] at h1; cases h1
  obtain ⟨c, h3, _, h4⟩ := h2 x hx
  exact hedit (by rw [h3, h4 (fun hc => hext hc.2)])

/-- the hypotheses of C02 are met: "a" is edited after the execution -/
example : History Ex.sg Ex.vers false ((Ex.s1, Ex.evA) :: Ex.tr1) (step Ex.sg Ex.s1 Ex.evA).2 ∧
    LastExecution Ex.sg ((Ex.s1, Ex.evA) :: Ex.tr1) Ex.sStart Ex.sEnd (.complete 1 42 [] ["h"] [])
      "f" 7 42 ["h"] [] ∧
    (step Ex.sg Ex.s1 Ex.evA).2.env.fs.content "a" ≠ Ex.sStart.env.fs.content "a" ∧
    "a" ∈ Ex.sg.srcs "f" "F" 7 ∧ "a" ∉ ["h"] :=
  ⟨Ex.historyA, Ex.last1.cons _ (by intros; simp [Ex.evA]), by decide, by decide, by decide⟩

/-- **C03**.  If an external source reported by the last execution for these arguments exists and
has another content than when that execution ended, no stored value is returned. -/
theorem C03_edited_external (h : History sg vers false tr s)
    (hmd5 : ∀ c c', s.env.md5 c = s.env.md5 c' → c = c')
    {s0 s1 : Sys B R} {ev : Event B R} {f : FunName} {b : B} {r0 : R} {ext extDsts : List FileName}
    (hl : LastExecution sg tr s0 s1 ev f b r0 ext extDsts)
    (hdone : (step sg s1 ev).1 = .done) {x : FileName} (hext : x ∈ ext)
    (hex : (s.env.fs.content x).isSome)
    (hedit : s.env.fs.content x ≠ s1.env.fs.content x) (id : Nat) (r : R) :
    (step sg s (.prepare id f b)).1 ≠ .hit r := by
  intro hh
  obtain ⟨_, _, code', h1, _, h2, _⟩ := hit_last h hmd5 hl id r hh
  obtain ⟨c, hc⟩ := Option.isSome_iff_exists.1 hex
  exact hedit (by rw [hc, h2 hdone x hext c hc])

/-- the hypotheses of C03 are met: "h" is edited after the execution -/
example : History Ex.sg Ex.vers false ((Ex.s1, Ex.evH) :: Ex.tr1) (step Ex.sg Ex.s1 Ex.evH).2 ∧
    LastExecution Ex.sg ((Ex.s1, Ex.evH) :: Ex.tr1) Ex.sStart Ex.sEnd (.complete 1 42 [] ["h"] [])
      "f" 7 42 ["h"] [] ∧
    (step Ex.sg Ex.sEnd (.complete 1 42 [] ["h"] [])).1 = .done ∧
    ((step Ex.sg Ex.s1 Ex.evH).2.env.fs.content "h").isSome ∧
    (step Ex.sg Ex.s1 Ex.evH).2.env.fs.content "h" ≠ Ex.sEnd.env.fs.content "h" :=
  ⟨Ex.historyH, Ex.last1.cons _ (by intros; simp [Ex.evH]), by decide, by decide, by decide⟩

/-- **C07**, first half: a result stored under another source text is not returned. -/
theorem C07_other_text (h : History sg vers false tr s)
    (hmd5 : ∀ c c', s.env.md5 c = s.env.md5 c' → c = c')
    {s0 s1 : Sys B R} {ev : Event B R} {f : FunName} {b : B} {r0 : R} {ext extDsts : List FileName}
    (hl : LastExecution sg tr s0 s1 ev f b r0 ext extDsts)
    (hedit : s.env.funDigest f ≠ s0.env.funDigest f) (id : Nat) (r : R) :
    (step sg s (.prepare id f b)).1 ≠ .hit r := by
  intro hh
  obtain ⟨_, h1, _⟩ := hit_last h hmd5 hl id r hh
  exact hedit h1.symm

/-- the hypotheses of C07 are met: restart with an edited text -/
example : History Ex.sg Ex.vers false ((Ex.s1, Ex.evF) :: Ex.tr1) (step Ex.sg Ex.s1 Ex.evF).2 ∧
    LastExecution Ex.sg ((Ex.s1, Ex.evF) :: Ex.tr1) Ex.sStart Ex.sEnd (.complete 1 42 [] ["h"] [])
      "f" 7 42 ["h"] [] ∧
    (step Ex.sg Ex.s1 Ex.evF).2.env.funDigest "f" ≠ Ex.sStart.env.funDigest "f" :=
  ⟨Ex.historyF, Ex.last1.cons _ (by intros; simp [Ex.evF]), by decide⟩

/-- **C07**, second half: once the function was executed (for any arguments) with another text
than now, every value returned was produced after that: all results stored before are gone. -/
theorem C07_edit_drops_all (h : History sg vers false tr s)
    (hmd5 : ∀ c c', s.env.md5 c = s.env.md5 c' → c = c')
    {n2 o2 : Trace B R} {s0 s2 : Sys B R} {ev2 : Event B R} {f : FunName} {b' : B} {r' : R}
    {e' d' : List FileName} (ht : tr = n2 ++ (s2, ev2) :: o2)
    (hx : Execution sg o2 s0 s2 ev2 f b' r' e' d')
    (hedit : s0.env.funDigest f ≠ s.env.funDigest f)
    (id : Nat) (b : B) (r : R) (hh : (step sg s (.prepare id f b)).1 = .hit r) :
    ∃ newer s0' s1 ev older ext extDsts, tr = newer ++ (s1, ev) :: older ∧
      Execution sg older s0' s1 ev f b r ext extDsts ∧ newer.length < n2.length := by
  obtain ⟨newer, s0', s1', ev', older, ext', extDsts', code, h1, h2, h3, h4, h5, h6, h7, h8⟩ :=
    hit_trace h hmd5 id f b r hh
  refine ⟨newer, s0', s1', ev', older, ext', extDsts', h1, h2, ?_⟩
  have h9 : ¬ n2.length < newer.length := by
    intro hlt
    have := (h8 rfl n2 s2 ev2 o2 s0 b' r' e' d' ht hx hlt).2
    exact hedit (this.trans h4.symm)
  have h10 : n2.length ≠ newer.length := by
    intro hlen
    have heq : n2 = newer ∧ ((s2, ev2) :: o2 : Trace B R) = (s1', ev') :: older :=
      List.append_inj (ht.symm.trans h1) hlen
    obtain ⟨_, heq⟩ := heq
    simp only [List.cons.injEq, Prod.mk.injEq] at heq
    obtain ⟨⟨rfl, rfl⟩, rfl⟩ := heq
    obtain ⟨id1, deps1, m1, m2⟩ := h2.ended
    obtain ⟨id2, deps2, m3, m4⟩ := hx.ended
    rw [m1] at m3
    simp only [Event.complete.injEq] at m3
    obtain ⟨rfl, _⟩ := m3
    have hp := h.prefix h1
    obtain ⟨p, n1, _, _, _, n3⟩ := hp.running_inflight m2
    obtain ⟨p', n4, _, _, _, n6⟩ := hp.running_inflight m4
    simp only at n1 n4
    rw [n1] at n4; cases n4
    exact hedit (by rw [n6, ← n3, h3, h4])
  omega

/-- **C11**.  An execution that raises changes no answer of the database: every call is answered
as if that execution had not taken place.  (That its result is never returned follows from C01:
every value returned belongs to an execution that completed.) -/
theorem C11_raise_stores_nothing (id id' : Nat) (f : FunName) (b : B) :
    (step sg (step sg s (.fail id)).2 (.prepare id' f b)).1 = (step sg s (.prepare id' f b)).1 ∧
    (step sg (step sg s (.fail id)).2 (.prepare id' f b)).2.db =
      (step sg s (.prepare id' f b)).2.db := by
  simp only [step, stepPrepare]
  cases s.env.funDigest f with
  | none => simp
  | some code =>
    simp only
    generalize prepare (CDB.storage B R) s.env f b (sg.srcs f code b) s.db = X
    obtain ⟨x, db⟩ := X
    cases x with
    | error e => simp
    | ok q =>
      simp only
      cases hit s.env (sg.dsts f code b) (sg.returnDsts f code) q <;> simp

end Verif.DB
