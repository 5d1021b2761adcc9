import Verif.DB.SqliteLinked
import Verif.DB.SqliteExample
/-!
# The sqlite engine: when a returned value is sound (C66, C61, C04, C62)

Stated about histories (`Verif/DB/SqliteTrace.lean`): a trace of events, newest first, with the states
in which they happened.  `SAllowed` says which events are considered; crashes are among them.
-/
namespace Verif.DB
set_option linter.unusedSectionVars false

variable {B R : Type} [DecidableEq B] {sg : Sig B R} {vers : FileName → Nat → Option Content}
  {tr newer older : STrace B R} {s : SSys B R}

/-- everything a hit tells about the trace -/
theorem shit_trace (h : SHistory sg vers tr s)
    (hmd5 : ∀ c c', s.env.md5 c = s.env.md5 c' → c = c')
    (id : Nat) (f : FunName) (b : B) (r : R) (hh : (SSys.step sg s (.prepare id f b)).1 = .hit r) :
    ∃ newer s0 s1 ev older ext extDsts code, SLastStored sg tr newer older s0 s1 ev f b r ext extDsts ∧
      s0.env.funDigest f = some code ∧ s.env.funDigest f = some code ∧
      (∀ x ∈ sg.srcs f code b, ∃ c, s.env.fs.content x = some c ∧
        (x ∈ ext → s1.env.fs.content x = some c) ∧ (x ∉ ext → s0.env.fs.content x = some c)) ∧
      (∀ x ∈ sg.returnDsts f code r ++ sg.dsts f code b, (s.env.fs x).isSome) ∧
      (∀ n2 s2 ev2 o2 s0' b' r' e' d', tr = n2 ++ (s2, ev2) :: o2 →
        SExecution sg o2 s0' s2 ev2 f b' r' e' d' → (SSys.step sg s2 ev2).1 = .done →
        n2.length < newer.length → s0'.env.funDigest f = some code) ∧
      (∀ x ∈ ext, x ∉ sg.srcs f code b → ∀ d, SLinked SDB.externalSrcs f b x d s.db →
        ∀ c, s.env.fs.content x = some c → s1.env.fs.content x = some c) ∧
      (∀ x, x ∉ sg.srcs f code b → ∀ d, SLinked SDB.externalDsts f b x d s.db →
        (s.env.fs x).isSome) := by
  obtain ⟨c, pre, e, post, h0, h1, h2, h3, h4, h5, h6, h7, h8, h9, h10, h11⟩ :=
    hit_sql h.inv id f b r hh
  rw [h.log_eq] at h1
  obtain ⟨n, ⟨s1, ev⟩, o, k1, k2, k3, _⟩ := filterMap_split h1
  obtain ⟨s0, m1, m2, m3, m4, m5⟩ := sexecOf_execution (h.prefix k1) k2
  simp only at m1 m2 m3 m4 m5
  rw [h3, h4, h5] at m1
  rw [h3] at m4
  have hlate : ∀ n2 s2 ev2 o2 s0' b' r' e' d', tr = n2 ++ (s2, ev2) :: o2 →
      SExecution sg o2 s0' s2 ev2 f b' r' e' d' → (SSys.step sg s2 ev2).1 = .done →
      n2.length < n.length → b' ≠ b ∧ s0'.env.funDigest f = some e.code := by
    intro n2 s2 ev2 o2 s0' b' r' e' d' ht hx hd hl
    obtain ⟨e2, p1, p2, p3, _, _, _, _, _, p4, p5⟩ := hx.execOf (h.prefix ht)
    have hmem : (s2, ev2) ∈ n := by
      have : tr[n2.length]? = some (s2, ev2) := by rw [ht]; simp
      rw [k1, List.getElem?_append_left hl] at this
      exact List.mem_of_getElem? this
    obtain ⟨p6, p7⟩ := h7 e2 (by rw [← k3]; exact List.mem_filterMap.2 ⟨_, hmem, p1⟩) (p5.2 hd) p2
    exact ⟨p3 ▸ p6, p7 ▸ p4⟩
  refine ⟨n, s0, s1, ev, o, e.ext, e.extDsts, e.code, ⟨k1, m1, m5.1 h2, ?_⟩, m4, h6, ?_, h9, ?_, ?_, ?_⟩
  · intro n2 s2 ev2 o2 s0' r' e' d' ht hx hd
    apply Decidable.byContradiction
    intro hlt
    exact (hlate n2 s2 ev2 o2 s0' b r' e' d' ht hx hd (by omega)).1 rfl
  · intro x hx
    obtain ⟨k, k', p1, p2, p3⟩ := h8 x hx
    have := hmd5 k k' p3
    subst this
    refine ⟨k, p1, ?_, ?_⟩
    · intro hxe; simpa [Exec.view, h2, hxe, m3] using p2
    · intro hxe; simpa [Exec.view, hxe, m2] using p2
  · intro n2 s2 ev2 o2 s0' b' r' e' d' ht hx hd hl
    exact (hlate n2 s2 ev2 o2 s0' b' r' e' d' ht hx hd hl).2
  · intro x hx hxs d hl k hk
    obtain ⟨q, q1, q2, _, q4⟩ := hl c h0
    subst q2
    obtain ⟨k', p1, p2⟩ := h10 q q1 q4 (Or.inl hxs) hx k hk
    have := hmd5 k k' p2
    subst this
    rw [← m3]; exact p1
  · intro x hxs d hl
    obtain ⟨q, q1, q2, _, q4⟩ := hl c h0
    subst q2
    exact h11 q q1 q4 (Or.inl hxs)

/-- two executions that end with the same event are the same -/
theorem SExecution.unique (h : SHistory sg vers older s) {s0 s0' : SSys B R} {ev : Event B R}
    {f : FunName} {b b' : B} {r r' : R} {ext ext' extDsts extDsts' : List FileName}
    (h1 : SExecution sg older s0 s ev f b r ext extDsts)
    (h2 : SExecution sg older s0' s ev f b' r' ext' extDsts') :
    b = b' ∧ r = r' ∧ ext = ext' ∧ extDsts = extDsts' ∧ s0.env.fs = s0'.env.fs ∧
      s0.env.funDigest f = s0'.env.funDigest f := by
  obtain ⟨id1, deps1, rfl, m2⟩ := h1.ended
  obtain ⟨id2, deps2, m3, m4⟩ := h2.ended
  simp only [Event.complete.injEq] at m3
  obtain ⟨rfl, rfl, rfl, rfl, rfl⟩ := m3
  obtain ⟨p, n1, _, n7, n2, n3⟩ := h.running_inflight m2
  obtain ⟨p', n4, _, n8, n5, n6⟩ := h.running_inflight m4
  rw [n1] at n4; cases n4
  exact ⟨n7.symm.trans n8, rfl, rfl, rfl, n2.symm.trans n5, n3.trans n6.symm⟩

theorem SLastStored.unique (h : SHistory sg vers tr s) {newer' older' : STrace B R}
    {s0 s0' s1 s1' : SSys B R} {ev ev' : Event B R} {f : FunName} {b : B} {r r' : R}
    {ext ext' extDsts extDsts' : List FileName}
    (h1 : SLastStored sg tr newer older s0 s1 ev f b r ext extDsts)
    (h2 : SLastStored sg tr newer' older' s0' s1' ev' f b r' ext' extDsts') :
    newer = newer' ∧ older = older' ∧ s1 = s1' ∧ ev = ev' ∧ r = r' ∧ ext = ext' ∧
      extDsts = extDsts' ∧ s0.env.fs = s0'.env.fs ∧ s0.env.funDigest f = s0'.env.funDigest f := by
  have hlen : newer.length = newer'.length := by
    have := h1.last _ _ _ _ _ _ _ _ h2.split h2.exec h2.done
    have := h2.last _ _ _ _ _ _ _ _ h1.split h1.exec h1.done
    omega
  obtain ⟨rfl, heq⟩ := List.append_inj (h1.split.symm.trans h2.split) hlen
  simp only [List.cons.injEq, Prod.mk.injEq] at heq
  obtain ⟨⟨rfl, rfl⟩, rfl⟩ := heq
  obtain ⟨_, h4, h5, h6, h7, h8⟩ := SExecution.unique (h.prefix h1.split) h1.exec h2.exec
  exact ⟨rfl, rfl, rfl, rfl, h4, h5, h6, h7, h8⟩

/-- **C66** (partial: `SAllowed` excludes storing a result after another store has been rolled back,
see `C66_rollback_violated`).  A value returned without running the function is that of the last
execution of the function with equal arguments whose result was stored.  That execution had the same
source text, and every declared source has the content it had when that execution started (when it
ended, if the execution reported the file as an external source too). -/
theorem C66_hit_sound_partial (h : SHistory sg vers tr s)
    (hmd5 : ∀ c c', s.env.md5 c = s.env.md5 c' → c = c')
    (id : Nat) (f : FunName) (b : B) (r : R) (hh : (SSys.step sg s (.prepare id f b)).1 = .hit r) :
    ∃ newer s0 s1 ev older ext extDsts code, SLastStored sg tr newer older s0 s1 ev f b r ext extDsts ∧
      s0.env.funDigest f = some code ∧ s.env.funDigest f = some code ∧
      ∀ x ∈ sg.srcs f code b, ∃ c, s.env.fs.content x = some c ∧
        (x ∈ ext → s1.env.fs.content x = some c) ∧ (x ∉ ext → s0.env.fs.content x = some c) := by
  obtain ⟨newer, s0, s1, ev, older, ext, extDsts, code, h1, h2, h3, h4, _⟩ :=
    shit_trace h hmd5 id f b r hh
  exact ⟨newer, s0, s1, ev, older, ext, extDsts, code, h1, h2, h3, h4⟩

/-- the hypotheses are met: the value 42 is returned, also after a restart -/
example : SHistory Ex.sg Ex.vers Ex.str1 Ex.ss1 ∧
    (∀ c c', Ex.ss1.env.md5 c = Ex.ss1.env.md5 c' → c = c') ∧
    (SSys.step Ex.sg Ex.ss1 (.prepare 3 "f" 7)).1 = .hit 42 ∧
    (SSys.step Ex.sg (Ex.later (.tick 9)).2 (.prepare 3 "f" 7)).1 = .hit 42 :=
  ⟨Ex.shistory1, fun _ _ h => h, by decide, by decide⟩

/-- The condition on rollbacks in `SAllowed` is needed: while f(1) runs, storing another result raises.
The rollback takes back the file ids that f(1) holds; both files are edited, and a call of g gets the
ids in the other order.  The result of f(1) is then stored with the wrong files, and returned although
both sources differ from what f(1) was started with. -/
theorem C66_rollback_violated :
    let sg : Sig Nat Nat := ⟨fun f _ _ => if f = "f" then ["a", "z"] else if f = "g" then ["z", "a"]
      else [], fun _ _ _ => [], fun _ _ _ => []⟩
    let s0 : SSys Nat Nat := SSys.init { Ex.env with
      fs := fun x => if x = "a" then some (Ex.file 1) else if x = "z" then some (Ex.file 2) else none
      funDigest := fun f => some f }
    let evs : List (Event Nat Nat) := [.prepare 1 "f" 1, .prepare 2 "k" 1,
      .complete 2 0 [] ["missing"] [], .edit "a" (some (Ex.file 2)), .edit "z" (some (Ex.file 1)),
      .prepare 3 "g" 1, .complete 1 11 [] [] []]
    (s0.run sg (evs ++ [.prepare 4 "f" 1])).1 =
      [.run, .run, .raised (.os "missing"), .done, .done, .run, .done, .hit 11] ∧
    ((s0.run sg evs).2.env.fs.content "a", (s0.run sg evs).2.env.fs.content "z") =
      (some "two", some "one") ∧
    (s0.env.fs.content "a", s0.env.fs.content "z") = (some "one", some "two") := by decide

/-- **C66**: no stored value is returned if a declared source has another content than when the last
stored execution started. -/
theorem C66_edited_source_partial (h : SHistory sg vers tr s)
    (hmd5 : ∀ c c', s.env.md5 c = s.env.md5 c' → c = c')
    {s0 s1 : SSys B R} {ev : Event B R} {f : FunName} {b : B} {r0 : R} {ext extDsts : List FileName}
    (hl : SLastStored sg tr newer older s0 s1 ev f b r0 ext extDsts)
    {code : Digest} (hcode : s.env.funDigest f = some code) {x : FileName}
    (hx : x ∈ sg.srcs f code b) (hext : x ∉ ext)
    (hedit : s.env.fs.content x ≠ s0.env.fs.content x) (id : Nat) (r : R) :
    (SSys.step sg s (.prepare id f b)).1 ≠ .hit r := by
  intro hh
  obtain ⟨n, t0, t1, ev', o, ext', extDsts', code', h1, h2, h3, h4, _⟩ :=
    shit_trace h hmd5 id f b r hh
  obtain ⟨rfl, rfl, rfl, rfl, rfl, rfl, rfl, h5, _⟩ := hl.unique h h1
  rw [hcode] at h3; cases h3
  obtain ⟨c, h6, _, h7⟩ := h4 x hx
  exact hedit (by rw [h6, h5, h7 hext])

/-- the hypotheses are met after an edit of "a" -/
example : SHistory Ex.sg Ex.vers (Ex.later Ex.evA').1 (Ex.later Ex.evA').2 ∧
    (∃ n o s0 s1 ev, SLastStored Ex.sg (Ex.later Ex.evA').1 n o s0 s1 ev "f" 7 42 ["h"] ["p"] ∧
      (Ex.later Ex.evA').2.env.fs.content "a" ≠ s0.env.fs.content "a") ∧
    (Ex.later Ex.evA').2.env.funDigest "f" = some "F" ∧
    "a" ∈ Ex.sg.srcs "f" "F" 7 ∧ "a" ∉ ["h"] ∧
    (SSys.step Ex.sg (Ex.later Ex.evA').2 (.prepare 3 "f" 7)).1 = .run :=
  ⟨Ex.slater _ (by decide), ⟨_, _, _, _, _, Ex.slast _ (by intros; simp [Ex.evA']), by decide⟩, by decide,
    by decide, by decide, by decide⟩

/-- **C66**: a result stored under another source text is not returned, also not for other arguments:
every value returned was stored after the function was last executed with another text. -/
theorem C66_other_text_partial (h : SHistory sg vers tr s)
    (hmd5 : ∀ c c', s.env.md5 c = s.env.md5 c' → c = c')
    {n2 o2 : STrace B R} {s0 s2 : SSys B R} {ev2 : Event B R} {f : FunName} {b' : B} {r' : R}
    {e' d' : List FileName} (ht : tr = n2 ++ (s2, ev2) :: o2)
    (hx : SExecution sg o2 s0 s2 ev2 f b' r' e' d') (hd : (SSys.step sg s2 ev2).1 = .done)
    (hedit : s0.env.funDigest f ≠ s.env.funDigest f)
    (id : Nat) (b : B) (r : R) (hh : (SSys.step sg s (.prepare id f b)).1 = .hit r) :
    ∃ newer s0' s1 ev older ext extDsts, SLastStored sg tr newer older s0' s1 ev f b r ext extDsts ∧
      newer.length < n2.length := by
  obtain ⟨n, t0, t1, ev', o, ext', extDsts', code', h1, h2, h3, _, _, h4, _⟩ :=
    shit_trace h hmd5 id f b r hh
  refine ⟨n, t0, t1, ev', o, ext', extDsts', h1, ?_⟩
  have h5 : ¬ n2.length < n.length := by
    intro hlt
    exact hedit ((h4 _ _ _ _ _ _ _ _ _ ht hx hd hlt).trans h3.symm)
  have h6 : n2.length ≠ n.length := by
    intro hlen
    obtain ⟨_, heq⟩ := List.append_inj (ht.symm.trans h1.split) hlen
    simp only [List.cons.injEq, Prod.mk.injEq] at heq
    obtain ⟨⟨rfl, rfl⟩, rfl⟩ := heq
    obtain ⟨_, _, _, _, _, h7⟩ := SExecution.unique (h.prefix ht) hx h1.exec
    exact hedit (by rw [h7, h2, h3])
  omega

/-- the hypotheses are met: "f" gets the text "F2", runs again and the new value is returned -/
example : ∃ tr s, SHistory Ex.sg Ex.vers tr s ∧ (∃ n2 s2 ev2 o2 s0 b r e d,
      tr = n2 ++ (s2, ev2) :: o2 ∧ SExecution Ex.sg o2 s0 s2 ev2 "f" b r e d ∧
      (SSys.step Ex.sg s2 ev2).1 = .done ∧ s0.env.funDigest "f" ≠ s.env.funDigest "f") ∧
    (SSys.step Ex.sg s (.prepare 4 "f" 7)).1 = .hit 43 := by
  refine ⟨_, _, Ex.shistory1.run [.restart (fun f => if f = "f" then some "F2" else none),
    .prepare 3 "f" 7, .complete 3 43 [] [] []] (by decide), ⟨[_, _, _], _, _, _, _, _, _, _, _, rfl,
    Ex.sexec1, by decide, by decide⟩, by decide⟩

/-- **C61** for the sqlite engine (partial: `SAllowed`): a value that only executions whose store
raised have produced is not returned. -/
theorem C61_sqlite_partial (h : SHistory sg vers tr s)
    (hmd5 : ∀ c c', s.env.md5 c = s.env.md5 c' → c = c') (f : FunName) (b : B) (r : R)
    (hbad : ∀ n s0 s1 ev o ext extDsts, tr = n ++ (s1, ev) :: o →
      SExecution sg o s0 s1 ev f b r ext extDsts → (SSys.step sg s1 ev).1 ≠ .done) (id : Nat) :
    (SSys.step sg s (.prepare id f b)).1 ≠ .hit r := by
  intro hh
  obtain ⟨n, s0, s1, ev, o, ext, extDsts, code, h1, _⟩ := shit_trace h hmd5 id f b r hh
  exact hbad n s0 s1 ev o ext extDsts h1.split h1.exec h1.done

/-- the first execution of f(7) in this history returned 41 but its store raised -/
example : (SSys.step Ex.sg (srunEvents Ex.sg [] (SSys.init Ex.env) (Ex.sevs.take 1)).2
      (.complete 1 41 [] ["missing"] [])).1 = .raised (.os "missing") ∧
    Ex.str1[4]?.map (·.2) = some (.complete 1 41 [] ["missing"] []) ∧
    (SSys.step Ex.sg Ex.ss1 (.prepare 3 "f" 7)).1 ≠ .hit 41 := by
  refine ⟨by decide, rfl, C61_sqlite_partial Ex.shistory1 (fun _ _ h => h) "f" 7 41 ?_ 3⟩
  intro n s0 s1 ev o ext extDsts ht hx
  obtain ⟨id, deps, rfl, _⟩ := hx.ended
  simp only [Ex.str1, Ex.sevs, srunEvents] at ht
  match n with
  | [] => simp at ht
  | [_] => simp at ht
  | [_, _] => simp at ht
  | [_, _, _] => simp at ht
  | [_, _, _, _] =>
    simp only [List.cons_append, List.nil_append, List.cons.injEq, Prod.mk.injEq] at ht
    obtain ⟨_, _, _, _, ⟨rfl, hev⟩, _⟩ := ht
    rw [← hev]; decide
  | [_, _, _, _, _] => simp at ht
  | _ :: _ :: _ :: _ :: _ :: _ :: n => simp at ht

/-- **C04** (partial).  If an external source reported by the last stored execution for these
arguments exists and has another content than when that execution ended, no stored value is
returned, provided that since then no event checked the file while it had another content (a call
that shares the file, or a failed attempt to run this call again: see
`C04_shared_header_violated`, `C04_failed_rebuild_violated`) and it was not deleted from the database
(`C17_sqlite_file_violated`). -/
theorem C04_partial (h : SHistory sg vers tr s)
    (hmd5 : ∀ c c', s.env.md5 c = s.env.md5 c' → c = c')
    {s0 s1 : SSys B R} {ev : Event B R} {f : FunName} {b : B} {r0 : R} {ext extDsts : List FileName}
    (hl : SLastStored sg tr newer older s0 s1 ev f b r0 ext extDsts) {x : FileName} (hx : x ∈ ext)
    {k : Content} (hk : s1.env.fs.content x = some k)
    (hq : LeftInPeace sg x k ((s1, ev) :: older) newer)
    (hex : (s.env.fs.content x).isSome) (hedit : s.env.fs.content x ≠ some k) (id : Nat) (r : R) :
    (SSys.step sg s (.prepare id f b)).1 ≠ .hit r := by
  intro hh
  obtain ⟨n, t0, t1, ev', o, ext', extDsts', code, h1, h2, h3, h4, _, _, h5, _⟩ :=
    shit_trace h hmd5 id f b r hh
  obtain ⟨rfl, rfl, rfl, rfl, rfl, rfl, rfl, _⟩ := hl.unique h h1
  obtain ⟨c, hc⟩ := Option.isSome_iff_exists.1 hex
  by_cases hsrc : x ∈ sg.srcs f code b
  · obtain ⟨c', h6, h7, _⟩ := h4 x hsrc
    exact hedit (by rw [h6, ← h7 hx, hk])
  · have hlink := linked_trace (base := (s1, ev) :: older) (newer := newer) (hl.split ▸ h)
      (f := f) (b := b) (x := x) (k := k) SDB.externalSrcs (Or.inl rfl)
      (by
        intro s' hs'
        cases hs' with
        | step ev hs ha =>
          obtain ⟨h6, _⟩ := linked_store hs ha hl.exec hl.done
          obtain ⟨k', h7, h8⟩ := h6 x hx
          rw [hk] at h7; cases h7
          rw [SSys.step_md5]; exact h8)
      hq (by rw [← hl.split]; exact hl.last)
    have := h5 x hx hsrc _ hlink.1 c hc
    exact hedit (by rw [hc, ← this, hk])

/-- the hypotheses are met after an edit of "h" -/
example : SHistory Ex.sg Ex.vers (Ex.later Ex.evH').1 (Ex.later Ex.evH').2 ∧
    (∃ n o s0 s1 ev k, SLastStored Ex.sg (Ex.later Ex.evH').1 n o s0 s1 ev "f" 7 42 ["h"] ["p"] ∧
      s1.env.fs.content "h" = some k ∧ LeftInPeace Ex.sg "h" k ((s1, ev) :: o) n ∧
      (Ex.later Ex.evH').2.env.fs.content "h" ≠ some k) ∧
    ((Ex.later Ex.evH').2.env.fs.content "h").isSome ∧
    (SSys.step Ex.sg (Ex.later Ex.evH').2 (.prepare 3 "f" 7)).1 = .run :=
  ⟨Ex.slater _ (by decide), ⟨_, _, _, _, _, "one", Ex.slast _ (by intros; simp [Ex.evH']), by decide,
    ⟨by simp [Ex.evH'], fun h => h.elim, by simp, fun h => h.elim, trivial⟩, by decide⟩, by decide,
    by decide⟩

/-- **C62**: a destination named by the annotations that does not exist forces a re-run. -/
theorem C62_declared (h : SHistory sg vers tr s)
    (hmd5 : ∀ c c', s.env.md5 c = s.env.md5 c' → c = c') {f : FunName} {code : Digest} {b : B}
    (hcode : s.env.funDigest f = some code) {x : FileName} (hx : x ∈ sg.dsts f code b)
    (hno : s.env.fs x = none) (id : Nat) (r : R) :
    (SSys.step sg s (.prepare id f b)).1 ≠ .hit r := by
  intro hh
  obtain ⟨n, t0, t1, ev', o, ext', extDsts', code', _, _, h3, _, h4, _⟩ :=
    shit_trace h hmd5 id f b r hh
  rw [hcode] at h3; cases h3
  have := h4 x (List.mem_append_right _ hx)
  rw [hno] at this; cases this

/-- the hypotheses are met after "o" was removed -/
example : SHistory Ex.sg Ex.vers (Ex.later (.edit "o" none)).1 (Ex.later (.edit "o" none)).2 ∧
    (Ex.later (.edit "o" none)).2.env.funDigest "f" = some "F" ∧ "o" ∈ Ex.sg.dsts "f" "F" 7 ∧
    (Ex.later (.edit "o" none)).2.env.fs "o" = none ∧
    (SSys.step Ex.sg (Ex.later (.edit "o" none)).2 (.prepare 3 "f" 7)).1 = .run :=
  ⟨Ex.slater _ (by decide), by decide, by decide, by decide, by decide⟩

/-- **C62** (partial).  A reported external destination of the last stored execution that does not
exist forces a re-run, provided that the file was not also a source of these calls (declared, or
reported by an execution: see `C05_sqlite_violated`), and that since then no event checked the
file while it had another content and it was not deleted from the database. -/
theorem C62_external_partial (h : SHistory sg vers tr s)
    (hmd5 : ∀ c c', s.env.md5 c = s.env.md5 c' → c = c')
    {s0 s1 : SSys B R} {ev : Event B R} {f : FunName} {b : B} {r0 : R} {ext extDsts : List FileName}
    (hl : SLastStored sg tr newer older s0 s1 ev f b r0 ext extDsts) {x : FileName}
    (hx : x ∈ extDsts)
    (hsrc : ∀ code, s0.env.funDigest f = some code → x ∉ sg.srcs f code b)
    (hext : x ∉ ext) (hno : ∀ n s0 s1 ev o r ext extDsts, older = n ++ (s1, ev) :: o →
        SExecution sg o s0 s1 ev f b r ext extDsts → x ∉ ext)
    {k : Content} (hk : s1.env.fs.content x = some k)
    (hq : LeftInPeace sg x k ((s1, ev) :: older) newer)
    (hmiss : s.env.fs x = none) (id : Nat) (r : R) :
    (SSys.step sg s (.prepare id f b)).1 ≠ .hit r := by
  intro hh
  obtain ⟨n, t0, t1, ev', o, ext', extDsts', code, h1, h2, h3, h4, _, _, _, h5⟩ :=
    shit_trace h hmd5 id f b r hh
  obtain ⟨rfl, rfl, rfl, rfl, rfl, rfl, rfl, _, h9⟩ := hl.unique h h1
  have hlink := linked_trace (base := (s1, ev) :: older) (newer := newer) (hl.split ▸ h)
      (f := f) (b := b) (x := x) (k := k) SDB.externalDsts (Or.inr rfl)
      (by
        intro s' hs'
        cases hs' with
        | step ev hs ha =>
          obtain ⟨_, h6⟩ := linked_store hs ha hl.exec hl.done
          obtain ⟨k', h7, h8⟩ := h6 x hx hext hsrc hno
          rw [hk] at h7; cases h7
          rw [SSys.step_md5]; exact h8)
      hq (by rw [← hl.split]; exact hl.last)
  have := h5 x (hsrc code (h9.trans h2)) _ hlink.1
  rw [hmiss] at this; cases this

/-- the hypotheses are met after "p" was removed -/
example : SHistory Ex.sg Ex.vers (Ex.later Ex.evP').1 (Ex.later Ex.evP').2 ∧
    (∃ n o s0 s1 ev k, SLastStored Ex.sg (Ex.later Ex.evP').1 n o s0 s1 ev "f" 7 42 ["h"] ["p"] ∧
      (∀ code, s0.env.funDigest "f" = some code → "p" ∉ Ex.sg.srcs "f" code 7) ∧ "p" ∉ ["h"] ∧
      (∀ n t0 t1 ev2 o2 r ext extDsts, o = n ++ (t1, ev2) :: o2 →
        SExecution Ex.sg o2 t0 t1 ev2 "f" 7 r ext extDsts → "p" ∉ ext) ∧
      s1.env.fs.content "p" = some k ∧ LeftInPeace Ex.sg "p" k ((s1, ev) :: o) n) ∧
    (Ex.later Ex.evP').2.env.fs "p" = none ∧
    (SSys.step Ex.sg (Ex.later Ex.evP').2 (.prepare 3 "f" 7)).1 = .run := by
  refine ⟨Ex.slater _ (by decide), ⟨_, _, _, _, _, "three", Ex.slast _ (by intros; simp [Ex.evP']), ?_,
    by decide, ?_, by decide, ⟨by simp [Ex.evP'], fun h => h.elim, by simp, fun h => h.elim, trivial⟩⟩,
    by decide, by decide⟩
  · intro code _; simp [Ex.sg]
  · intro n t0 t1 ev2 o2 r ext extDsts ht hx
    obtain ⟨id, deps, rfl, _⟩ := hx.ended
    simp only [Ex.sevs, srunEvents, List.take] at ht
    match n with
    | [] => simp at ht
    | [_] => simp at ht
    | [_, _] => simp at ht
    | [_, _, _] => simp at ht; rw [← ht.2.2.2.1.2.2.2.2.1]; simp
    | [_, _, _, _] => simp at ht
    | _ :: _ :: _ :: _ :: _ :: n => simp at ht

end Verif.DB
