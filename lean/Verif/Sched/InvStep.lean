import Verif.Sched.Inv2

/-! # Every step keeps the invariant -/
namespace Verif.Sched

variable {V E : Type}

/-- A finished task can always be processed. -/
theorem Inv.takeDone_some {p : Prog V E} {s : State V E} (h : Inv p s) {e i : Nat} {rest : List Nat}
    (hq : (s.evs e).doneQ = i :: rest) :
    (∃ x, (s.evs e).res i = some (.error x) ∧
      takeDone s e i rest = some (some x, { s with evs := upd s.evs e ((s.evs e).took i rest) })) ∨
    (∃ v s1, (s.evs e).res i = some (.ok v) ∧ takeDone s e i rest = some (none, s1)) := by
  have hf : (s.evs e).status i = .finished := ((h.evs e).doneQ_iff i).mp (by simp [hq])
  obtain ⟨r, hr⟩ := (h.evs e).has_res i hf
  rw [takeDone_eq, hr]
  cases r with
  | error x => exact .inl ⟨x, rfl, rfl⟩
  | ok v => exact .inr ⟨v, _, rfl, rfl⟩

theorem upd_upd {α : Type} (f : Nat → α) (i : Nat) (a b : α) : upd (upd f i a) i b = upd f i b := by
  funext j
  simp only [upd]
  split <;> rfl

theorem Inv.stepMain {p : Prog V E} {s s' : State V E} (h : Inv p s) (hs : stepMain s = some s') :
    Inv p s' := by
  simp only [Sched.stepMain] at hs
  split at hs
  · simp at hs
  · split at hs
    · split at hs
      · split at hs
        · simp only [Option.some.injEq] at hs
          subst hs
          exact h.other rfl rfl rfl rfl (fun _ => ⟨rfl, rfl⟩) rfl rfl rfl
        · simp at hs
      · simp only [Option.some.injEq] at hs
        subst hs
        refine h.other rfl rfl rfl rfl ?_ rfl rfl rfl
        intro w
        simp only [upd]
        split
        · rename_i hw; subst hw; exact ⟨rfl, rfl⟩
        · exact ⟨rfl, rfl⟩
    · simp only [Option.some.injEq] at hs
      subst hs
      exact h.other rfl rfl rfl rfl (fun _ => ⟨rfl, rfl⟩) rfl rfl rfl
  · split at hs
    · rename_i e hw
      obtain ⟨m1, m2, m3, k, m4⟩ := h.main.wait e hw
      split at hs
      · rename_i hc
        simp only [Option.some.injEq] at hs
        subst hs
        exact h.leave_main (h.leave_count m2 hc) hw
      · split at hs
        · simp at hs
        · rename_i i rest hq
          rcases h.takeDone_some hq with ⟨x, hx, ht⟩ | ⟨v, s1, hv, ht⟩
          · rw [ht] at hs
            simp only [Option.some.injEq] at hs
            subst hs
            have := h.leave_main (h.leave_raised m2 hq hx) hw
              (lg := .left e (.raised x) :: s.log)
            simp only [State.leave, upd_self, upd_upd]
            exact this
          · rw [ht] at hs
            simp only [Option.some.injEq] at hs
            subst hs
            exact (h.takeDone_ok m2 hq ht).1
    · rename_i hw
      split at hs
      · simp only [Option.some.injEq] at hs
        subst hs
        refine h.other rfl rfl rfl rfl (fun _ => ⟨rfl, rfl⟩) rfl rfl ?_
        simp
      · simp only [Option.some.injEq] at hs
        subst hs
        refine h.other rfl rfl rfl rfl (fun _ => ⟨rfl, rfl⟩) rfl rfl ?_
        simp
      · rename_i k hm
        simp only [Option.some.injEq] at hs
        subst hs
        refine ⟨h.evs, h.fresh, h.ready_iff, h.ready_nodup, h.held_iff, h.active_iff, h.active_nodup,
          h.shape, h.outside, h.lock_iff, h.frames, h.younger, ?_, h.live_main, h.live_worker⟩
        refine ⟨?_, ?_⟩
        · intro e he; simp [hw] at he
        · intro r hr
          apply h.main.sound r
          rw [hm]; exact hr
      · rename_i n deps body k hm
        simp only [Option.some.injEq] at hs
        subst hs
        exact h.spawn_main hm hw

theorem Inv.stepWorker {p : Prog V E} {s s' : State V E} (h : Inv p s) {w : Nat} (hw : w < s.nw)
    (hs : stepWorker s w = some s') : Inv p s' := by
  have hsh := h.shape w
  simp only [Sched.stepWorker] at hs
  split at hs
  · simp at hs
  · rename_i hph
    rw [hph] at hsh
    simp only [Option.some.injEq] at hs
    subst hs
    split
    · exact h.phase hw (l := s.lock) (by rw [hph]; rfl) hsh (h.lock_same (by rw [hph]; rfl))
    · exact h.phase hw (l := s.lock) (by rw [hph]; rfl) hsh (h.lock_same (by rw [hph]; rfl))
  · rename_i hph
    rw [hph] at hsh
    split at hs
    · simp at hs
    · rename_i it q hq
      simp only [Option.some.injEq] at hs
      subst hs
      exact h.take hw hq (by rw [hph]; rfl) rfl hsh rfl (by rw [hph]; rfl)
  · rename_i it hph
    rw [hph] at hsh
    split at hs
    · rename_i hl
      split at hs
      · simp only [Option.some.injEq] at hs
        subst hs
        exact h.phase hw (l := s.lock) (by rw [hph]; rfl) hsh (h.lock_same (by rw [hph]; rfl))
      · rename_i t
        simp only [Option.some.injEq] at hs
        subst hs
        have hsh' : (s.workers w).stack = [] := hsh
        exact h.start hw (by rw [hph]; rfl) hl (by rw [hsh']; simp [Below])
    · simp at hs
  · rename_i hph
    rw [hph] at hsh
    split at hs
    · rename_i hl
      simp only [Option.some.injEq] at hs
      subst hs
      obtain ⟨f, rest, h1, h2, h3⟩ := hsh
      exact h.phase hw (by rw [hph]; rfl) ⟨f, rest, h1, h3⟩ (h.lock_take hl rfl)
    · simp at hs
  · rename_i hph
    rw [hph] at hsh
    split at hs
    · simp only [Option.some.injEq] at hs
      subst hs
      exact h.phase hw (l := s.lock) (by rw [hph]; rfl) hsh (h.lock_same (by rw [hph]; rfl))
    · rename_i it q hq
      simp only [Option.some.injEq] at hs
      subst hs
      exact h.take hw hq (by rw [hph]; rfl) rfl hsh rfl (by rw [hph]; rfl)
  · rename_i it hph
    rw [hph] at hsh
    split at hs
    · rename_i hl
      split at hs
      · rename_i t
        simp only [Option.some.injEq] at hs
        subst hs
        obtain ⟨f, rest, h1, h2, h3⟩ := hsh
        refine h.start hw (by rw [hph]; rfl) hl ?_
        rw [h1]
        intro g hg
        rcases List.mem_cons.mp hg with rfl | hg
        · exact h2
        · exact h3 g hg
      · rename_i hno
        simp only [Option.some.injEq] at hs
        subst hs
        refine h.phase hw ?_ hsh (h.lock_take hl rfl)
        rw [hph]
        cases it with
        | none => rfl
        | some it =>
          cases it with
          | none => rfl
          | some t => exact absurd rfl (hno t)
    · simp at hs
  · rename_i hph
    rw [hph] at hsh
    obtain ⟨f, rest, h1, h2, h3⟩ := hsh
    rw [h1] at hs
    simp only at hs
    split at hs
    · rename_i hx; rw [hx] at h2; simp at h2
    · rename_i e he
      obtain ⟨m1, m2, m3, m4, k, m5⟩ := (h.frames w f (by simp [h1])).wait e he
      split at hs
      · simp only [Option.some.injEq] at hs
        subst hs
        exact h.phase hw (l := s.lock) (by rw [hph]; rfl) ⟨f, rest, h1, h3⟩
          (h.lock_same (by rw [hph]; rfl))
      · rename_i i dq hq
        rcases h.takeDone_some hq with ⟨x, hx, ht⟩ | ⟨v, s1, hv, ht⟩
        · rw [ht] at hs
          simp only [Option.some.injEq] at hs
          subst hs
          have := h.leave_worker hw (h.leave_raised m2 hq hx) (.inr hph) h1 he h3
            (lg := .left e (.raised x) :: s.log)
          simp only [State.leave, upd_self, upd_upd]
          exact this
        · rw [ht] at hs
          simp only [Option.some.injEq] at hs
          subst hs
          obtain ⟨h', e1, e2, e3⟩ := h.takeDone_ok m2 hq ht
          have hph' : (s1.workers w).phase = .check := by rw [e1]; exact hph
          have hs' : (s1.workers w).stack = f :: rest := by rw [e1]; exact h1
          exact h'.phase (e2 ▸ hw) (l := s1.lock) (by rw [hph']; rfl) ⟨f, rest, hs', h3⟩
            (h'.lock_same (by rw [hph']; rfl))
  · rename_i hph
    rw [hph] at hsh
    obtain ⟨f, rest, h1, h3⟩ := hsh
    rw [h1] at hs
    simp only at hs
    split at hs
    · rename_i e he
      obtain ⟨m1, m2, m3, m4, k, m5⟩ := (h.frames w f (by simp [h1])).wait e he
      split at hs
      · rename_i hc
        simp only [Option.some.injEq] at hs
        subst hs
        exact h.leave_worker hw (h.leave_count m2 hc) (.inl hph) h1 he h3
      · simp only [Option.some.injEq] at hs
        subst hs
        exact h.phase hw (by rw [hph]; rfl) ⟨f, rest, h1, by simp [he], h3⟩
          (h.lock_release (by rw [hph]; rfl) rfl)
    · rename_i he
      split at hs
      · rename_i v hp
        simp only [Option.some.injEq] at hs
        subst hs
        exact h.finish hw hph h1 he h3 (by rw [hp]; rfl)
      · rename_i x hp
        simp only [Option.some.injEq] at hs
        subst hs
        exact h.finish hw hph h1 he h3 (by rw [hp]; rfl)
      · rename_i k hp
        simp only [Option.some.injEq] at hs
        subst hs
        refine h.frame hw hph h1 rfl he he h3 ?_
        intro r hr
        rw [hp]; exact hr
      · rename_i n deps body k hp
        simp only [Option.some.injEq] at hs
        subst hs
        exact h.spawn_worker hw hph h1 he h3 hp

theorem Inv.step {p : Prog V E} {s s' : State V E} (h : Inv p s) {th : Thread}
    (hs : step s th = some s') : Inv p s' := by
  cases th with
  | main => exact h.stepMain hs
  | worker w =>
    simp only [Sched.step] at hs
    split at hs
    · rename_i hw; exact h.stepWorker hw hs
    · simp at hs

theorem Reach.inv {nw : Nat} {p : Prog V E} {s : State V E} (h : Reach nw p s) : Inv p s := by
  induction h with
  | init => exact Inv.init nw p
  | step th _ hs ih => exact ih.step hs

end Verif.Sched
