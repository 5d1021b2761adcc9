import Verif.Execute.Procs

/-!
# C147: at the end of its time a command is killed with what it started, and nothing else is
-/

namespace Verif.Execute.Procs

/-- what holds until the command is waited for -/
structure Inv (s : State) : Prop where
  unique : ∀ x ∈ s.procs, ∀ y ∈ s.procs, x.pid = y.pid → x = y
  here : ∃ x ∈ s.procs, x.pid = s.cmd ∧ x.pgid = s.cmd ∧ x.sid = s.cmd
  mine : ∀ x ∈ s.procs, x.sid = s.cmd → x.mine = true
  session : ∀ x ∈ s.procs, x.pgid = s.cmd → x.sid = s.cmd
  stayed : ∀ x ∈ s.procs, x.mine = true → x.stayed = true → x.pgid = s.cmd
  asked : ∀ g, s.timer = .asked g → g = s.cmd

theorem find_mem {l : List Proc} {p : Nat} {x : Proc} (h : find l p = some x) : x ∈ l ∧ x.pid = p := by
  have h1 := List.mem_of_find?_eq_some h
  have h2 := List.find?_some h
  exact ⟨h1, by simpa using h2⟩

theorem start_inv {before : List Proc} {q : Nat} {s : State} (hu : (before.map (·.pid)).Nodup) (h : start before q = some s) :
    Inv s := by
  unfold start at h
  split at h
  · exact absurd h (by simp)
  · rename_i hq
    simp only [Option.some.injEq] at h
    subst h
    have hq' : ∀ x ∈ before, x.pid ≠ q ∧ x.pgid ≠ q ∧ x.sid ≠ q := by
      intro x hx
      have := hq
      simp only [used, List.any_eq_true, not_exists, not_and] at this
      have := this x hx
      simp only [Bool.or_eq_true, beq_iff_eq, not_or] at this
      exact ⟨this.1.1, this.1.2, this.2⟩
    have hun : ∀ x ∈ before, ∀ y ∈ before, x.pid = y.pid → x = y := by
      intro x hx y hy he
      clear hq hq'
      induction before with
      | nil => cases hx
      | cons a l ih =>
        simp only [List.map_cons, List.nodup_cons] at hu
        cases hx with
        | head =>
          cases hy with
          | head => rfl
          | tail _ hy => exact absurd (List.mem_map.2 ⟨y, hy, he.symm⟩) hu.1
        | tail _ hx =>
          cases hy with
          | head => exact absurd (List.mem_map.2 ⟨x, hx, he⟩) hu.1
          | tail _ hy => exact ih hu.2 hx hy
    refine ⟨?_, ⟨_, List.mem_cons_self, rfl, rfl, rfl⟩, ?_, ?_, ?_, ?_⟩
    · intro x hx y hy he
      simp only [List.mem_cons, List.mem_map] at hx hy
      rcases hx with rfl | ⟨x', hx, rfl⟩ <;> rcases hy with rfl | ⟨y', hy, rfl⟩
      · rfl
      · exact absurd he.symm (hq' y' hy).1
      · exact absurd he (hq' x' hx).1
      · have := hun x' hx y' hy he
        subst this
        rfl
    · intro x hx he
      simp only [List.mem_cons, List.mem_map] at hx
      rcases hx with rfl | ⟨x', hx, rfl⟩
      · rfl
      · exact absurd he (hq' x' hx).2.2
    · intro x hx he
      simp only [List.mem_cons, List.mem_map] at hx
      rcases hx with rfl | ⟨x', hx, rfl⟩
      · rfl
      · exact absurd he (hq' x' hx).2.1
    · intro x hx he
      simp only [List.mem_cons, List.mem_map] at hx
      rcases hx with rfl | ⟨x', hx, rfl⟩
      · intro _; rfl
      · exact absurd he (by simp)
    · intro g hg
      exact absurd hg (by simp)

/-- a change of the process `p` that keeps its number -/
theorem update_mem {l : List Proc} {p : Nat} {f : Proc → Proc} {y : Proc} (h : y ∈ update l p f) :
    (∃ x ∈ l, x.pid = p ∧ y = f x) ∨ (y ∈ l ∧ y.pid ≠ p) := by
  simp only [update, List.mem_map] at h
  obtain ⟨x, hx, rfl⟩ := h
  split
  · rename_i hp; exact .inl ⟨x, hx, by simpa using hp, rfl⟩
  · rename_i hp; exact .inr ⟨hx, by simpa using hp⟩

theorem mem_update_other {l : List Proc} {p : Nat} {f : Proc → Proc} {y : Proc} (h : y ∈ l) (hp : y.pid ≠ p) :
    y ∈ update l p f := by
  simp only [update, List.mem_map]
  exact ⟨y, h, by simp [hp]⟩

theorem map_unique {l : List Proc} {f : Proc → Proc} (hf : ∀ x, (f x).pid = x.pid)
    (hu : ∀ x ∈ l, ∀ y ∈ l, x.pid = y.pid → x = y) : ∀ x ∈ l.map f, ∀ y ∈ l.map f, x.pid = y.pid → x = y := by
  intro x hx y hy he
  simp only [List.mem_map] at hx hy
  obtain ⟨x', hx, rfl⟩ := hx
  obtain ⟨y', hy, rfl⟩ := hy
  rw [hf, hf] at he
  rw [hu x' hx y' hy he]

theorem step_reaped {s s' : State} {o : Op} (h : step s o = some s') (hr : s'.reaped = false) : s.reaped = false := by
  cases o <;> simp only [step] at h <;> grind

theorem step_inv {s s' : State} {o : Op} (hi : Inv s) (h : step s o = some s') (hr : s'.reaped = false) : Inv s' := by
  have hr0 := step_reaped h hr
  obtain ⟨c, hc, hcp, hcg, hcs⟩ := hi.here
  cases o with
  | fork p q =>
    simp only [step] at h
    split at h
    · rename_i x hx
      split at h
      · rename_i hg
        simp only [Option.some.injEq] at h
        subst h
        have hm := (find_mem hx).1
        simp only [Bool.and_eq_true, Bool.not_eq_true', used, List.any_eq_false, Bool.or_eq_true, beq_iff_eq, not_or] at hg
        refine ⟨?_, ⟨c, List.mem_cons_of_mem _ hc, hcp, hcg, hcs⟩, ?_, ?_, ?_, hi.asked⟩
        · intro a ha b hb he
          simp only [List.mem_cons] at ha hb
          rcases ha with rfl | ha <;> rcases hb with rfl | hb
          · rfl
          · exact absurd he.symm (hg.2 b hb).1.1
          · exact absurd he (hg.2 a ha).1.1
          · exact hi.unique a ha b hb he
        · intro a ha
          simp only [List.mem_cons] at ha
          rcases ha with rfl | ha
          · exact hi.mine x hm
          · exact hi.mine a ha
        · intro a ha
          simp only [List.mem_cons] at ha
          rcases ha with rfl | ha
          · exact hi.session x hm
          · exact hi.session a ha
        · intro a ha
          simp only [List.mem_cons] at ha
          rcases ha with rfl | ha
          · exact hi.stayed x hm
          · exact hi.stayed a ha
      · exact absurd h (by simp)
    · exact absurd h (by simp)
  | exit p =>
    simp only [step] at h
    split at h
    · split at h
      · simp only [Option.some.injEq] at h
        subst h
        refine ⟨map_unique (by intro x; split <;> rfl) hi.unique, ?_, ?_, ?_, ?_, hi.asked⟩
        · refine ⟨if c.pid == p then { c with running := false } else c, List.mem_map.2 ⟨c, hc, rfl⟩, ?_, ?_, ?_⟩ <;>
            split <;> assumption
        · intro y hy
          rcases update_mem hy with ⟨x, hx, _, rfl⟩ | ⟨hy, _⟩
          · exact hi.mine x hx
          · exact hi.mine y hy
        · intro y hy
          rcases update_mem hy with ⟨x, hx, _, rfl⟩ | ⟨hy, _⟩
          · exact hi.session x hx
          · exact hi.session y hy
        · intro y hy
          rcases update_mem hy with ⟨x, hx, _, rfl⟩ | ⟨hy, _⟩
          · exact hi.stayed x hx
          · exact hi.stayed y hy
      · exact absurd h (by simp)
    · exact absurd h (by simp)
  | reap p =>
    simp only [step] at h
    split at h
    · split at h
      · rename_i hg
        simp only [Option.some.injEq] at h
        subst h
        simp only [Bool.and_eq_true, hr0, Bool.or_false, bne_iff_ne] at hg
        have hsub : ∀ y ∈ s.procs.filter (fun y => y.pid != p), y ∈ s.procs := fun y hy => (List.mem_filter.1 hy).1
        exact ⟨fun a ha b hb => hi.unique a (hsub a ha) b (hsub b hb),
          ⟨c, List.mem_filter.2 ⟨hc, by simpa [hcp] using fun e => hg.2 e.symm⟩, hcp, hcg, hcs⟩,
          fun a ha => hi.mine a (hsub a ha), fun a ha => hi.session a (hsub a ha), fun a ha => hi.stayed a (hsub a ha), hi.asked⟩
      · exact absurd h (by simp)
    · exact absurd h (by simp)
  | setpgid p g =>
    simp only [step] at h
    split at h
    · rename_i x hx
      split at h
      · rename_i hg
        simp only [Option.some.injEq] at h
        subst h
        obtain ⟨hm, hp⟩ := find_mem hx
        simp only [Bool.and_eq_true, bne_iff_ne, ne_eq, Bool.or_eq_true, beq_iff_eq, List.any_eq_true] at hg
        have hpc : s.cmd ≠ p := by
          intro e
          have : c = x := hi.unique c hc x hm (by rw [hcp, hp, e])
          exact hg.1.2 (by rw [← this, hcs, e])
        refine ⟨map_unique (by intro x; split <;> rfl) hi.unique,
          ⟨c, mem_update_other hc (by rw [hcp]; exact hpc), hcp, hcg, hcs⟩, ?_, ?_, ?_, hi.asked⟩
        · intro y hy
          rcases update_mem hy with ⟨x, hx, _, rfl⟩ | ⟨hy, _⟩
          · exact hi.mine x hx
          · exact hi.mine y hy
        · intro y hy
          rcases update_mem hy with ⟨z, hz, hzp, rfl⟩ | ⟨hy, _⟩
          · intro (hgc : g = s.cmd)
            have hzx : z = x := hi.unique z hz x hm (by rw [hzp, hp])
            subst hzx
            rcases hg.2 with e | ⟨w, hw, hwg, hws⟩
            · exact absurd (hgc.symm.trans e) hpc
            · exact hws ▸ hi.session w hw (hwg.trans hgc)
          · exact hi.session y hy
        · intro y hy
          rcases update_mem hy with ⟨z, hz, hzp, rfl⟩ | ⟨hy, _⟩
          · intro _ h
            exact absurd h (by simp)
          · exact hi.stayed y hy
      · exact absurd h (by simp)
    · exact absurd h (by simp)
  | setsid p =>
    simp only [step] at h
    split at h
    · rename_i x hx
      split at h
      · rename_i hg
        simp only [Option.some.injEq] at h
        subst h
        simp only [Bool.and_eq_true, Bool.not_eq_true', List.any_eq_false, beq_iff_eq] at hg
        have hpc : s.cmd ≠ p := by
          intro e
          exact hg.2 c hc (by rw [hcg, e])
        refine ⟨map_unique (by intro x; split <;> rfl) hi.unique,
          ⟨c, mem_update_other hc (by rw [hcp]; exact hpc), hcp, hcg, hcs⟩, ?_, ?_, ?_, hi.asked⟩
        · intro y hy
          rcases update_mem hy with ⟨z, hz, hzp, rfl⟩ | ⟨hy, _⟩
          · intro (h : p = s.cmd)
            exact absurd h.symm hpc
          · exact hi.mine y hy
        · intro y hy
          rcases update_mem hy with ⟨z, hz, hzp, rfl⟩ | ⟨hy, _⟩
          · intro (h : p = s.cmd)
            exact absurd h.symm hpc
          · exact hi.session y hy
        · intro y hy
          rcases update_mem hy with ⟨z, hz, hzp, rfl⟩ | ⟨hy, _⟩
          · intro _ h
            exact absurd h (by simp)
          · exact hi.stayed y hy
      · exact absurd h (by simp)
    · exact absurd h (by simp)
  | over =>
    simp only [step] at h
    split at h
    · simp only [Option.some.injEq] at h
      subst h
      exact ⟨hi.unique, hi.here, hi.mine, hi.session, hi.stayed, by simp⟩
    · exact absurd h (by simp)
  | ask =>
    simp only [step] at h
    split at h
    · simp only [Option.some.injEq] at h
      subst h
      refine ⟨hi.unique, hi.here, hi.mine, hi.session, hi.stayed, ?_⟩
      intro g hg
      simp only at hg
      split at hg
      · rename_i x hx
        obtain ⟨hm, hp⟩ := find_mem hx
        have : c = x := hi.unique c hc x hm (by rw [hcp, hp])
        simp only [Timer.asked.injEq] at hg
        rw [← hg, ← this, hcg]
      · exact absurd hg (by simp)
    · exact absurd h (by simp)
  | kill =>
    simp only [step] at h
    split at h
    · rename_i g hg
      simp only [Option.some.injEq] at h
      subst h
      refine ⟨map_unique (by intro x; split <;> rfl) hi.unique, ?_, ?_, ?_, ?_, by simp⟩
      · refine ⟨if c.pgid == g then { c with running := false } else c, List.mem_map.2 ⟨c, hc, rfl⟩, ?_, ?_, ?_⟩ <;>
          split <;> assumption
      all_goals
        intro y hy
        simp only [List.mem_map] at hy
        obtain ⟨x, hx, rfl⟩ := hy
      · have := hi.mine x hx; split <;> exact this
      · have := hi.session x hx; split <;> exact this
      · have := hi.stayed x hx; split <;> exact this
    · exact absurd h (by simp)
  | wait =>
    simp only [step] at h
    split at h
    · split at h
      · simp only [Option.some.injEq] at h
        subst h
        exact absurd hr (by simp)
      · exact absurd h (by simp)
    · exact absurd h (by simp)
  | cancel =>
    simp only [step] at h
    split at h
    · simp only [Option.some.injEq] at h
      subst h
      exact ⟨hi.unique, hi.here, hi.mine, hi.session, hi.stayed, by simp⟩
    · exact absurd h (by simp)

theorem run_reaped {os : List Op} : ∀ {s s' : State}, run s os = some s' → s'.reaped = false → s.reaped = false := by
  induction os with
  | nil => intro s s' h hr; simp only [run, Option.some.injEq] at h; subst h; exact hr
  | cons o os ih =>
    intro s s' h hr
    simp only [run] at h
    split at h
    · rename_i t ht
      exact step_reaped ht (ih h hr)
    · exact absurd h (by simp)

theorem run_inv {os : List Op} : ∀ {s s' : State}, Inv s → run s os = some s' → s'.reaped = false → Inv s' := by
  induction os with
  | nil => intro s s' hi h _; simp only [run, Option.some.injEq] at h; subst h; exact hi
  | cons o os ih =>
    intro s s' hi h hr
    simp only [run] at h
    split at h
    · rename_i t ht
      exact ih (step_inv hi ht (run_reaped h hr)) h hr
    · exact absurd h (by simp)

/-- No process that the command started, and that stayed in its group with those between it and the command, is running. -/
def NoneLeft (s : State) : Prop := ∀ x ∈ s.procs, x.mine = true → x.stayed = true → x.running = false

theorem step_none {s s' : State} {o : Op} (hn : NoneLeft s) (h : step s o = some s') : NoneLeft s' := by
  have hsub : ∀ (f : Proc → Bool), ∀ y ∈ s.procs.filter f, y.mine = true → y.stayed = true → y.running = false :=
    fun f y hy => hn y (List.mem_filter.1 hy).1
  have hup : ∀ (p : Nat) (f : Proc → Proc), (∀ x, (f x).running = false ∨ (f x).stayed = false) →
      ∀ y ∈ update s.procs p f, y.mine = true → y.stayed = true → y.running = false := by
    intro p f hf y hy hm hs
    rcases update_mem hy with ⟨x, hx, _, rfl⟩ | ⟨hy, _⟩
    · rcases hf x with h | h
      · exact h
      · rw [h] at hs; exact absurd hs (by simp)
    · exact hn y hy hm hs
  cases o with
  | fork p q =>
    simp only [step] at h
    split at h
    · rename_i x hx
      split at h
      · rename_i hg
        simp only [Option.some.injEq] at h
        subst h
        intro y hy hm hs
        simp only [List.mem_cons] at hy
        rcases hy with rfl | hy
        · exact hn x (find_mem hx).1 hm hs
        · exact hn y hy hm hs
      · exact absurd h (by simp)
    · exact absurd h (by simp)
  | exit p =>
    simp only [step] at h
    split at h
    · split at h
      · simp only [Option.some.injEq] at h; subst h; exact hup _ _ fun x => .inl rfl
      · exact absurd h (by simp)
    · exact absurd h (by simp)
  | reap p =>
    simp only [step] at h
    split at h
    · split at h
      · simp only [Option.some.injEq] at h; subst h; exact hsub _
      · exact absurd h (by simp)
    · exact absurd h (by simp)
  | setpgid p g =>
    simp only [step] at h
    split at h
    · split at h
      · simp only [Option.some.injEq] at h; subst h; exact hup _ _ fun x => .inr rfl
      · exact absurd h (by simp)
    · exact absurd h (by simp)
  | setsid p =>
    simp only [step] at h
    split at h
    · split at h
      · simp only [Option.some.injEq] at h; subst h; exact hup _ _ fun x => .inr rfl
      · exact absurd h (by simp)
    · exact absurd h (by simp)
  | over => simp only [step] at h; split at h <;> simp at h; subst h; exact hn
  | ask => simp only [step] at h; split at h <;> simp at h; subst h; exact hn
  | kill =>
    simp only [step] at h
    split at h
    · simp only [Option.some.injEq] at h
      subst h
      intro y hy
      simp only [List.mem_map] at hy
      obtain ⟨x, hx, rfl⟩ := hy
      split
      · intro _ _; rfl
      · exact hn x hx
    · exact absurd h (by simp)
  | wait =>
    simp only [step] at h
    split at h
    · split at h
      · simp only [Option.some.injEq] at h; subst h; exact hsub _
      · exact absurd h (by simp)
    · exact absurd h (by simp)
  | cancel => simp only [step] at h; split at h <;> simp at h; subst h; exact hn

theorem run_none {os : List Op} : ∀ {s s' : State}, NoneLeft s → run s os = some s' → NoneLeft s' := by
  induction os with
  | nil => intro s s' hn h; simp only [run, Option.some.injEq] at h; subst h; exact hn
  | cons o os ih =>
    intro s s' hn h
    simp only [run] at h
    split at h
    · rename_i t ht
      exact ih (step_none hn ht) h
    · exact absurd h (by simp)

/-- **C147.**  A command is started on a machine with any processes, and anything happens (`os`) until the timer kills while the
command has not yet been waited for.  Then from there on no process is running that the command started and that stayed in its
group; and a process that the command did not start is left as it is.

Missing: the timer may kill after the command was waited for (`C147_other_violated`, `C147_left_violated`). -/
theorem C147_limit_partial {before : List Proc} {q : Nat} {s0 s s' : State} {os : List Op}
    (hu : (before.map (·.pid)).Nodup) (h0 : start before q = some s0) (h : run s0 os = some s) (hr : s.reaped = false)
    (hk : step s .kill = some s') :
    (∀ later s'', run s' later = some s'' → NoneLeft s'') ∧
    (∀ x ∈ s.procs, x.mine = false → x ∈ s'.procs) ∧
    (∀ y ∈ s'.procs, ∃ x ∈ s.procs, y.pid = x.pid ∧ (y.running = x.running ∨ x.mine = true)) := by
  have hi := run_inv (start_inv hu h0) h hr
  simp only [step] at hk
  split at hk
  · rename_i g hg
    simp only [Option.some.injEq] at hk
    subst hk
    have hgc := hi.asked g hg
    subst hgc
    refine ⟨fun later s'' hl => run_none ?_ hl, ?_, ?_⟩
    · intro y hy hm hs
      simp only [List.mem_map] at hy
      obtain ⟨x, hx, rfl⟩ := hy
      split
      · rfl
      · rename_i hne
        rw [if_neg hne] at hm hs
        exact absurd (hi.stayed x hx hm hs) (by simpa using hne)
    · intro x hx hm
      simp only [List.mem_map]
      refine ⟨x, hx, ?_⟩
      split
      · rename_i he
        have := hi.mine x hx (hi.session x hx (by simpa using he))
        rw [this] at hm
        exact absurd hm (by simp)
      · rfl
    · intro y hy
      simp only [List.mem_map] at hy
      obtain ⟨x, hx, rfl⟩ := hy
      refine ⟨x, hx, ?_, ?_⟩
      · split <;> rfl
      · split
        · rename_i he
          exact .inr (hi.mine x hx (hi.session x hx (by simpa using he)))
        · exact .inl rfl
  · exact absurd hk (by simp)

theorem step_armed {s s' : State} {o : Op} (h : step s o = some s') (ho : o ≠ .wait) (ha : s.reaped = false ∧ s.timer ≠ .cancelled) :
    s'.reaped = false ∧ s'.timer ≠ .cancelled ∧ s'.cmd = s.cmd := by
  obtain ⟨h1, h2⟩ := ha
  cases o <;> simp only [step] at h <;> (repeat' split at h) <;> simp_all <;> subst h <;> simp_all

theorem run_armed {os : List Op} : ∀ {s s' : State}, run s os = some s' → Op.wait ∉ os → s.reaped = false ∧ s.timer ≠ .cancelled →
    s'.reaped = false ∧ s'.timer ≠ .cancelled ∧ s'.cmd = s.cmd := by
  induction os with
  | nil =>
    intro s s' h _ ha
    simp only [run, Option.some.injEq] at h
    subst h
    exact ⟨ha.1, ha.2, rfl⟩
  | cons o os ih =>
    intro s s' h hn ha
    rw [run] at h
    split at h
    · rename_i s1 hs1
      obtain ⟨a, b, c⟩ := step_armed hs1 (fun e => hn (by simp [e])) ha
      obtain ⟨a', b', c'⟩ := ih h (fun hm => hn (by simp [hm])) ⟨a, b⟩
      exact ⟨a', b', c'.trans c⟩
    · exact absurd h (by simp)

/-- **C147**: until `execute` has waited for the command the timer is not cancelled; and it has waited for the command only after this
has ended. -/
theorem C147_armed {before : List Proc} {q : Nat} {s0 s : State} {os : List Op} (h0 : start before q = some s0) (h : run s0 os = some s)
    (hw : Op.wait ∉ os) :
    s.timer ≠ .cancelled ∧
    (∀ s', step s .wait = some s' → ∃ x ∈ s.procs, x.pid = q ∧ x.running = false) := by
  have hc : s0.cmd = q ∧ s0.reaped = false ∧ s0.timer ≠ .cancelled := by
    simp only [start] at h0
    split at h0
    · exact absurd h0 (by simp)
    · cases h0; simp
  obtain ⟨a, b, c⟩ := run_armed h hw hc.2
  refine ⟨b, ?_⟩
  intro s' hs
  simp only [step] at hs
  split at hs
  · rename_i x hx
    obtain ⟨m, e⟩ := find_mem hx
    refine ⟨x, m, e.trans (c.trans hc.1), ?_⟩
    split at hs
    · rename_i hb
      simp only [Bool.and_eq_true, Bool.not_eq_true'] at hb
      exact hb.1
    · exact absurd hs (by simp)
  · exact absurd hs (by simp)

/-- **C147**: until the command is waited for, the timer does get as far as to kill: `getpgid` finds the command. -/
theorem C147_kills {before : List Proc} {q : Nat} {s0 s : State} {os : List Op}
    (hu : (before.map (·.pid)).Nodup) (h0 : start before q = some s0) (h : run s0 os = some s) (hr : s.reaped = false)
    (ht : s.timer = .over) : ∃ s', run s [.ask, .kill] = some s' ∧ NoneLeft s' := by
  have hi := run_inv (start_inv hu h0) h hr
  obtain ⟨c, hc, hcp, hcg, hcs⟩ := hi.here
  have hf : ∃ x, find s.procs s.cmd = some x := by
    cases hx : find s.procs s.cmd with
    | some x => exact ⟨x, rfl⟩
    | none =>
      simp only [find, List.find?_eq_none] at hx
      exact absurd (hx c hc) (by simp [hcp])
  obtain ⟨x, hx⟩ := hf
  have hask : step s .ask = some { s with timer := .asked x.pgid } := by
    simp only [step, ht, hx, ↓reduceIte]
  have hrun : run s0 (os ++ [.ask]) = some { s with timer := .asked x.pgid } := by
    have : ∀ (l : List Op) (a b : State), run a l = some b → run a (l ++ [.ask]) = step b .ask := by
      intro l
      induction l with
      | nil => intro a b hab; simp only [run, Option.some.injEq] at hab; subst hab; simp only [List.nil_append, run]; split <;> simp_all
      | cons o l ih =>
        intro a b hab
        simp only [run] at hab
        split at hab
        · rename_i t ht
          simp only [List.cons_append, run, ht]
          exact ih t b hab
        · exact absurd hab (by simp)
    rw [this os s0 s h, hask]
  refine ⟨{ s with procs := s.procs.map fun y => if y.pgid == x.pgid then { y with running := false } else y, timer := .finished },
    ?_, ?_⟩
  · simp only [run, hask]
    rfl
  · have := (C147_limit_partial hu h0 hrun hr (s' := { s with
      procs := s.procs.map fun y => if y.pgid == x.pgid then { y with running := false } else y, timer := .finished }) rfl).1
    exact this [] _ rfl

/-- a shell with the number 5, and fbuild (10) which it started -/
def exBefore : List Proc :=
  [{ pid := 10, pgid := 10, sid := 5, running := true, mine := false, stayed := false },
   { pid := 5, pgid := 5, sid := 5, running := true, mine := false, stayed := false }]

/-- the command ends and is waited for -/
example : ∃ s0 s s', start exBefore 20 = some s0 ∧ run s0 [.fork 20 21, .exit 20] = some s ∧ step s .wait = some s' ∧
    ∃ s'', step s' .cancel = some s'' := by
  refine ⟨_, _, _, rfl, rfl, rfl, _, rfl⟩

/-- The command 20 starts 21 and 22, 22 makes a session of its own; 20 ends, and is not waited for as 21 keeps the output open.  The
time is over: 21 is killed, the shell and fbuild are not. -/
example : ∃ s0 s s', (exBefore.map (·.pid)).Nodup ∧ start exBefore 20 = some s0 ∧
    run s0 [.fork 20 21, .fork 20 22, .setsid 22, .exit 20, .over, .ask] = some s ∧ s.reaped = false ∧ step s .kill = some s' ∧
    (find s.procs 21).map (·.running) = some true ∧ (find s'.procs 21).map (·.running) = some false ∧
    (find s'.procs 22).map (·.running) = some true ∧ (find s'.procs 10).map (·.running) = some true := by
  refine ⟨_, _, _, by decide, rfl, rfl, rfl, rfl, by decide⟩

/-- **C147 is violated**: a process that the command did not start is killed.  The command ends and is waited for at the moment at
which its time is over; another process gets its number and makes a group. -/
theorem C147_other_violated : ∃ s0 s s', start exBefore 20 = some s0 ∧
    run s0 [.exit 20, .over, .wait, .fork 5 20, .setpgid 20 20, .ask] = some s ∧ step s .kill = some s' ∧
    ∃ x ∈ s.procs, ∃ y ∈ s'.procs, x.mine = false ∧ x.running = true ∧ y.pid = x.pid ∧ y.running = false :=
  ⟨_, _, _, rfl, rfl, rfl,
    { pid := 20, pgid := 20, sid := 5, running := true, mine := false, stayed := false }, by decide,
    { pid := 20, pgid := 20, sid := 5, running := false, mine := false, stayed := false }, by decide, rfl, rfl, rfl, rfl⟩

/-- **C147 is violated**: the time is over and `timeout_function` has returned, but a process that the command started and that
stayed in its group goes on. -/
theorem C147_left_violated : ∃ s0 s, start exBefore 20 = some s0 ∧
    run s0 [.fork 20 21, .exit 20, .wait, .over, .ask] = some s ∧ s.timer = .finished ∧ ¬ NoneLeft s := by
  refine ⟨_, _, rfl, rfl, rfl, ?_⟩
  intro h
  have := h { pid := 21, pgid := 20, sid := 20, running := true, mine := true, stayed := true } (by decide) rfl rfl
  exact absurd this (by decide)

end Verif.Execute.Procs
