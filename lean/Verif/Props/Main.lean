import Verif.Main.Core
/-!
# Targets: properties

C44 (install builds first) and C63 (nothing is installed after a failure).
-/
namespace Verif.Main

/-- no option that ends fbuild early -/
def Setup.Ordinary (s : Setup) : Prop := s.dumpState = false ∧ s.deleteFunction = none ∧ s.deleteFile = none

theorem build_plan {s : Setup} (h : s.Ordinary) {ts} (hp : plan s.targets = some ts) : build s = loop s ts := by
  obtain ⟨h1, h2, h3⟩ := h
  simp [build, h1, h2, h3, hp]

theorem loop_append (s : Setup) (as bs : List Name) : loop s (as ++ bs) = andThen (loop s as) (loop s bs) := by
  induction as with
  | nil => simp [loop, andThen]
  | cons a as ih =>
    simp only [List.cons_append, loop, ih]
    unfold andThen
    by_cases h1 : (target s a).2 = true <;> by_cases h2 : (loop s as).2 = true <;> simp [h1, h2]

/-- targets without `install` -/
theorem loop_plain (s : Setup) (as : List Name) (h : "install" ∉ as) :
    (∀ e ∈ (loop s as).1, ∃ n ∈ as, e = .run n) ∧
    ((loop s as).2 = true → (loop s as).1 = as.map .run ∧ ∀ n ∈ as, s.registered n = true ∧ s.succeeds n = true) := by
  induction as with
  | nil => simp [loop]
  | cons a as ih =>
    simp only [List.mem_cons, not_or] at h
    obtain ⟨ih1, ih2⟩ := ih h.2
    have ha : a ≠ "install" := fun e => h.1 e.symm
    simp only [loop, target, ha, if_false]
    by_cases hr : s.registered a = true
    · by_cases hs : s.succeeds a = true
      · simp only [hr, if_true, andThen, hs]
        constructor
        · intro e he
          rcases List.mem_append.mp he with he | he
          · simp only [List.mem_singleton] at he
            exact ⟨a, .head _, he⟩
          · obtain ⟨n, hn, hne⟩ := ih1 e he
            exact ⟨n, .tail _ hn, hne⟩
        · intro hok
          obtain ⟨h1, h2⟩ := ih2 hok
          refine ⟨by simp [h1], ?_⟩
          intro n hn
          rcases List.mem_cons.mp hn with rfl | hn
          · exact ⟨hr, hs⟩
          · exact h2 n hn
      · simp only [hr, if_true, andThen, hs]
        refine ⟨?_, by simp⟩
        intro e he
        simp only [Bool.false_eq_true, if_false, List.mem_singleton] at he
        exact ⟨a, .head _, he⟩
    · simp [andThen, hr]

/-- the plan for targets that end with their only `install` -/
theorem plan_install (pre : List Name) (h : "install" ∉ pre) :
    ∃ pre', plan (pre ++ ["install"]) = some (pre' ++ ["install"]) ∧ "install" ∉ pre' ∧
      (∀ n ∈ pre, n ∈ pre') ∧ (∃ n ∈ pre', n ≠ "configure") ∧
      (pre' = pre ∨ ((∀ n ∈ pre, n = "configure") ∧ "build" ∈ pre' ∧ pre'.erase "build" = pre)) := by
  have hlast : (pre ++ ["install"]).getLast? = some "install" := by simp
  have hmem : "install" ∈ pre ++ ["install"] := by simp
  unfold plan
  rw [if_pos hmem, hlast]
  simp only [ne_eq, not_true_eq_false, if_false]
  split
  · rename_i hall
    rw [List.all_eq_true] at hall
    have hconf : ∀ n ∈ pre, n = "configure" := by
      intro n hn
      have := hall n (List.mem_append_left _ hn)
      simp only [Bool.or_eq_true, decide_eq_true_eq] at this
      rcases this with h' | h'
      · exact h'
      · exact absurd (h' ▸ hn) h
    have hidx : (pre ++ ["install"]).idxOf "install" = pre.length := by
      rw [List.idxOf_append, if_neg h]
      simp
    have hpy : ∃ j, j ≤ pre.length ∧
        pyInsert (pre ++ ["install"]) ((pre.length : Int) - 1) "build" =
          (pre.take j ++ "build" :: pre.drop j) ++ ["install"] := by
      cases hp : pre with
      | nil => exact ⟨0, by simp, by decide⟩
      | cons a l =>
        refine ⟨l.length, by simp, ?_⟩
        unfold pyInsert
        have h1 : ¬ ((((a :: l).length : Nat) : Int) - 1 < 0) := by simp only [List.length_cons]; omega
        rw [if_neg h1]
        have h2 : ((((a :: l).length : Nat) : Int) - 1).toNat = l.length := by simp only [List.length_cons]; omega
        rw [h2]
        have h3 : l.length ≤ (a :: l).length := by simp
        dsimp only
        rw [List.take_append_of_le_length h3, List.drop_append_of_le_length h3]
        simp
    obtain ⟨j, hj, hpy⟩ := hpy
    rw [hidx, hpy]
    refine ⟨_, rfl, ?_, ?_, ⟨"build", by simp, by decide⟩, .inr ⟨hconf, by simp, ?_⟩⟩
    · intro hm
      rcases List.mem_append.mp hm with hm | hm
      · exact h (List.mem_of_mem_take hm)
      · rcases List.mem_cons.mp hm with hm | hm
        · exact absurd hm (by decide)
        · exact h (List.mem_of_mem_drop hm)
    · intro n hn
      rw [← List.take_append_drop j pre] at hn
      rcases List.mem_append.mp hn with hn | hn
      · exact List.mem_append_left _ hn
      · exact List.mem_append_right _ (.tail _ hn)
    · have hnb : "build" ∉ pre.take j := fun hm => absurd (hconf _ (List.mem_of_mem_take hm)) (by decide)
      rw [List.erase_append_right _ hnb]
      simp
  · rename_i hall
    refine ⟨pre, rfl, h, fun _ hn => hn, ?_, .inl rfl⟩
    simp only [List.all_eq_true, Classical.not_forall] at hall
    obtain ⟨n, hn, hc⟩ := hall
    simp only [Bool.or_eq_true, decide_eq_true_eq, not_or] at hc
    rcases List.mem_append.mp hn with hn | hn
    · exact ⟨n, hn, hc.1⟩
    · simp only [List.mem_singleton] at hn
      exact absurd hn hc.2

/-- the events of the last target -/
theorem install_events (s : Setup) : ∃ p q, (target s "install").1 = p ++ q ∧ (∀ e ∈ p, e = .preInstall) ∧
    (q = [] ∨ ∃ q', q = .install :: q' ∧ ∀ e ∈ q', e = .postInstall) := by
  unfold target
  rw [if_pos rfl]
  cases s.preInstall with
  | none =>
    refine ⟨[], _, rfl, by simp, .inr ?_⟩
    cases s.installs <;> cases s.postInstall <;> simp [andThen, hook]
  | some ok =>
    cases ok with
    | false => exact ⟨[.preInstall], [], rfl, by simp, .inl rfl⟩
    | true =>
      refine ⟨[.preInstall], _, rfl, by simp, .inr ?_⟩
      cases s.installs <;> cases s.postInstall <;> simp [andThen, hook]

/-- **C44** and **C63**: with `install` as the last target and only there, when the installation starts then
all other targets have been run and have returned, and one of them is not `configure`; it is `build` if no
target besides `configure` was asked for.  Missing for the full claim: that `configure` runs before `build`. -/
theorem C44_built_partial (s : Setup) (ho : s.Ordinary) (pre : List Name) (hs : s.targets = pre ++ ["install"])
    (hpre : "install" ∉ pre) (before after : List Event) (h : (build s).1 = before ++ .install :: after) :
    (∀ n ∈ pre, .run n ∈ before) ∧
    (∀ n, .run n ∈ before → s.registered n = true ∧ s.succeeds n = true) ∧
    (∃ n, n ≠ "configure" ∧ .run n ∈ before) ∧
    ((∀ n ∈ pre, n = "configure") → .run "build" ∈ before) ∧
    (∀ n, .run n ∈ before → n ∈ pre ∨ n = "build") ∧ .install ∉ before ∧ ∀ n, .run n ∉ after := by
  obtain ⟨pre', hp, hni, hsub, hnc, hcase⟩ := plan_install pre hpre
  rw [← hs] at hp
  rw [build_plan ho hp, loop_append] at h
  obtain ⟨hev, hok⟩ := loop_plain s pre' hni
  have hno : ∀ l : List Event, (∀ e ∈ l, ∃ n ∈ pre', e = .run n) → .install ∉ l := by
    intro l hl hm
    obtain ⟨n, _, he⟩ := hl _ hm
    exact absurd he (by simp)
  by_cases hgood : (loop s pre').2 = true
  · obtain ⟨hrun, hall⟩ := hok hgood
    simp only [andThen, hgood, if_true, loop] at h
    have ht : (if (target s "install").2 = true then ((target s "install").1 ++ [], true)
        else target s "install").1 = (target s "install").1 := by
      split <;> simp
    simp only [ht, hrun] at h
    obtain ⟨p, q, hpq, hp1, hq⟩ := install_events s
    rw [hpq] at h
    -- nothing before the last target installs
    have hfront : .install ∉ pre'.map Event.run ++ p := by
      intro hm
      rcases List.mem_append.mp hm with hm | hm
      · obtain ⟨n, _, he⟩ := List.mem_map.mp hm
        exact absurd he (by simp)
      · exact absurd (hp1 _ hm) (by simp)
    rcases hq with hq | ⟨q', hq, hq1⟩
    · rw [hq, List.append_nil] at h
      exact absurd (by rw [h]; simp) hfront
    · rw [hq, ← List.append_assoc] at h
      have hq'no : .install ∉ q' := fun hm => absurd (hq1 _ hm) (by simp)
      have hsplit : ∀ (a b c d : List Event), .install ∉ a → .install ∉ b →
          a ++ .install :: b = c ++ .install :: d → a = c ∧ b = d := by
        intro a b c d ha hb he
        induction a generalizing c with
        | nil =>
          cases c with
          | nil => simpa using he
          | cons x c =>
            simp only [List.nil_append, List.cons_append, List.cons.injEq] at he
            exact absurd (by rw [he.2]; simp) hb
        | cons x a ih =>
          simp only [List.mem_cons, not_or] at ha
          cases c with
          | nil =>
            simp only [List.cons_append, List.nil_append, List.cons.injEq] at he
            exact absurd he.1.symm ha.1
          | cons y c =>
            simp only [List.cons_append, List.cons.injEq] at he
            obtain ⟨h1, h2⟩ := ih c ha.2 he.2
            exact ⟨by rw [he.1, h1], h2⟩
      obtain ⟨hb, ha⟩ := hsplit _ _ _ _ hfront hq'no h
      have hmem : ∀ n, Event.run n ∈ before ↔ n ∈ pre' := by
        intro n
        rw [← hb, List.mem_append]
        constructor
        · rintro (hm | hm)
          · obtain ⟨m, hm, he⟩ := List.mem_map.mp hm
            simp only [Event.run.injEq] at he
            exact he ▸ hm
          · exact absurd (hp1 _ hm) (by simp)
        · exact fun hm => .inl (List.mem_map.mpr ⟨n, hm, rfl⟩)
      refine ⟨fun n hn => (hmem n).mpr (hsub n hn), fun n hn => hall n ((hmem n).mp hn), ?_, ?_, ?_, ?_, ?_⟩
      · obtain ⟨n, hn, hne⟩ := hnc
        exact ⟨n, hne, (hmem n).mpr hn⟩
      · intro hconf
        rw [hmem]
        rcases hcase with hc | ⟨_, hb, _⟩
        · obtain ⟨n, hn, hne⟩ := hnc
          rw [hc] at hn
          exact absurd (hconf n hn) hne
        · exact hb
      · intro n hn
        rw [hmem] at hn
        rcases hcase with hc | ⟨_, _, he⟩
        · rw [hc] at hn; exact .inl hn
        · by_cases hnb : n = "build"
          · exact .inr hnb
          · left
            rw [← he]
            exact (List.mem_erase_of_ne hnb).mpr hn
      · rw [← hb]; exact hfront
      · intro n hn
        rw [← ha] at hn
        exact absurd (hq1 _ hn) (by simp)
  · simp only [andThen, hgood] at h
    exact absurd (by simp only [Bool.false_eq_true, if_false] at h; rw [h]; simp) (hno _ hev)

/-- **C63**: if one of the targets does not exist or raises, nothing is installed. -/
theorem C63_failed_partial (s : Setup) (ho : s.Ordinary) (pre : List Name) (hs : s.targets = pre ++ ["install"])
    (hpre : "install" ∉ pre) (n : Name) (hn : n ∈ pre) (hf : s.registered n = false ∨ s.succeeds n = false) :
    .install ∉ (build s).1 := by
  intro hm
  obtain ⟨before, after, h⟩ := List.append_of_mem hm
  obtain ⟨h1, h2, _⟩ := C44_built_partial s ho pre hs hpre before after h
  obtain ⟨h3, h4⟩ := h2 n (h1 n hn)
  rcases hf with hf | hf
  · rw [h3] at hf; simp at hf
  · rw [h4] at hf; simp at hf

/-- the plan keeps all targets -/
theorem plan_keeps {targets ts : List Name} (h : plan targets = some ts) : ∀ n ∈ targets, n ∈ ts := by
  intro n hn
  unfold plan at h
  split at h
  · split at h
    · simp at h
    · split at h
      · simp only [Option.some.injEq] at h
        subst h
        unfold pyInsert
        generalize (if (targets.idxOf "install" : Int) - 1 < 0 then _ else _ : Int).toNat = j
        rw [← List.take_append_drop j targets] at hn
        rcases List.mem_append.mp hn with hn | hn
        · exact List.mem_append_left _ hn
        · exact List.mem_append_right _ (.tail _ hn)
      · simp only [Option.some.injEq] at h
        exact h ▸ hn
  · simp only [Option.some.injEq] at h
    exact h ▸ hn

/-- a loop that ends has run all of its targets -/
theorem loop_all (s : Setup) (ts : List Name) (h : (loop s ts).2 = true) (n : Name) (hn : n ∈ ts) :
    (target s n).2 = true := by
  induction ts with
  | nil => simp at hn
  | cons t ts ih =>
    simp only [loop, andThen] at h
    split at h
    · rename_i ht
      rcases List.mem_cons.mp hn with rfl | hn
      · exact ht
      · exact ih h hn
    · rename_i ht
      exact absurd h ht

/-- **C63**: if one of the targets does not exist or raises, `build` raises. -/
theorem C63_reports (s : Setup) (ho : s.Ordinary) (n : Name) (hn : n ∈ s.targets) (hi : n ≠ "install")
    (hf : s.registered n = false ∨ s.succeeds n = false) : (build s).2 = false := by
  obtain ⟨h1, h2, h3⟩ := ho
  cases hp : plan s.targets with
  | none => simp [build, h1, h2, h3, hp]
  | some ts =>
    rw [build_plan ⟨h1, h2, h3⟩ hp]
    rw [← Bool.not_eq_true]
    intro hok
    have := loop_all s ts hok n (plan_keeps hp n hn)
    simp only [target, hi, if_false] at this
    split at this
    · rename_i hr
      rcases hf with hf | hf
      · rw [hr] at hf; simp at hf
      · simp [hf] at this
    · simp at this

example : (build ⟨false, none, none, ["a", "b", "install"], fun _ => true, fun n => n ≠ "b", none, none, true⟩).2 = false :=
  C63_reports _ ⟨rfl, rfl, rfl⟩ "b" (by decide) (by decide) (.inr (by decide))

/-- **C44**: `fbuild install` alone builds and installs, if all of it succeeds. -/
theorem C44_alone (s : Setup) (ho : s.Ordinary) (hs : s.targets = ["install"]) (hr : s.registered "build" = true)
    (hb : s.succeeds "build" = true) (hi : s.installs = true) (hpre : s.preInstall = none)
    (hpost : s.postInstall = none) : build s = ([.run "build", .install], true) := by
  have hp : plan s.targets = some ["build", "install"] := by rw [hs]; decide
  rw [build_plan ho hp]
  simp [loop, target, andThen, hook, hr, hb, hi, hpre, hpost]

/-- **C44**: if `install` is asked for but not last, nothing is done. -/
theorem C44_misplaced (s : Setup) (ho : s.Ordinary) (hm : "install" ∈ s.targets)
    (hl : s.targets.getLast? ≠ some "install") : build s = ([], false) := by
  obtain ⟨h1, h2, h3⟩ := ho
  have : plan s.targets = none := by simp [plan, hm, hl]
  simp [build, h1, h2, h3, this]

/-- **C44**: without `install`, exactly the targets are run, in order, until the first that fails. -/
theorem C44_plain (s : Setup) (ho : s.Ordinary) (hm : "install" ∉ s.targets) :
    ∃ done rest, s.targets = done ++ rest ∧ (build s).1 = done.map .run ∧
      ((build s).2 = true → rest = []) ∧
      ((build s).2 = false → ∃ bad, done.getLast? = some bad ∧ s.succeeds bad = false ∨
        rest.head? = some bad ∧ s.registered bad = false) := by
  have hp : plan s.targets = some s.targets := by simp [plan, hm]
  rw [build_plan ho hp]
  generalize s.targets = ts at hm
  clear hp
  induction ts with
  | nil => exact ⟨[], [], rfl, rfl, fun _ => rfl, by simp [loop]⟩
  | cons a ts ih =>
    simp only [List.mem_cons, not_or] at hm
    have ha : a ≠ "install" := fun e => hm.1 e.symm
    by_cases hr : s.registered a = true
    · by_cases hs : s.succeeds a = true
      · obtain ⟨done, rest, h1, h2, h3, h4⟩ := ih hm.2
        have hl : loop s (a :: ts) = (.run a :: (loop s ts).1, (loop s ts).2) := by
          simp [loop, target, ha, hr, hs, andThen]
        rw [hl]
        refine ⟨a :: done, rest, by simp [h1], by simp [h2], h3, ?_⟩
        intro hf
        obtain ⟨bad, hb | hb⟩ := h4 hf
        · refine ⟨bad, .inl ⟨?_, hb.2⟩⟩
          cases done with
          | nil => simp at hb
          | cons d done => rw [List.getLast?_cons_cons]; exact hb.1
        · exact ⟨bad, .inr hb⟩
      · have hl : loop s (a :: ts) = ([.run a], false) := by
          simp [loop, target, ha, hr, hs, andThen]
        rw [hl]
        exact ⟨[a], ts, rfl, rfl, by simp, fun _ => ⟨a, .inl ⟨rfl, by simpa using hs⟩⟩⟩
    · have hl : loop s (a :: ts) = ([], false) := by
        simp [loop, target, ha, hr, andThen]
      rw [hl]
      exact ⟨[], a :: ts, rfl, rfl, by simp, fun _ => ⟨a, .inr ⟨rfl, by simpa using hr⟩⟩⟩

/-- targets that all exist and succeed -/
def fine (targets : List Name) : Setup :=
  { targets, registered := fun _ => true, succeeds := fun _ => true }

/-- **C44** is false with `configure`: `fbuild configure install` builds before it configures. -/
theorem C44_configure_violated :
    build (fine ["configure", "install"]) = ([.run "build", .run "configure", .install], true) := by decide

/-- **C44** is false for `fbuild install install`: it installs before it builds. -/
theorem C44_twice_violated :
    build (fine ["install", "install"]) = ([.install, .run "build", .install], true) := by decide

example : (build (fine ["docs", "install"])).1 = [.run "docs"] ++ .install :: [] := by decide

example : .install ∉ (build { fine ["docs", "install"] with succeeds := fun n => n != "docs" }).1 :=
  C63_failed_partial _ (by simp [Setup.Ordinary, fine]) ["docs"] rfl (by decide) "docs" (by decide) (.inr (by decide))

/-- **C17**, the command line: `--delete-function` and `--delete-file` delete, start no target and install nothing, and
report failure exactly if the database says that nothing was stored. -/
theorem C17_command (s : Setup) (hd : s.dumpState = false) (found : Bool) :
    (s.deleteFunction = some found → build s = ([.deleteFunction], found)) ∧
    (s.deleteFunction = none → s.deleteFile = some found → build s = ([.deleteFile], found)) := by
  constructor
  · intro h; simp [build, hd, h]
  · intro h1 h2; simp [build, hd, h1, h2]

example : build { fine ["build", "install"] with deleteFile := some false } = ([.deleteFile], false) :=
  (C17_command _ rfl false).2 rfl rfl

end Verif.Main
