import Verif.Main.Buildroot
import Verif.Props.FileOps
/-!
# What a build finds in its directory (C156)
-/
namespace Verif.FileOps
open Verif.Posix Verif.Path

/-! ## Proofs -/

theorem name_tmp : Name ".tmp".toList := by
  refine ⟨by decide, by decide, by decide⟩

theorem not_longer (l : Loc) (c : Text) : ¬ l ++ [c] <+: l := by
  intro h
  have := h.length_le
  rw [List.length_append, List.length_singleton] at this
  omega

theorem Tree.put_file {fs : FS} (ht : Tree fs) {l : Loc} {n : Nat} {m : Nat} (hl : fs l.dropLast = some .dir) (hne : l ≠ [])
    (hnames : ∀ c ∈ l, Name c) (hd : fs l ≠ some .dir) : Tree (fs.set l (.file n m)) := by
  refine ⟨?_, ?_, ?_⟩
  · simp only [FS.set]
    rw [if_neg (fun h => hne h.symm)]
    exact ht.top
  · intro k c x h
    simp only [FS.set] at h ⊢
    have hk : k ≠ l := by
      rintro rfl
      split at h
      · rename_i e; simp at e
      · exact hd (ht.up h)
    rw [if_neg hk]
    split at h
    · rename_i e
      rw [← e] at hl
      simpa using hl
    · exact ht.up h
  · intro k x c h hc
    simp only [FS.set] at h
    split at h
    · rename_i e; subst e; exact hnames c hc
    · exact ht.names h hc

theorem openEmpty_spec {cwd : Loc} {fs fs' : FS} {mode : Nat} {p : Text} (hc : ∀ c ∈ cwd, Name c) (ht : Tree fs)
    (h : openEmpty cwd fs mode p = (true, fs')) :
    Tree fs' ∧ (∃ m, fs' (loc cwd p) = some (.file 0 m)) ∧ fs (loc cwd p) ≠ some .dir ∧ ∀ k, k ≠ loc cwd p → fs' k = fs k := by
  unfold openEmpty at h
  split at h
  · rename_i hw
    simp only [Prod.mk.injEq, true_and] at h
    simp only [writable, Bool.and_eq_true, decide_eq_true_eq, ne_eq] at hw
    obtain ⟨⟨⟨_, _⟩, h1⟩, h2⟩ := hw
    subst h
    refine ⟨ht.put_file h2 ?_ (fun c => loc_ok hc) h1, ⟨_, by simp [FS.set]; rfl⟩, h1, ?_⟩
    · intro e; rw [e] at h1; exact h1 ht.top
    · intro k hk; simp [FS.set, hk]
  · simp at h

/-- **C156**: after `create_buildroot` the build directory and that of the state are there, the log is empty, the temporary directory is
there and nothing is in it; all else is as it was, but that directories on the way to these may be new.  What is in the temporary
directory, also a log or a state, is gone. -/
theorem C156_made {cwd : Loc} {fs fs' : FS} {mode : Nat} {root log state : Text} (hc : ∀ c ∈ cwd, Name c) (ht : Tree fs)
    (h : createBuildroot cwd fs mode root log state = (true, fs')) :
    let tmp := loc cwd root ++ [".tmp".toList]
    fs' (loc cwd root) = some .dir ∧ fs' tmp = some .dir ∧ (∀ k, tmp <+: k → k ≠ tmp → fs' k = none) ∧
    (¬ tmp <+: loc cwd log → ∃ m, fs' (loc cwd log) = some (.file 0 m)) ∧
    (¬ tmp <+: loc cwd (split state).1 → fs' (loc cwd (split state).1) = some .dir) ∧
    (∀ k, ¬ tmp <+: k → k ≠ loc cwd log →
      fs' k = fs k ∨ (fs k = none ∧ fs' k = some .dir ∧ (k <+: loc cwd root ∨ k <+: loc cwd (split state).1))) := by
  unfold createBuildroot at h
  split at h
  · simp at h
  · rename_i fs1 h1
    obtain ⟨t1, g1, o1, _⟩ := makedirs_spec hc ht h1
    split at h
    · simp at h
    · rename_i fs2 h2
      obtain ⟨t2, w2, n2, k2⟩ := openEmpty_spec hc t1 h2
      split at h
      · simp at h
      · rename_i fs3 h3
        obtain ⟨t3, g3, o3, _⟩ := makedirs_spec hc t2 h3
        have hl : loc cwd (join root ".tmp".toList) = loc cwd root ++ [".tmp".toList] := loc_join cwd root name_tmp
        have hroot1 := (o1 rfl).2
        have hroot2 : fs2 (loc cwd root) = some .dir := by
          rw [k2 _ (by intro e; rw [← e] at n2; exact n2 hroot1), hroot1]
        have hroot3 := g3.dir hroot2
        generalize htmp : loc cwd root ++ [".tmp".toList] = tmp at hl
        have hnr : ¬ tmp <+: loc cwd root := htmp ▸ not_longer _ _
        have hdl : tmp.dropLast = loc cwd root := by rw [← htmp]; simp
        -- what clearing and making the temporary directory do
        have key : (∀ k, ¬ tmp <+: k → fs' k = fs3 k) ∧ fs' tmp = some .dir ∧ ∀ k, tmp <+: k → k ≠ tmp → fs' k = none := by
          have hself : tmp <+: tmp := List.prefix_refl _
          unfold mkdir at h
          rw [hl] at h
          split at h
          · rename_i hm
            simp only [Prod.mk.injEq, true_and] at h
            subst h
            have hcl : ∀ k, ¬ tmp <+: k → clearTempDir cwd fs3 (join root ".tmp".toList) k = fs3 k := by
              intro k hk
              unfold clearTempDir
              rw [hl]
              split
              · simp [hk]
              · rfl
            refine ⟨?_, by simp [FS.set], ?_⟩
            · intro k hk
              have : k ≠ tmp := by rintro rfl; exact hk hself
              simp only [FS.set, if_neg this]
              exact hcl k hk
            · intro k hk hne
              simp only [FS.set, if_neg hne]
              by_cases hd : fs3 tmp = some .dir
              · unfold clearTempDir
                rw [hl, if_pos hd]
                simp [hk]
              · -- nothing was there, so nothing is below
                have hnone : fs3 tmp = none := by
                  have := hm.1
                  unfold clearTempDir at this
                  rw [hl, if_neg hd] at this
                  exact this
                unfold clearTempDir
                rw [hl, if_neg hd]
                obtain ⟨r, rfl⟩ := hk
                have hr : r ≠ [] := by rintro rfl; simp at hne
                have below : ∀ r : Loc, r ≠ [] → fs3 (tmp ++ r) = none := by
                  intro r
                  induction hn : r.length generalizing r with
                  | zero => intro hr; simp at hn; exact absurd hn hr
                  | succ n ih =>
                    intro hr
                    rcases List.eq_nil_or_concat r with e | ⟨r', c, e⟩
                    · exact absurd e hr
                    · subst e
                      simp only [List.concat_eq_append, List.length_append, List.length_cons, List.length_nil, Nat.zero_add,
                        Nat.add_right_cancel_iff] at hn
                      cases hx : fs3 (tmp ++ r'.concat c) with
                      | none => rfl
                      | some x =>
                        have hup := t3.up (l := tmp ++ r') (c := c) (n := x) (by simpa using hx)
                        by_cases hr' : r' = []
                        · subst hr'
                          rw [List.append_nil, hnone] at hup
                          cases hup
                        · rw [ih r' hn hr'] at hup
                          cases hup
                exact below r hr
          · simp at h
        obtain ⟨k1, k2', k3⟩ := key
        refine ⟨?_, k2', k3, ?_, ?_, ?_⟩
        · rw [k1 _ hnr, hroot3]
        · intro hn
          obtain ⟨m, hm⟩ := w2
          exact ⟨m, by rw [k1 _ hn, g3.file, hm]⟩
        · intro hn
          rw [k1 _ hn, (o3 rfl).2]
        · intro k hk hne
          rw [k1 k hk]
          rcases g3 k with e | ⟨e1, e2, e3⟩
          · rw [e, k2 k hne]
            rcases g1 k with e | ⟨a, b, c⟩
            · exact Or.inl e
            · exact Or.inr ⟨a, b, Or.inl c⟩
          · rw [k2 k hne] at e1
            rcases g1 k with e | ⟨a, b, c⟩
            · exact Or.inr ⟨e ▸ e1, e2, Or.inr e3⟩
            · rw [b] at e1; cases e1

theorem makedirs_true {cwd : Loc} (hc : ∀ c ∈ cwd, Name c) {fs : FS} (ht : Tree fs) {p : Text} (hp : p ≠ [])
    (h : ∀ k, k <+: loc cwd p → ∀ c m, fs k ≠ some (.file c m)) : ∃ fs', makedirs cwd fs p = (true, fs') := by
  cases hm : makedirs cwd fs p with
  | mk ok fs' =>
    cases ok with
    | true => exact ⟨fs', rfl⟩
    | false =>
      rcases (makedirs_spec hc ht hm).2.2.2 rfl with e | ⟨k, hk, c, m, e⟩
      · exact absurd e hp
      · exact absurd e (h k hk c m)

/-- **C156**, partial: with a log in the build directory it succeeds unless there is a file where a directory has to be, or a directory
where the log has to be.  Partial: a log in a directory below is not made (`C156_log_violated`). -/
theorem C156_can_partial {cwd : Loc} {fs : FS} {mode : Nat} {root log state : Text} (hc : ∀ c ∈ cwd, Name c) (ht : Tree fs)
    (hr : root ≠ []) (hl : Name log) (hs : (split state).1 ≠ [])
    (h1 : ∀ k, k <+: loc cwd root ++ [".tmp".toList] → ∀ c m, fs k ≠ some (.file c m))
    (h2 : ∀ k, k <+: loc cwd (split state).1 → ∀ c m, fs k ≠ some (.file c m))
    (h3 : fs (loc cwd root ++ [log]) ≠ some .dir)
    (h4 : ¬ loc cwd root ++ [log] <+: loc cwd (split state).1) (h5 : log ≠ ".tmp".toList) :
    (createBuildroot cwd fs mode root (join root log) state).1 = true := by
  obtain ⟨fs1, e1⟩ := makedirs_true hc ht hr (fun k hk => h1 k (hk.trans (List.prefix_append _ _)))
  obtain ⟨t1, g1, o1, _⟩ := makedirs_spec hc ht e1
  have hroot := (o1 rfl).2
  have hll : loc cwd (join root log) = loc cwd root ++ [log] := loc_join cwd root hl
  have hnd : fs1 (loc cwd root ++ [log]) ≠ some .dir := by
    rcases g1 (loc cwd root ++ [log]) with e | ⟨_, _, e⟩
    · rw [e]; exact h3
    · exact absurd e (not_longer _ _)
  have hw : writable cwd fs1 (join root log) = true := by
    simp only [writable, join_mustDir root hl, hll, Bool.and_eq_true, decide_eq_true_eq, ne_eq, Bool.not_false,
      List.dropLast_concat]
    exact ⟨⟨⟨join_ne root hl, trivial⟩, hnd⟩, hroot⟩
  obtain ⟨fs2, e2⟩ : ∃ fs2, openEmpty cwd fs1 mode (join root log) = (true, fs2) := by
    unfold openEmpty
    rw [if_pos hw]
    exact ⟨_, rfl⟩
  obtain ⟨t2, w2, n2, k2⟩ := openEmpty_spec hc t1 e2
  have nofile : ∀ k, k <+: loc cwd (split state).1 → ∀ c m, fs2 k ≠ some (.file c m) := by
    intro k hk c m
    have : k ≠ loc cwd (join root log) := by rintro rfl; rw [hll] at hk; exact h4 hk
    rw [k2 k this]
    intro e
    exact h2 k hk c m (g1.file.1 e)
  obtain ⟨fs3, e3⟩ := makedirs_true hc t2 hs nofile
  obtain ⟨t3, g3, o3, _⟩ := makedirs_spec hc t2 e3
  have hlt : loc cwd (join root ".tmp".toList) = loc cwd root ++ [".tmp".toList] := loc_join cwd root name_tmp
  have hroot2 : fs2 (loc cwd root) = some .dir := by
    rw [k2 _ (by intro e; rw [hll] at e; exact not_longer (loc cwd root) log (e ▸ List.prefix_refl _)), hroot]
  have hroot3 := g3.dir hroot2
  have htmp : ∀ c m, fs3 (loc cwd root ++ [".tmp".toList]) ≠ some (.file c m) := by
    intro c m e
    rw [g3.file, k2 _ (by rw [hll]; intro e; simp at e; exact h5 e.symm), g1.file] at e
    exact h1 _ (List.prefix_refl _) c m e
  simp only [createBuildroot, e1, e2, e3, mkdir, hlt]
  rw [if_pos]
  refine ⟨?_, ?_⟩
  · unfold clearTempDir
    rw [hlt]
    split
    · simp
    · rename_i hd
      cases hx : fs3 (loc cwd root ++ [".tmp".toList]) with
      | none => rfl
      | some n =>
        cases n with
        | dir => exact absurd hx hd
        | file c m => exact absurd hx (htmp c m)
  · have hnp : ¬ (loc cwd root ++ [".tmp".toList]) <+: loc cwd root := not_longer _ _
    unfold clearTempDir
    rw [hlt, List.dropLast_concat]
    split
    · dsimp only
      rw [if_neg (fun h => hnp (List.isPrefixOf_iff_prefix.1 h)), hroot3]
    · exact hroot3

/-- **C156** is false for a log whose directory is not there and not on the way to the build directory: the build does not begin, while
the directory of a state would be made. -/
theorem C156_log_violated {cwd : Loc} {fs : FS} {mode : Nat} {root log state : Text} (hc : ∀ c ∈ cwd, Name c) (ht : Tree fs)
    (h : fs (loc cwd log).dropLast = none) (hn : ¬ (loc cwd log).dropLast <+: loc cwd root) :
    (createBuildroot cwd fs mode root log state).1 = false := by
  unfold createBuildroot
  split
  · rfl
  · rename_i fs1 h1
    obtain ⟨t1, g1, o1, _⟩ := makedirs_spec hc ht h1
    have : fs1 (loc cwd log).dropLast = none := by
      rcases g1 (loc cwd log).dropLast with e | ⟨_, _, e⟩
      · rw [e, h]
      · exact absurd e hn
    have hw : writable cwd fs1 log = false := by simp [writable, this]
    simp [openEmpty, hw]

/-- **C156** is false if there is a file with the name of the temporary directory: it is not removed, and the build does not begin. -/
theorem C156_tmp_violated {cwd : Loc} {fs : FS} {mode c m : Nat} {root log state : Text} (hc : ∀ c ∈ cwd, Name c) (ht : Tree fs)
    (h : fs (loc cwd root ++ [".tmp".toList]) = some (.file c m)) : (createBuildroot cwd fs mode root log state).1 = false := by
  unfold createBuildroot
  split
  · rfl
  · rename_i fs1 h1
    obtain ⟨t1, g1, o1, _⟩ := makedirs_spec hc ht h1
    split
    · rfl
    · rename_i fs2 h2
      obtain ⟨t2, w2, n2, k2⟩ := openEmpty_spec hc t1 h2
      split
      · rfl
      · rename_i fs3 h3
        obtain ⟨t3, g3, o3, _⟩ := makedirs_spec hc t2 h3
        have hlt : loc cwd (join root ".tmp".toList) = loc cwd root ++ [".tmp".toList] := loc_join cwd root name_tmp
        have hf : ∃ c m, fs3 (loc cwd root ++ [".tmp".toList]) = some (.file c m) := by
          by_cases e : loc cwd root ++ [".tmp".toList] = loc cwd log
          · obtain ⟨m', hm⟩ := w2
            exact ⟨_, _, by rw [e]; exact g3.file.2 hm⟩
          · exact ⟨c, m, by rw [g3.file, k2 _ e, g1.file, h]⟩
        obtain ⟨c', m', hf⟩ := hf
        have hcl : clearTempDir cwd fs3 (join root ".tmp".toList) = fs3 := by
          unfold clearTempDir
          rw [hlt, hf, if_neg (by simp)]
        rw [hcl, mkdir, hlt, hf, if_neg (by simp)]

/-! ## Examples -/

open Ex

set_option maxRecDepth 4000 in
/-- the first build in the working directory of `Builders/File`, and one with a log in a directory of its own -/
example : Tree fs ∧ (∀ c ∈ cwd, Name c) ∧
    (createBuildroot cwd fs 420 "out".toList "out/fbuild.log".toList "out/db/fbuild.db".toList).1 = true ∧
    (createBuildroot cwd fs 420 "out".toList "out/fbuild.log".toList "out/db/fbuild.db".toList).2
      ["w".toList, "out".toList, "db".toList] = some .dir ∧
    (createBuildroot cwd fs 420 "out".toList "out/log/fbuild.log".toList "out/fbuild.db".toList).1 = false := by
  refine ⟨fs_ok, ?_, ?_, ?_, ?_⟩
  · intro c hc
    simp only [cwd, List.mem_singleton] at hc
    subst hc
    exact ⟨by decide, by decide, by decide⟩
  · decide +kernel
  · decide +kernel
  · decide +kernel

set_option maxRecDepth 4000 in
/-- hypotheses met -/
example : (split "out/fbuild.db".toList).1 = "out".toList ∧ loc cwd "out".toList = ["w".toList, "out".toList] ∧
    fs ["w".toList, "out".toList] = none ∧ fs ["w".toList] = some .dir ∧
    fs (loc cwd "out/log/fbuild.log".toList).dropLast = none ∧
    ¬ (loc cwd "out/log/fbuild.log".toList).dropLast <+: loc cwd "out".toList := by
  refine ⟨by decide +kernel, by decide +kernel, by decide +kernel, by decide +kernel, by decide +kernel, ?_⟩
  intro h
  exact absurd h.length_le (by decide +kernel)

end Verif.FileOps
