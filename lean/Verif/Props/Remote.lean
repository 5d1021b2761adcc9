import Verif.Install.Remote
/-!
# Installing through a privileged process: properties

C115: it does what installing directly does, in whatever order the two processes run, and whenever the helper is ended.
-/
namespace Verif.Install
open Verif.Posix

/-- The items, seen from a directory. -/
def seenFrom (cwd : Text) (items : List Item) : List Item :=
  items.map fun i => (join cwd i.1, join cwd i.2.1, i.2.2)

/-- the messages, one after the other -/
def obeyAll (fs : FS) (cwd : Text) : List Msg → FS × (Text ⊕ Int)
  | [] => (fs, .inr 0)
  | m :: rest => match obey fs cwd m with
    | (fs', .inl cwd') => obeyAll fs' cwd' rest
    | (fs', .inr code) => (fs', .inr code)

/-- no message is `close` -/
def NoClose (t : List Msg) : Prop := ∀ m ∈ t, m.isClose = false

/-- What is true of every state. -/
inductive Inv (R : FS × (Text ⊕ Int)) : Bool → Sys → Prop where
  | loading0 {k fs cwd t} (ht : NoClose t) (h : obeyAll fs cwd (t ++ [.close]) = R) :
      Inv R k ⟨fs, cwd, .starting, [], [], .loading, t ++ [.close], false⟩
  | loading1 {k fs cwd t} (ht : NoClose t) (h : obeyAll fs cwd (t ++ [.close]) = R) :
      Inv R k ⟨fs, cwd, .reading, [], [.blank], .loading, t ++ [.close], false⟩
  | idle {k fs cwd t} (ht : NoClose t) (h : obeyAll fs cwd (t ++ [.close]) = R) :
      Inv R k ⟨fs, cwd, .reading, [], [], .sending, t ++ [.close], false⟩
  | asked {k fs cwd m t} (ht : NoClose (m :: t)) (h : obeyAll fs cwd (m :: (t ++ [.close])) = R) :
      Inv R k ⟨fs, cwd, .reading, [m], [], .awaiting, m :: (t ++ [.close]), false⟩
  | askedClose {k fs cwd} (h : R = (fs, .inr 0)) :
      Inv R k ⟨fs, cwd, .reading, [.close], [], .awaiting, [.close], false⟩
  | doing {k fs cwd m t} (ht : NoClose t) (h : obeyAll fs cwd (t ++ [.close]) = R) :
      Inv R k ⟨fs, cwd, .answering, [], [], .awaiting, m :: (t ++ [.close]), false⟩
  | told {k fs cwd m t} (ht : NoClose t) (h : obeyAll fs cwd (t ++ [.close]) = R) :
      Inv R k ⟨fs, cwd, .reading, [], [.done], .awaiting, m :: (t ++ [.close]), false⟩
  | over {k fs cwd p m} (hp : p = .awaiting ∨ p = .waiting false) (h : R = (fs, .inr 0)) :
      Inv R k ⟨fs, cwd, .exited 0, [], [], p, [m], false⟩
  | closed {k fs cwd p} (hp : p = .sending ∨ p = .returned) (h : R = (fs, .inr 0)) :
      Inv R k ⟨fs, cwd, .exited 0, [], [], p, [], true⟩
  | crashed {k fs cwd c si so p t} (hc : c ≠ 0) (h : k = true ∨ R = (fs, .inr c))
      (hp : p = .loading ∨ p = .sending ∨ (p = .awaiting ∧ (so = [] ∨ (so = [.done] ∧ t.tail ≠ []))) ∨ (∃ b, p = .waiting b))
      (ht : t ≠ []) :
      Inv R k ⟨fs, cwd, .exited c, si, so, p, t, false⟩
  | exit {k fs cwd c si so t} (hc : c ≠ 0) (h : k = true ∨ R = (fs, .inr c)) :
      Inv R k ⟨fs, cwd, .exited c, si, so, .exit c, t, true⟩

theorem inv_helper {R k s s'} (h : Inv R k s) (hs : s.helperStep = some s') : Inv R k s' := by
  cases h with
  | loading0 ht h => cases hs; exact .loading1 ht h
  | loading1 ht h => cases hs
  | idle ht h => cases hs
  | told ht h => cases hs
  | over hp h => cases hs
  | closed hp h => cases hs
  | crashed hc h hp ht => cases hs
  | exit hc h => cases hs
  | doing ht h => cases hs; exact .told ht h
  | askedClose h => cases hs; exact .over (.inl rfl) h
  | @asked fs cwd m t ht h =>
    have ht' : NoClose t := fun x hx => ht x (.tail _ hx)
    have hm : m.isClose = false := ht m (.head _)
    simp only [Sys.helperStep, Option.some.injEq] at hs
    subst hs
    unfold obeyAll at h
    unfold Sys.after
    rcases ho : obey fs cwd m with ⟨fs', r⟩
    rw [ho] at h
    cases r with
    | inl cwd' => exact .doing ht' h
    | inr code =>
      simp only at h
      have hc : code ≠ 0 := by
        rintro rfl
        cases m with
        | chdir d =>
          simp only [obey] at ho
          split at ho <;> simp at ho
        | install a b c =>
          simp only [obey] at ho
          split at ho <;> simp at ho
        | close => simp [Msg.isClose] at hm
      exact .crashed hc (.inr h.symm) (.inr (.inr (.inl ⟨rfl, .inl rfl⟩))) (by simp)

theorem inv_parent {R k s s'} (h : Inv R k s) (hs : s.parentStep = some s') : Inv R k s' := by
  cases h with
  | loading0 ht h => cases hs
  | loading1 ht h => cases hs; exact .idle ht h
  | @idle fs cwd t ht h =>
    cases t with
    | nil => cases hs; exact .askedClose h.symm
    | cons m t =>
      have hm : m.isClose = false := ht m (.head _)
      simp only [Sys.parentStep, List.cons_append, Sys.send, hm, Bool.false_and, Helper.ended, Bool.false_eq_true, if_false,
        List.nil_append, Option.some.injEq] at hs
      subst hs
      exact .asked ht h
  | asked ht h => cases hs
  | askedClose h => cases hs
  | doing ht h => cases hs
  | told ht h => cases hs; exact .idle ht h
  | over hp h =>
    rcases hp with rfl | rfl
    · cases hs; exact .over (.inr rfl) h
    · cases hs; exact .closed (.inl rfl) h
  | closed hp h =>
    rcases hp with rfl | rfl
    · cases hs; exact .closed (.inr rfl) h
    · cases hs
  | @crashed fs cwd c si so p t hc h hp ht =>
    rcases hp with rfl | rfl | ⟨rfl, hso⟩ | ⟨b, rfl⟩
    · cases so with
      | nil => cases hs; exact .crashed hc h (.inr (.inl rfl)) ht
      | cons l so => cases hs; exact .crashed hc h (.inr (.inl rfl)) ht
    · cases t with
      | nil => exact absurd rfl ht
      | cons m t =>
        simp only [Sys.parentStep, Sys.send, Bool.and_false, Helper.ended, Bool.false_eq_true, if_false, if_true,
          Option.some.injEq] at hs
        subst hs
        exact .crashed hc h (.inr (.inr (.inr ⟨_, rfl⟩))) ht
    · rcases hso with rfl | ⟨rfl, ht'⟩
      · cases hs; exact .crashed hc h (.inr (.inr (.inr ⟨_, rfl⟩))) ht
      · cases hs; exact .crashed hc h (.inr (.inl rfl)) ht'
    · simp only [Sys.parentStep, Sys.waited, ne_eq, hc, not_false_eq_true, if_true, Option.some.injEq] at hs
      subst hs
      exact .exit hc h
  | exit hc h => cases hs

theorem inv_die {R k s s'} (h : Inv R k s) (hs : Die s s') : Inv R true s' := by
  have key : ∀ (c : Int) (fs : FS), c ≠ 0 → s.helper.ended = false → Inv R true { s with helper := .exited c, fs := fs } := by
    intro c fs hc he
    cases h with
    | loading0 ht h => exact .crashed hc (.inl rfl) (.inl rfl) (by simp)
    | loading1 ht h => exact .crashed hc (.inl rfl) (.inl rfl) (by simp)
    | idle ht h => exact .crashed hc (.inl rfl) (.inr (.inl rfl)) (by simp)
    | asked ht h => exact .crashed hc (.inl rfl) (.inr (.inr (.inl ⟨rfl, .inl rfl⟩))) (by simp)
    | askedClose h => exact .crashed hc (.inl rfl) (.inr (.inr (.inl ⟨rfl, .inl rfl⟩))) (by simp)
    | doing ht h => exact .crashed hc (.inl rfl) (.inr (.inr (.inl ⟨rfl, .inl rfl⟩))) (by simp)
    | told ht h => exact .crashed hc (.inl rfl) (.inr (.inr (.inl ⟨rfl, .inr ⟨rfl, by simp⟩⟩))) (by simp)
    | over hp h => cases he
    | closed hp h => cases he
    | crashed hc h hp ht => cases he
    | exit hc h => cases he
  cases hs with
  | idle code hc he => exact key code s.fs hc he
  | busy code fs hc hh hi => exact key code fs hc (by rw [hh]; rfl)

theorem inv_start (fs : FS) (rootCwd cwd : Text) (items : List Item) :
    Inv (obeyAll fs rootCwd (.chdir cwd :: (items.map fun i => .install i.1 i.2.1 i.2.2) ++ [.close])) false
      (start fs rootCwd cwd items) := by
  refine .loading0 (t := .chdir cwd :: items.map fun i => .install i.1 i.2.1 i.2.2) ?_ rfl
  intro m hm
  simp only [List.mem_cons, List.mem_map] at hm
  rcases hm with rfl | ⟨i, _, rfl⟩ <;> rfl

theorem inv_reach {s₀ k s R} (h : Reach s₀ k s) (h0 : Inv R false s₀) : Inv R k s := by
  induction h with
  | refl => exact h0
  | step _ hs ih =>
    cases hs with
    | helper h => exact inv_helper ih h
    | parent h => exact inv_parent ih h
  | die _ hs ih => exact inv_die ih hs

/-- all messages: the files are those of installing directly, and the return code tells whether that succeeds -/
theorem obey_items (cwd : Text) (items : List Item) (fs : FS) :
    obeyAll fs cwd ((items.map fun i => .install i.1 i.2.1 i.2.2) ++ [.close]) =
      ((installAll fs (seenFrom cwd items)).fs, .inr (if (installAll fs (seenFrom cwd items)).ok then 0 else 1)) := by
  induction items generalizing fs with
  | nil => rfl
  | cons i items ih =>
    obtain ⟨file, tgt, perms⟩ := i
    simp only [List.map_cons, List.cons_append, obeyAll, obey, seenFrom, installAll, Res.andThen]
    by_cases hok : (install fs (join cwd file) (join cwd tgt) perms).ok = true
    · simp only [hok, if_true]
      exact ih _
    · simp only [hok, if_false, Bool.false_eq_true]

theorem obey_start (fs : FS) (rootCwd cwd : Text) (items : List Item) (ha : isabs cwd = true) :
    obeyAll fs rootCwd (.chdir cwd :: (items.map fun i => .install i.1 i.2.1 i.2.2) ++ [.close]) =
      if isDir fs cwd then
        ((installAll fs (seenFrom cwd items)).fs, .inr (if (installAll fs (seenFrom cwd items)).ok then 0 else 1))
      else (fs, .inr 1) := by
  have hj : join rootCwd cwd = cwd := by simp [join, ha]
  simp only [List.cons_append, obeyAll, obey, hj]
  by_cases hd : isDir fs cwd = true
  · simp only [hd, if_true]
    exact obey_items cwd items fs
  · simp only [hd, if_false, Bool.false_eq_true]

/-! ## C115 -/

/-- **C115**, success: in whatever order the processes run, and whenever the helper is ended, if `install` returns then all files
have been installed: the files are those that installing directly leaves, and installing directly would have succeeded. -/
theorem C115_returned (fs : FS) (rootCwd cwd : Text) (items : List Item) (ha : isabs cwd = true) (k : Bool) (s : Sys)
    (h : Reach (start fs rootCwd cwd items) k s) (hr : s.parent = .returned) :
    installAll fs (seenFrom cwd items) = ⟨s.fs, true⟩ := by
  have hi := inv_reach h (inv_start fs rootCwd cwd items)
  clear h
  rw [obey_start fs rootCwd cwd items ha] at hi
  cases hi with
  | closed hp h =>
    by_cases hd : isDir fs cwd = true
    · rw [if_pos hd] at h
      simp only [Prod.mk.injEq, Sum.inr.injEq] at h
      obtain ⟨h1, h2⟩ := h
      cases hres : installAll fs (seenFrom cwd items) with
      | mk f ok =>
        rw [hres] at h1 h2
        cases ok with
        | true => exact congrArg (Res.mk · true) h1
        | false => simp at h2
    · rw [if_neg hd] at h
      simp at h
  | over hp h => rcases hp with rfl | rfl <;> cases hr
  | crashed hc h hp ht => rcases hp with rfl | rfl | ⟨rfl, _⟩ | ⟨b, rfl⟩ <;> cases hr
  | _ => cases hr

/-- **C115**, no disturbance: if the helper is not ended from outside and can enter the directory, fbuild ends as installing directly
does: the files are the same, it returns if that succeeds, and exits with 1 if that raises. -/
theorem C115_same (fs : FS) (rootCwd cwd : Text) (items : List Item) (ha : isabs cwd = true) (hd : isDir fs cwd = true) (s : Sys)
    (h : Reach (start fs rootCwd cwd items) false s) (he : s.parent.ended) :
    s.fs = (installAll fs (seenFrom cwd items)).fs ∧
    s.parent = if (installAll fs (seenFrom cwd items)).ok then .returned else .exit 1 := by
  have hi := inv_reach h (inv_start fs rootCwd cwd items)
  clear h
  rw [obey_start fs rootCwd cwd items ha, if_pos hd] at hi
  cases hi with
  | closed hp h =>
    rcases hp with rfl | rfl
    · exact he.elim
    simp only [Prod.mk.injEq, Sum.inr.injEq] at h
    obtain ⟨h1, h2⟩ := h
    cases hok : (installAll fs (seenFrom cwd items)).ok with
    | true => exact ⟨h1.symm, rfl⟩
    | false => rw [hok] at h2; simp at h2
  | exit hc h =>
    rcases h with h | h
    · cases h
    simp only [Prod.mk.injEq, Sum.inr.injEq] at h
    obtain ⟨h1, h2⟩ := h
    cases hok : (installAll fs (seenFrom cwd items)).ok with
    | true => rw [hok] at h2; exact absurd h2.symm hc
    | false => rw [hok] at h2; subst h2; exact ⟨h1.symm, rfl⟩
  | over hp h => rcases hp with rfl | rfl <;> exact he.elim
  | crashed hc h hp ht => rcases hp with rfl | rfl | ⟨rfl, _⟩ | ⟨b, rfl⟩ <;> exact he.elim
  | _ => exact he.elim

/-- **C115**, failure: fbuild returns or exits with the return code of the helper, which is not 0. -/
theorem C115_status (fs : FS) (rootCwd cwd : Text) (items : List Item) (k : Bool) (s : Sys)
    (h : Reach (start fs rootCwd cwd items) k s) (he : s.parent.ended) :
    s.parent = .returned ∨ ∃ code, code ≠ 0 ∧ s.helper = .exited code ∧ s.parent = .exit code := by
  have hi := inv_reach h (inv_start fs rootCwd cwd items)
  clear h
  cases hi with
  | closed hp h =>
    rcases hp with rfl | rfl
    · exact he.elim
    · exact .inl rfl
  | exit hc h => exact .inr ⟨_, hc, rfl, rfl⟩
  | over hp h => rcases hp with rfl | rfl <;> exact he.elim
  | crashed hc h hp ht => rcases hp with rfl | rfl | ⟨rfl, _⟩ | ⟨b, rfl⟩ <;> exact he.elim
  | _ => exact he.elim

/-- how much there is left to do -/
def Helper.weight : Helper → Nat
  | .starting => 25 | .reading => 5 | .answering => 25 | .exited _ => 0
def Parent.weight : Parent → Nat
  | .loading => 70 | .sending => 60 | .awaiting => 20 | .waiting _ => 10 | _ => 0
def Sys.weight (s : Sys) : Nat :=
  100 * s.todo.length + s.parent.weight + s.helper.weight + 30 * s.stdin.length + 10 * s.stdout.length

theorem weight_helper {s s' : Sys} (h : s.helperStep = some s') : s'.weight < s.weight := by
  obtain ⟨fs, cwd, hp, si, so, p, t, cl⟩ := s
  cases hp with
  | starting => cases h; simp [Sys.weight, Helper.weight]; omega
  | answering => cases h; simp [Sys.weight, Helper.weight]; omega
  | exited c => cases h
  | reading =>
    cases si with
    | nil => cases h
    | cons m rest =>
      simp only [Sys.helperStep, Option.some.injEq] at h
      subst h
      unfold Sys.after
      split <;> simp [Sys.weight, Helper.weight] <;> omega

theorem weight_die {s s' : Sys} (h : Die s s') : s'.weight < s.weight := by
  cases h with
  | idle code hc he =>
    cases hh : s.helper with
    | exited c => rw [hh] at he; cases he
    | _ => simp [Sys.weight, Helper.weight, hh]
  | busy code fs hc hh hi => simp [Sys.weight, Helper.weight, hh]

theorem weight_parent {R k} {s s' : Sys} (hi : Inv R k s) (h : s.parentStep = some s') : s'.weight < s.weight := by
  cases hi with
  | loading0 ht hR => cases h
  | loading1 ht hR => cases h; simp [Sys.weight, Parent.weight, Helper.weight, Sys.send, Sys.answer, Sys.waited, Msg.isClose, Helper.ended]
  | @idle fs cwd t ht hR =>
    cases t with
    | nil => cases h; simp [Sys.weight, Parent.weight, Helper.weight, Sys.send, Sys.answer, Sys.waited, Msg.isClose, Helper.ended]
    | cons m t =>
      have hm : m.isClose = false := ht m (.head _)
      simp only [Sys.parentStep, List.cons_append, Sys.send, hm, Bool.false_and, Helper.ended, Bool.false_eq_true, if_false,
        List.nil_append, Option.some.injEq] at h
      subst h
      simp [Sys.weight, Parent.weight, Helper.weight, Sys.send, Sys.answer, Sys.waited, Msg.isClose, Helper.ended] <;> omega
  | asked ht hR => cases h
  | askedClose hR => cases h
  | doing ht hR => cases h
  | told ht hR => cases h; simp [Sys.weight, Parent.weight, Helper.weight, Sys.send, Sys.answer, Sys.waited, Msg.isClose, Helper.ended] <;> omega
  | over hp hR =>
    rcases hp with rfl | rfl
    · cases h; simp [Sys.weight, Parent.weight, Helper.weight, Sys.send, Sys.answer, Sys.waited, Msg.isClose, Helper.ended]
    · cases h; simp [Sys.weight, Parent.weight, Helper.weight, Sys.send, Sys.answer, Sys.waited, Msg.isClose, Helper.ended]
  | closed hp hR =>
    rcases hp with rfl | rfl
    · cases h; simp [Sys.weight, Parent.weight, Helper.weight, Sys.send, Sys.answer, Sys.waited, Msg.isClose, Helper.ended]
    · cases h
  | @crashed fs cwd c si so p t hc hR hp ht =>
    rcases hp with rfl | rfl | ⟨rfl, hso⟩ | ⟨b, rfl⟩
    · cases so with
      | nil => cases h; simp [Sys.weight, Parent.weight, Helper.weight, Sys.send, Sys.answer, Sys.waited, Msg.isClose, Helper.ended]
      | cons l so => cases h; simp [Sys.weight, Parent.weight, Helper.weight, Sys.send, Sys.answer, Sys.waited, Msg.isClose, Helper.ended] <;> omega
    · cases t with
      | nil => exact absurd rfl ht
      | cons m t =>
        simp only [Sys.parentStep, Sys.send, Bool.and_false, Helper.ended, Bool.false_eq_true, if_false, if_true,
          Option.some.injEq] at h
        subst h
        simp [Sys.weight, Parent.weight, Helper.weight, Sys.send, Sys.answer, Sys.waited, Msg.isClose, Helper.ended]
    · rcases hso with rfl | ⟨rfl, ht'⟩
      · cases h; simp [Sys.weight, Parent.weight, Helper.weight, Sys.send, Sys.answer, Sys.waited, Msg.isClose, Helper.ended]
      · cases h
        cases t with
        | nil => exact absurd rfl ht
        | cons m t => simp [Sys.weight, Parent.weight, Helper.weight, Sys.send, Sys.answer, Sys.waited, Msg.isClose, Helper.ended] <;> omega
    · simp only [Sys.parentStep, Sys.waited, ne_eq, hc, not_false_eq_true, if_true, Option.some.injEq] at h
      subst h
      simp [Sys.weight, Parent.weight, Helper.weight, Sys.send, Sys.answer, Sys.waited, Msg.isClose, Helper.ended]
  | exit hc hR => cases h

/-- **C115**, no deadlock: as long as fbuild has not ended, one of the processes can go on. -/
theorem C115_progress (fs : FS) (rootCwd cwd : Text) (items : List Item) (k : Bool) (s : Sys)
    (h : Reach (start fs rootCwd cwd items) k s) (he : ¬ s.parent.ended) : ∃ s', Next s s' := by
  have hi := inv_reach h (inv_start fs rootCwd cwd items)
  clear h
  cases hi with
  | loading0 ht h => exact ⟨_, .helper rfl⟩
  | loading1 ht h => exact ⟨_, .parent rfl⟩
  | @idle fs cwd t ht h => cases t <;> exact ⟨_, .parent rfl⟩
  | asked ht h => exact ⟨_, .helper rfl⟩
  | askedClose h => exact ⟨_, .helper rfl⟩
  | doing ht h => exact ⟨_, .helper rfl⟩
  | told ht h => exact ⟨_, .parent rfl⟩
  | over hp h => rcases hp with rfl | rfl <;> exact ⟨_, .parent rfl⟩
  | closed hp h =>
    rcases hp with rfl | rfl
    · exact ⟨_, .parent rfl⟩
    · exact absurd trivial he
  | @crashed fs cwd c si so p t hc h hp ht =>
    rcases hp with rfl | rfl | ⟨rfl, hso⟩ | ⟨b, rfl⟩
    · cases so <;> exact ⟨_, .parent rfl⟩
    · cases t with
      | nil => exact absurd rfl ht
      | cons m t => exact ⟨_, .parent rfl⟩
    · rcases hso with rfl | ⟨rfl, ht'⟩ <;> exact ⟨_, .parent rfl⟩
    · exact ⟨_, .parent rfl⟩
  | exit hc h => exact absurd trivial he

/-- **C115**, termination: there is no endless run. -/
theorem C115_ends (fs : FS) (rootCwd cwd : Text) (items : List Item) (run : Nat → Sys)
    (h0 : run 0 = start fs rootCwd cwd items) : ¬ ∀ n, Next (run n) (run (n + 1)) ∨ Die (run n) (run (n + 1)) := by
  intro hall
  have hreach : ∀ n, ∃ k, Reach (start fs rootCwd cwd items) k (run n) := by
    intro n
    induction n with
    | zero => exact ⟨false, h0 ▸ .refl⟩
    | succ n ih =>
      obtain ⟨k, hk⟩ := ih
      rcases hall n with h | h
      · exact ⟨k, .step hk h⟩
      · exact ⟨true, .die hk h⟩
  have hdec : ∀ n, (run (n + 1)).weight < (run n).weight := by
    intro n
    obtain ⟨k, hk⟩ := hreach n
    rcases hall n with h | h
    · cases h with
      | helper h => exact weight_helper h
      | parent h => exact weight_parent (inv_reach hk (inv_start fs rootCwd cwd items)) h
    · exact weight_die h
  have : ∀ n, (run n).weight + n ≤ (run 0).weight := by
    intro n
    induction n with
    | zero => simp
    | succ n ih => have := hdec n; omega
  have := this ((run 0).weight + 1)
  omega

/-- **C115**, denied: if the helper ends before it has written its first line (no authorisation, or it cannot be started), nothing
is installed, and fbuild exits with its return code. -/
theorem C115_denied (fs : FS) (rootCwd cwd : Text) (items : List Item) (code : Int) (hc : code ≠ 0) (k : Bool) (s : Sys)
    (h : Reach { start fs rootCwd cwd items with helper := .exited code } k s) :
    s.fs = fs ∧ (s.parent.ended → s.parent = .exit code) := by
  have key : s.fs = fs ∧ s.helper = .exited code ∧ s.stdout = [] ∧ s.todo ≠ [] ∧
      (s.parent = .loading ∨ s.parent = .sending ∨ s.parent = .waiting true ∨ s.parent = .exit code) ∧
      (s.closed = true → s.parent = .exit code) := by
    induction h with
    | refl => exact ⟨rfl, rfl, rfl, by simp [start], .inl rfl, by simp [start]⟩
    | @step k s s' _ hs ih =>
      obtain ⟨fs', cwd', hp, si, so, p, t, cl⟩ := s
      obtain ⟨rfl, h1, h2, h3, h4, h5⟩ := ih
      simp only at h1 h2 h3 h4 h5
      subst h1 h2
      cases hs with
      | helper h => cases h
      | parent h =>
        rcases h4 with rfl | rfl | rfl | rfl
        · cases h
          exact ⟨rfl, rfl, rfl, h3, .inr (.inl rfl), fun h => by have := h5 h; cases this⟩
        · have hcl : cl = false := by
            cases cl with
            | false => rfl
            | true => have := h5 rfl; cases this
          subst hcl
          cases t with
          | nil => exact absurd rfl h3
          | cons m t =>
            simp only [Sys.parentStep, Sys.send, Bool.and_false, Helper.ended, Bool.false_eq_true, if_false, if_true,
              Option.some.injEq] at h
            subst h
            exact ⟨rfl, rfl, rfl, h3, .inr (.inr (.inl rfl)), by simp⟩
        · simp only [Sys.parentStep, Sys.waited, ne_eq, hc, not_false_eq_true, if_true, Option.some.injEq] at h
          subst h
          exact ⟨rfl, rfl, rfl, h3, .inr (.inr (.inr rfl)), fun _ => rfl⟩
        · cases h
    | die _ hs ih =>
      cases hs with
      | idle c hc he => rw [ih.2.1] at he; cases he
      | busy c f hc hh hi => rw [ih.2.1] at hh; cases hh
  refine ⟨key.1, fun he => ?_⟩
  rcases key.2.2.2.2.1 with h | h | h | h
  · rw [h] at he; exact he.elim
  · rw [h] at he; exact he.elim
  · rw [h] at he; exact he.elim
  · exact h

/-! ## Examples -/

namespace RemoteEx
/-- a directory with two built files, and a directory in the place of a target -/
def fs : FS := fun p =>
  if p = "/src".toList then some .dir
  else if p = "/src/a".toList then some (.file 1 0o644)
  else if p = "/src/b".toList then some (.file 2 0o755)
  else if p = "/usr/dir/b".toList then some .dir
  else if p = "/usr/dir".toList then some .dir
  else none
def items : List Item := [("a".toList, "/usr/a".toList, none), ("b".toList, "/usr/b".toList, some 0o700)]
def bad : List Item := [("a".toList, "/usr/a".toList, none), ("b".toList, "/usr/dir".toList, none), ("a".toList, "/usr/c".toList, none)]

/-- the processes take turns: a process runs until it has to wait -/
def run : Nat → Sys → Sys
  | 0, s => s
  | n + 1, s => match s.parentStep with
    | some s' => run n s'
    | none => match s.helperStep with
      | some s' => run n s'
      | none => s

theorem run_reach {s₀ k} (n : Nat) (s : Sys) (h : Reach s₀ k s) : Reach s₀ k (run n s) := by
  induction n generalizing s with
  | zero => exact h
  | succ n ih =>
    unfold run
    split
    · exact ih _ (.step h (.parent (by assumption)))
    · split
      · exact ih _ (.step h (.helper (by assumption)))
      · exact h

/-- two files are installed by a helper that started in `/root` -/
def good : Sys := run 100 (start fs "/root".toList "/src".toList items)
/-- the second of three files cannot be installed: there is a directory -/
def failing : Sys := run 100 (start fs "/root".toList "/src".toList bad)
end RemoteEx

example : isabs "/src".toList = true ∧ isDir RemoteEx.fs "/src".toList = true ∧
    Reach (start RemoteEx.fs "/root".toList "/src".toList RemoteEx.items) false RemoteEx.good ∧
    RemoteEx.good.parent = .returned ∧ RemoteEx.good.fs "/usr/a".toList = some (.file 1 0o644) ∧
    RemoteEx.good.fs "/usr/b".toList = some (.file 2 0o755) ∧ RemoteEx.good.fs "/src/b".toList = some (.file 2 0o700) :=
  ⟨by decide +kernel, by decide +kernel, RemoteEx.run_reach _ _ .refl, by decide +kernel, by decide +kernel, by decide +kernel,
    by decide +kernel⟩

example : Reach (start RemoteEx.fs "/root".toList "/src".toList RemoteEx.bad) false RemoteEx.failing ∧
    RemoteEx.failing.parent = .exit 1 ∧ RemoteEx.failing.fs "/usr/a".toList = some (.file 1 0o644) ∧
    RemoteEx.failing.fs "/usr/c".toList = none :=
  ⟨RemoteEx.run_reach _ _ .refl, by decide +kernel, by decide +kernel, by decide +kernel⟩

/-- authorisation is denied: pkexec ends with 126; and a helper that is killed after 9 steps, when the first file is there -/
example :
    (RemoteEx.run 100 { start RemoteEx.fs "/root".toList "/src".toList RemoteEx.items with helper := .exited 126 }).parent = .exit 126 ∧
    (let s := RemoteEx.run 9 (start RemoteEx.fs "/root".toList "/src".toList RemoteEx.items)
     Die s { s with helper := .exited (-9) } ∧ s.fs "/usr/a".toList = some (.file 1 0o644) ∧
     (RemoteEx.run 100 { s with helper := .exited (-9) }).parent = .exit (-9) ∧
     (RemoteEx.run 100 { s with helper := .exited (-9) }).fs "/usr/b".toList = none) :=
  ⟨by decide +kernel, .idle _ (by decide) (by decide +kernel), by decide +kernel, by decide +kernel, by decide +kernel⟩

end Verif.Install
