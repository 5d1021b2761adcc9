import Verif.Checks.Builder
/-!
# A C builder that was made works (C140)
-/
namespace Verif.Checks.Builder
open Verif.Guess (Exc)

variable {Obj Lib Exe : Type}

/-! ## Specification -/

/-- the text can be compiled and linked to this program -/
def Builds (t : Tools Obj Lib Exe) (cflags flags : List Text) (code : Text) (exe : Exe) : Prop :=
  ∃ obj, t.compile cflags code = .ok obj ∧ t.linkExe flags [obj] [] = .ok exe

/-- the text can be compiled and linked to this library -/
def BuildsLib (t : Tools Obj Lib Exe) (cflags flags : List Text) (code : Text) (lib : Lib) : Prop :=
  ∃ obj, t.compile cflags code = .ok obj ∧ t.linkLib flags [obj] = .ok lib

/-- the program of the one text can be linked with the library of the other -/
def BuildsWith (t : Tools Obj Lib Exe) (libSrc exeSrc : Text) (exe : Exe) : Prop :=
  ∃ lib obj, BuildsLib t [] [] libSrc lib ∧ t.compile [] exeSrc = .ok obj ∧ t.linkExe [] [obj] [lib] = .ok exe

/-- The builder works on the programs of the checks: it makes objects, libraries and programs, and programs with libraries.  Unless it is a
cross compiler, they run, and the last writes 5. -/
def Works (t : Tools Obj Lib Exe) (cross : Bool) (p : Programs) : Prop :=
  (∃ lib, BuildsLib t [] [] p.lib lib) ∧
  (∃ exe, Builds t [] [] p.main exe ∧ (cross = false → ∃ out, t.run exe = .ok out)) ∧
  (∃ exe, BuildsWith t p.libSrc p.exeSrc exe ∧ (cross = false → t.run exe = .ok "5"))

/-- the tools fail only by an exit status -/
def OnlyFails (t : Tools Obj Lib Exe) : Prop :=
  (∀ f c n, t.compile f c ≠ .error (.other n)) ∧ (∀ f o n, t.linkLib f o ≠ .error (.other n)) ∧
  (∀ f o l n, t.linkExe f o l ≠ .error (.other n)) ∧ ∀ e n, t.run e ≠ .error (.other n)

/-! ## Proofs -/

variable (t : Tools Obj Lib Exe)

theorem tempLib_ok {cf lf : List Text} {code : Text} {lib : Lib} : tempLib t cf lf code = .ok lib ↔ BuildsLib t cf lf code lib := by
  unfold tempLib BuildsLib
  cases t.compile cf code <;> simp

theorem tempExe_ok {cf lf : List Text} {code : Text} {exe : Exe} : tempExe t cf lf code = .ok exe ↔ Builds t cf lf code exe := by
  unfold tempExe Builds
  cases t.compile cf code <;> simp

theorem tempRun_ok {cf lf : List Text} {code out : Text} :
    tempRun t cf lf code = .ok out ↔ ∃ exe, Builds t cf lf code exe ∧ t.run exe = .ok out := by
  unfold tempRun
  cases h : tempExe t cf lf code with
  | error e =>
    simp only [reduceCtorEq, false_iff, not_exists, not_and]
    intro exe hb
    rw [← tempExe_ok, h] at hb
    cases hb
  | ok exe =>
    constructor
    · intro hr
      exact ⟨exe, (tempExe_ok t).1 h, hr⟩
    · rintro ⟨exe', hb, hr⟩
      rw [← tempExe_ok, h] at hb
      cases hb
      exact hr

theorem tempLib_only (ho : OnlyFails t) {cf lf : List Text} {code : Text} {n : Nat} : tempLib t cf lf code ≠ .error (.other n) := by
  unfold tempLib
  split
  · rename_i e he
    intro hc
    cases hc
    exact ho.1 _ _ _ he
  · exact ho.2.1 _ _ _

theorem tempExe_only (ho : OnlyFails t) {cf lf : List Text} {code : Text} {n : Nat} : tempExe t cf lf code ≠ .error (.other n) := by
  unfold tempExe
  split
  · rename_i e he
    intro hc
    cases hc
    exact ho.1 _ _ _ he
  · exact ho.2.2.1 _ _ _ _

theorem tempRun_only (ho : OnlyFails t) {cf lf : List Text} {code : Text} {n : Nat} : tempRun t cf lf code ≠ .error (.other n) := by
  unfold tempRun
  split
  · rename_i e he
    intro hc
    cases hc
    exact tempExe_only t ho he
  · exact ho.2.2.2 _ _

theorem linked_ok {p : Programs} {exe : Exe} : linked t p = .ok exe ↔ BuildsWith t p.libSrc p.exeSrc exe := by
  unfold linked BuildsWith BuildsLib
  cases h : t.compile [] p.libSrc with
  | error e => simp
  | ok o =>
    simp only [Except.ok.injEq]
    cases hl : t.linkLib [] [o] with
    | error e => 
      simp only [reduceCtorEq, false_iff, not_exists, not_and]
      rintro lib obj ⟨_, rfl, h2⟩
      rw [hl] at h2
      cases h2
    | ok l =>
      simp only
      cases hc : t.compile [] p.exeSrc with
      | error e => simp
      | ok o' =>
        simp only [Except.ok.injEq]
        constructor
        · intro hx
          exact ⟨l, o', ⟨o, rfl, hl⟩, rfl, hx⟩
        · rintro ⟨lib, obj, ⟨_, rfl, h2⟩, rfl, hx⟩
          rw [hl] at h2
          cases h2
          exact hx

theorem linked_only (ho : OnlyFails t) {p : Programs} {n : Nat} : linked t p ≠ .error (.other n) := by
  unfold linked
  split
  · rename_i e he
    intro hc
    cases hc
    exact ho.1 _ _ _ he
  split
  · rename_i e he
    intro hc
    cases hc
    exact ho.2.1 _ _ _ he
  split
  · rename_i e he
    intro hc
    cases hc
    exact ho.1 _ _ _ he
  · exact ho.2.2.1 _ _ _ _

theorem third_ok {cross : Bool} {p : Programs} :
    thirdCheck t cross p = .ok () ↔ ∃ exe, Builds t [] [] p.main exe ∧ (cross = false → ∃ out, t.run exe = .ok out) := by
  unfold thirdCheck
  cases cross with
  | true =>
    simp only [if_true, reduceCtorEq, false_implies, and_true]
    cases h : tempExe t [] [] p.main with
    | error e =>
      simp only [Except.map, reduceCtorEq, false_iff, not_exists]
      intro exe hb
      rw [← tempExe_ok, h] at hb
      cases hb
    | ok exe => exact ⟨fun _ => ⟨exe, (tempExe_ok t).1 h⟩, fun _ => rfl⟩
  | false =>
    simp only [Bool.false_eq_true, if_false, forall_const]
    cases h : tempRun t [] [] p.main with
    | error e =>
      simp only [Except.map, reduceCtorEq, false_iff, not_exists, not_and]
      intro exe hb out hr
      have := (tempRun_ok t).2 ⟨exe, hb, hr⟩
      rw [h] at this
      cases this
    | ok out =>
      obtain ⟨exe, hb, hr⟩ := (tempRun_ok t).1 h
      exact ⟨fun _ => ⟨exe, hb, out, hr⟩, fun _ => rfl⟩

theorem third_only (ho : OnlyFails t) {cross : Bool} {p : Programs} {n : Nat} : thirdCheck t cross p ≠ .error (.other n) := by
  unfold thirdCheck
  cases cross with
  | true =>
    rw [if_pos rfl]
    intro h
    cases he : tempExe t [] [] p.main with
    | ok x => rw [he] at h; cases h
    | error e => rw [he] at h; cases h; exact tempExe_only t ho he
  | false =>
    rw [if_neg (by decide)]
    intro h
    cases he : tempRun t [] [] p.main with
    | ok x => rw [he] at h; cases h
    | error e => rw [he] at h; cases h; exact tempRun_only t ho he

theorem handled_ok {α : Type} {x : Except Err α} {a : α} : handled x = .ok a ↔ x = .ok a := by
  match x with
  | .ok _ => simp [handled]
  | .error .execution => simp [handled]
  | .error (.other n) => simp [handled]

/-- **C140**: the constructor of the builder succeeds exactly if the tools work. -/
theorem C140_works (cross : Bool) (p : Programs) : construct t cross p = .ok () ↔ Works t cross p := by
  unfold construct
  constructor
  · intro h
    split at h
    · cases h
    split at h
    · cases h
    rename_i lib hlib
    split at h
    · cases h
    rename_i u hthird
    split at h
    · cases h
    rename_i exe hexe
    have hexe : linked t p = .ok exe := by
      cases hl : linked t p with
      | error e => rw [hl] at hexe; cases hexe
      | ok x => rw [hl] at hexe; cases hexe; rfl
    refine ⟨⟨lib, (tempLib_ok t).1 (handled_ok.1 hlib)⟩, (third_ok t).1 (handled_ok.1 hthird), exe, (linked_ok t).1 hexe, ?_⟩
    rintro rfl
    unfold lastRun at h
    rw [if_neg (by decide)] at h
    split at h
    · cases h
    rename_i out hout
    split at h
    · cases h
    · rename_i hne
      rw [handled_ok.1 hout, Classical.not_not.1 hne]
  · rintro ⟨⟨lib, hlib⟩, hthird, exe, hexe, hrun⟩
    obtain ⟨_, ⟨o, ho, _⟩, _⟩ := id hthird
    rw [handled_ok.2 ho]
    simp only
    rw [handled_ok.2 ((tempLib_ok t).2 hlib)]
    simp only
    rw [handled_ok.2 ((third_ok t).2 hthird)]
    simp only
    rw [(linked_ok t).2 hexe]
    simp only [bare]
    unfold lastRun
    cases cross with
    | true => rfl
    | false =>
      rw [if_neg (by decide), handled_ok.2 (hrun rfl)]
      rfl

theorem handled_only {α : Type} {x : Except Err α} {e : Exc} (h : ∀ n, x ≠ .error (.other n)) (hx : handled x = .error e) :
    e = .configFailed := by
  match x, h, hx with
  | .error .execution, _, hx => cases hx; rfl
  | .error (.other n), h, _ => exact absurd rfl (h n)

/-- **C140**: if they do not, it raises `ConfigFailed`, so that another compiler can be tried.  Partial: the program of the last check can be
linked (`C140_link_violated`). -/
theorem C140_refused_partial (ho : OnlyFails t) (cross : Bool) (p : Programs) (hl : ∃ exe, BuildsWith t p.libSrc p.exeSrc exe)
    (h : ¬ Works t cross p) : construct t cross p = .error .configFailed := by
  rw [← C140_works] at h
  obtain ⟨exe, hexe⟩ := hl
  unfold construct at h ⊢
  split
  · rename_i e he
    rw [handled_only (ho.1 _ _) he]
  rename_i o hobj
  rw [hobj] at h
  simp only at h
  split
  · rename_i e he
    rw [handled_only (fun _ => tempLib_only t ho) he]
  rename_i l hlib
  rw [hlib] at h
  simp only at h
  split
  · rename_i e he
    rw [handled_only (fun _ => third_only t ho) he]
  rename_i u hthird
  rw [hthird] at h
  simp only at h
  rw [(linked_ok t).2 hexe] at h ⊢
  simp only [bare] at h ⊢
  unfold lastRun at h ⊢
  split at h
  · exact absurd rfl h
  · rename_i hc
    rw [if_neg hc]
    split
    · rename_i e he
      rw [handled_only (ho.2.2.2 _) he]
    · rename_i out hout
      rw [hout] at h
      simp only at h
      split at h
      · rename_i hne
        rw [if_pos hne]
      · exact absurd rfl h

/-- **C140** is false for tools that make objects, libraries and programs but cannot link a program with a library: always the
`ExecutionError` is not turned into a `ConfigFailed`. -/
theorem C140_link_violated (ho : OnlyFails t) (cross : Bool) (p : Programs) (h1 : ∃ lib, BuildsLib t [] [] p.lib lib)
    (h2 : ∃ exe, Builds t [] [] p.main exe ∧ (cross = false → ∃ out, t.run exe = .ok out))
    (hl : ¬ ∃ exe, BuildsWith t p.libSrc p.exeSrc exe) : construct t cross p = .error (escape .execution) := by
  obtain ⟨lib, hlib⟩ := h1
  obtain ⟨_, ⟨o, hc, _⟩, _⟩ := id h2
  unfold construct
  rw [handled_ok.2 hc]
  simp only
  rw [handled_ok.2 ((tempLib_ok t).2 hlib)]
  simp only
  rw [handled_ok.2 ((third_ok t).2 h2)]
  simp only
  match hk : linked t p with
  | .ok exe => exact absurd ⟨exe, (linked_ok t).1 hk⟩ hl
  | .error (.other n) => exact absurd hk (linked_only t ho)
  | .error .execution => rfl

/-- **C140**: a builder for another machine is made without running any program. -/
theorem C140_cross (run : Exe → Except Err Text) (p : Programs) : construct { t with run := run } true p = construct t true p := rfl

/-- a program can be built with these flags for the linker, and runs -/
def Runs (cf lf : List Text) (code : Text) : Prop := ∃ exe out, Builds t cf lf code exe ∧ t.run exe = .ok out

theorem attempt_true {α : Type} {x : Except Err α} : attempt x = .ok true ↔ ∃ a, x = .ok a := by
  match x with
  | .ok _ => simp [attempt]
  | .error .execution => simp [attempt]
  | .error (.other n) => simp [attempt]

theorem attempt_false {α : Type} {x : Except Err α} (h : ∀ n, x ≠ .error (.other n)) (hn : ¬ ∃ a, x = .ok a) : attempt x = .ok false := by
  match x, h, hn with
  | .ok a, _, hn => exact absurd ⟨a, rfl⟩ hn
  | .error .execution, _, _ => rfl
  | .error (.other n), h, _ => exact absurd rfl (h n)

/-- **C140**, the checks of a script: `try_compile`, `try_link_lib`, `try_link_exe` and `try_run` answer whether it is possible, and do not
raise when a tool fails. -/
theorem C140_try (ho : OnlyFails t) (cf lf : List Text) (code : Text) :
    (∃ b, tryCompile t cf code = .ok b ∧ (b = true ↔ ∃ obj, t.compile cf code = .ok obj)) ∧
    (∃ b, tryLinkLib t cf lf code = .ok b ∧ (b = true ↔ ∃ lib, BuildsLib t cf lf code lib)) ∧
    (∃ b, tryLinkExe t cf lf code = .ok b ∧ (b = true ↔ ∃ exe, Builds t cf lf code exe)) ∧
    (∃ b, tryRun t cf lf code = .ok b ∧ (b = true ↔ Runs t cf lf code)) := by
  have key : ∀ {α : Type} (x : Except Err α) (P : Prop), (∀ n, x ≠ .error (.other n)) → ((∃ a, x = .ok a) ↔ P) →
      ∃ b, attempt x = .ok b ∧ (b = true ↔ P) := by
    intro α x P h1 h2
    by_cases hx : ∃ a, x = .ok a
    · exact ⟨true, attempt_true.2 hx, by simp [h2.1 hx]⟩
    · exact ⟨false, attempt_false h1 hx, by simpa using fun hp => hx (h2.2 hp)⟩
  refine ⟨key _ _ (ho.1 _ _) Iff.rfl, key _ _ (fun _ => tempLib_only t ho) ⟨?_, ?_⟩, key _ _ (fun _ => tempExe_only t ho) ⟨?_, ?_⟩,
    key _ _ (fun _ => tempRun_only t ho) ⟨?_, ?_⟩⟩
  · rintro ⟨a, h⟩; exact ⟨a, (tempLib_ok t).1 h⟩
  · rintro ⟨a, h⟩; exact ⟨a, (tempLib_ok t).2 h⟩
  · rintro ⟨a, h⟩; exact ⟨a, (tempExe_ok t).1 h⟩
  · rintro ⟨a, h⟩; exact ⟨a, (tempExe_ok t).2 h⟩
  · rintro ⟨out, h⟩
    obtain ⟨exe, h1, h2⟩ := (tempRun_ok t).1 h
    exact ⟨exe, out, h1, h2⟩
  · rintro ⟨exe, out, h1, h2⟩
    exact ⟨out, (tempRun_ok t).2 ⟨exe, h1, h2⟩⟩

/-- **C140**, the checks of a script: an exception that is not the failure of a tool is not taken for an answer but raised: exactly if one
of the tools raises it. -/
theorem C140_other (cf lf : List Text) (code : Text) (e : Err) :
    (tryCompile t cf code = .error e ↔ e ≠ .execution ∧ t.compile cf code = .error e) ∧
    (tryLinkLib t cf lf code = .error e ↔ e ≠ .execution ∧
      (t.compile cf code = .error e ∨ ∃ obj, t.compile cf code = .ok obj ∧ t.linkLib lf [obj] = .error e)) ∧
    (tryLinkExe t cf lf code = .error e ↔ e ≠ .execution ∧
      (t.compile cf code = .error e ∨ ∃ obj, t.compile cf code = .ok obj ∧ t.linkExe lf [obj] [] = .error e)) ∧
    (tryRun t cf lf code = .error e ↔ e ≠ .execution ∧
      (t.compile cf code = .error e ∨ ∃ obj, t.compile cf code = .ok obj ∧
        (t.linkExe lf [obj] [] = .error e ∨ ∃ exe, t.linkExe lf [obj] [] = .ok exe ∧ t.run exe = .error e))) := by
  have key : ∀ {α : Type} (x : Except Err α), attempt x = .error e ↔ e ≠ .execution ∧ x = .error e := by
    intro α x
    match x with
    | .ok a => simp [attempt]
    | .error .execution => simp only [attempt]; grind
    | .error (.other n) => simp only [attempt]; grind
  refine ⟨key _, (key _).trans (and_congr_right fun _ => ?_), (key _).trans (and_congr_right fun _ => ?_),
    (key _).trans (and_congr_right fun _ => ?_)⟩
  · unfold tempLib
    cases h : t.compile cf code with
    | error e' => simp
    | ok obj => simp
  · unfold tempExe
    cases h : t.compile cf code with
    | error e' => simp
    | ok obj => simp
  · unfold tempRun tempExe
    cases h : t.compile cf code with
    | error e' => simp
    | ok obj =>
      cases h2 : t.linkExe lf [obj] [] with
      | error e' => simp [h2]
      | ok exe => simp [h2]

theorem ompLoop_spec (ho : OnlyFails t) (code : Text) : ∀ cands : List (List Text),
    (∃ pre flags post, cands = pre ++ flags :: post ∧ ompLoop t code cands = .ok flags ∧ Runs t [] flags code ∧
      ∀ f ∈ pre, ¬ Runs t [] f code) ∨
    (ompLoop t code cands = .error .configFailed ∧ ∀ f ∈ cands, ¬ Runs t [] f code)
  | [] => .inr ⟨rfl, by simp⟩
  | f :: cands => by
    obtain ⟨b, hb, hr⟩ := (C140_try t ho [] f code).2.2.2
    rw [ompLoop, hb]
    cases b with
    | true => exact .inl ⟨[], f, cands, rfl, rfl, hr.1 rfl, by simp⟩
    | false =>
      have hn : ¬ Runs t [] f code := fun h => by cases hr.2 h
      simp only
      rcases ompLoop_spec ho code cands with ⟨pre, flags, post, rfl, h1, h2, h3⟩ | ⟨h1, h2⟩
      · refine .inl ⟨f :: pre, flags, post, rfl, h1, h2, ?_⟩
        intro g hg
        rcases List.mem_cons.1 hg with rfl | hg
        · exact hn
        · exact h3 g hg
      · refine .inr ⟨h1, ?_⟩
        intro g hg
        rcases List.mem_cons.1 hg with rfl | hg
        · exact hn
        · exact h2 g hg

/-- **C140**, OpenMP: the flags are the first of none, `-openmp`, `-fopenmp` and `/openmp` with which the program runs.  If there are none, or
the header is missing, there is a `ConfigFailed`. -/
theorem C140_openmp (ho : OnlyFails t) (header code : Text) :
    (∃ flags pre post, omp t header code = .ok flags ∧ [[], ["-openmp"], ["-fopenmp"], ["/openmp"]] = pre ++ flags :: post ∧
      (∃ obj, t.compile [] header = .ok obj) ∧ Runs t [] flags code ∧ ∀ f ∈ pre, ¬ Runs t [] f code) ∨
    (omp t header code = .error .configFailed ∧
      ((¬ ∃ obj, t.compile [] header = .ok obj) ∨ ∀ f ∈ [[], ["-openmp"], ["-fopenmp"], ["/openmp"]], ¬ Runs t [] f code)) := by
  obtain ⟨b, hb, hr⟩ := (C140_try t ho [] [] header).1
  unfold omp
  rw [hb]
  cases b with
  | false => exact .inr ⟨rfl, .inl fun h => by cases hr.2 h⟩
  | true =>
    simp only
    rcases ompLoop_spec t ho code [[], ["-openmp"], ["-fopenmp"], ["/openmp"]] with ⟨pre, flags, post, h0, h1, h2, h3⟩ | ⟨h1, h2⟩
    · exact .inl ⟨flags, pre, post, h1, h0, hr.1 rfl, h2, h3⟩
    · exact .inr ⟨h1, .inr h2⟩

/-! ## Cases -/

/-- the programs of the cases -/
def progs : Programs := ⟨"main", "lib", "libSrc", "exeSrc"⟩

/-- A compiler that works: an object, a library and a program are the texts they come from, and a program writes 5.  Programs that need
OpenMP can be linked only with `-fopenmp`. -/
def good : Tools Text Text Text where
  compile _ c := .ok c
  linkLib _ os := .ok (String.join os)
  linkExe f os ls := if "omp" ∈ os ∧ "-fopenmp" ∉ f then .error .execution else .ok (String.join (os ++ ls))
  run _ := .ok "5"

/-- one that cannot link with a library -/
def noLibs : Tools Text Text Text :=
  { good with linkExe := fun f os ls => if ls ≠ [] then .error .execution else good.linkExe f os ls }

theorem good_only : OnlyFails good := by
  refine ⟨fun _ _ _ h => (by cases h), fun _ _ _ h => (by cases h), fun f o l n h => ?_, fun _ _ h => (by cases h)⟩
  simp only [good] at h
  split at h <;> cases h

theorem noLibs_only : OnlyFails noLibs := by
  refine ⟨fun _ _ _ h => (by cases h), fun _ _ _ h => (by cases h), fun f o l n h => ?_, fun _ _ h => (by cases h)⟩
  simp only [noLibs] at h
  split at h
  · cases h
  · exact good_only.2.2.1 _ _ _ _ h

/-- `C140_works`, `C140_openmp` -/
example : Works good false progs ∧ omp good "header" "omp" = .ok ["-fopenmp"] :=
  ⟨(C140_works good false progs).1 (by rfl), by rfl⟩

/-- `C140_refused_partial`: a program that writes something else -/
example : construct { good with run := fun _ => .ok "6" } false progs = .error .configFailed := rfl

/-- **C140** is false for guessing: clang cannot link with libraries, gcc works, but the error ends the search for a compiler. -/
theorem C140_guess_violated :
    (∃ b, construct good false progs = .ok b) ∧
    (Guess.search Guess.guessC (K := Unit) (fun _ k => .ok k)
      (fun f _ _ => construct (if f = "fbuild.builders.c.clang.static" then noLibs else good) false progs)
      ["posix", "linux", "gcc", "clang", "msvc", "icc"] ⟨some (), none⟩ Guess.guessC.functions).toOption.isNone = true := by
  refine ⟨⟨(), by rfl⟩, by decide +kernel⟩

end Verif.Checks.Builder
