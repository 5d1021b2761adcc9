import Verif.Builders.Made
/-!
# Compilers besides gcc that were made accept their options

C164.
-/
namespace Verif.Made

/-! ## Specification -/

/-- the program takes a command or refuses it for its words, wherever and however often they are written -/
def ByWords (run : List Text → Except Err Unit) : Prop := ∀ c c', (∀ w, w ∈ c ↔ w ∈ c') → run c = run c'

/-- the call of the program succeeds -/
def Accepts (run : List Text → Except Err Unit) (cmd : Option (List Text)) : Prop := ∃ c, cmd = some c ∧ run c = .ok ()

/-- the program never ends otherwise than by an exit status -/
def OnlyStatus (run : List Text → Except Err Unit) : Prop := ∀ c n, run c ≠ .error (.other n)

/-! ## Proofs -/

theorem require_ok (run : List Text → Except Err Unit) (asked : Bool) (cmd : Option (List Text)) (rest : Except Exc Unit) :
    require run asked cmd rest = .ok () ↔ (asked = true → Accepts run cmd) ∧ rest = .ok () := by
  unfold require check Accepts
  cases asked with
  | false => simp
  | true =>
    cases cmd with
    | none => simp
    | some c =>
      cases h : run c with
      | ok u => simp [h]
      | error e => cases e <;> simp [h]

theorem require_refused (run : List Text → Except Err Unit) (hs : OnlyStatus run) (asked : Bool) (cmd : Option (List Text))
    (hc : cmd.isSome = true) (rest : Except Exc Unit) (hr : rest = .ok () ∨ rest = .error .configFailed) :
    require run asked cmd rest = .ok () ∨ require run asked cmd rest = .error .configFailed := by
  obtain ⟨cmd, rfl⟩ := Option.isSome_iff_exists.1 hc
  unfold require check
  cases asked with
  | false => exact hr
  | true =>
    cases h : run cmd with
    | ok u => simpa [h] using hr
    | error e =>
      cases e with
      | status => right; simp [h]
      | other n => exact absurd h (hs cmd n)

theorem mem_dedup (xs new : List Text) (x : Text) : x ∈ Gcc.dedup xs new ↔ x ∈ xs ∨ x ∈ new := by
  induction xs generalizing new with
  | nil => simp [Gcc.dedup]
  | cons y ys ih =>
    rw [Gcc.dedup]
    split <;> rw [ih] <;> grind

theorem mem_newFlags (xs new : List Text) (x : Text) : x ∈ Small.newFlags xs new ↔ x ∈ xs ∨ x ∈ new := by
  induction xs generalizing new with
  | nil => simp [Small.newFlags]
  | cons y ys ih =>
    rw [Small.newFlags, ih]
    split <;> grind

theorem accepts_words {run : List Text → Except Err Unit} (hw : ByWords run) {c c' : List Text} (h : ∀ w, w ∈ c ↔ w ∈ c')
    (ha : Accepts run (some c)) : Accepts run (some c') := by
  obtain ⟨d, hd, hr⟩ := ha
  cases hd
  exact ⟨c', rfl, (hw c c' h) ▸ hr⟩

theorem cl_words (b : Msvc.Cl) (src : Text) : ∃ R : Text → Prop, ∀ flags debug optimize w,
    w ∈ b.command [src] none [] { flags := flags, debug := debug, optimize := optimize } ↔
      R w ∨ (Gcc.asked b.debug debug = true ∧ w ∈ b.debugFlags) ∨ (Gcc.asked b.optimize optimize = true ∧ w ∈ b.optimizeFlags) ∨
        w ∈ b.flags ∨ w ∈ flags := by
  have hif : ∀ (p : Bool) (l : List Text) (w : Text), (w ∈ if p = true then l else []) ↔ p = true ∧ w ∈ l := by
    intro p l w
    cases p <;> simp
  refine ⟨fun w => w ∈ [b.exe, "/nologo".toList] ∨ w ∈ b.preFlags ∨ (w ∈ ((Gcc.sorted Gcc.leText (Gcc.dedup (b.includes ++ [] ++
      (if true then [src].map (fun s => (Posix.split s).1) else [])) [])).filter (· ≠ [])).map ("/I".toList ++ ·)) ∨
    (w ∈ (Gcc.sortedSet [] b.macros).map ("/D".toList ++ ·)) ∨ (w ∈ (Gcc.sortedSet [] b.warnings).map ("/W".toList ++ ·)) ∨ w ∈ [src], ?_⟩
  intro flags debug optimize w
  unfold Msvc.Cl.command
  simp only [List.mem_append, mem_dedup, hif, List.not_mem_nil, or_false]
  generalize (w ∈ List.map _ _) = p1
  generalize (w ∈ List.map _ (Gcc.sortedSet [] b.macros)) = p2
  generalize (w ∈ List.map _ (Gcc.sortedSet [] b.warnings)) = p3
  generalize (w ∈ [b.exe, _]) = p4
  generalize (w ∈ [src]) = p5
  generalize (w ∈ b.flags) = p6
  generalize (w ∈ flags) = p7
  generalize (w ∈ b.preFlags) = p8
  generalize (w ∈ b.debugFlags) = p9
  generalize (w ∈ b.optimizeFlags) = p10
  grind

/-- **C164**, Visual C: a compiler that was made accepts the call without options, and those that ask for debugging or for optimizing.
Partial: it may be refused for flags that nobody asks for (`C164_unasked_violated`). -/
theorem C164_cl_partial (run : List Text → Except Err Unit) (hw : ByWords run) (src : Text) (b : Msvc.Cl) (h : makeCl run src b = .ok ()) :
    Accepts run (some (b.command [src] none [] {})) ∧
    Accepts run (some (b.command [src] none [] { debug := some true })) ∧
    Accepts run (some (b.command [src] none [] { optimize := some true })) := by
  unfold makeCl at h
  rw [require_ok, require_ok, require_ok] at h
  obtain ⟨h1, h2, h3, -⟩ := h
  obtain ⟨R, hR⟩ := cl_words b src
  have e : ∀ o, Gcc.asked o (some true) = true := by simp [Gcc.asked]
  have a1 : Accepts run (some (b.command [src] none [] {})) := by
    refine accepts_words hw ?_ (h1 rfl)
    intro w
    have e1 := hR b.flags none none w
    have e2 := hR [] none none w
    rw [e1, e2]
    simp
  refine ⟨a1, ?_, ?_⟩
  · by_cases hd : b.debugFlags = []
    · refine accepts_words hw ?_ a1
      intro w
      have e1 := hR [] none none w
      have e2 := hR [] (some true) none w
      rw [e1, e2]
      simp [hd]
    · refine accepts_words hw ?_ (h2 (by simpa using hd))
      intro w
      have e1 := hR b.debugFlags none none w
      have e2 := hR [] (some true) none w
      rw [e1, e2]
      simp only [e, true_and, List.not_mem_nil, or_false]
      grind
  · by_cases hd : b.optimizeFlags = []
    · refine accepts_words hw ?_ a1
      intro w
      have e1 := hR [] none none w
      have e2 := hR [] none (some true) w
      rw [e1, e2]
      simp [hd]
    · refine accepts_words hw ?_ (h3 (by simpa using hd))
      intro w
      have e1 := hR b.optimizeFlags none none w
      have e2 := hR [] none (some true) w
      rw [e1, e2]
      simp only [e, true_and, List.not_mem_nil, or_false]
      grind

/-- **C164**, Visual C: the flags of the compiler of a builder are checked beside all others; the compiler is made exactly if they are
accepted or if there are none. -/
theorem C164_flags (run : List Text → Except Err Unit) (src : Text) (b : Msvc.Cl) (flags : List Text) :
    makeClCompiler run src b flags = .ok () ↔ (flags ≠ [] → Accepts run (some (b.command [src] none [] { flags := flags }))) := by
  unfold makeClCompiler clCommand
  rw [require_ok]
  simp

/-- **C164**, Haskell: a compiler is made exactly if a call without further flags succeeds. -/
theorem C164_ghc (run : List Text → Except Err Unit) (hw : ByWords run) (src exe : Text) (own : List Text) :
    makeGhc run src exe own = .ok () ↔ Accepts run (some (Small.ghc exe own [] [] none none "test".toList [src])) := by
  unfold makeGhc
  rw [require_ok]
  have e : ∀ w, w ∈ Small.ghc exe own [] own none none "test".toList [src] ↔ w ∈ Small.ghc exe own [] [] none none "test".toList [src] := by
    intro w
    simp only [Small.ghc, List.mem_append, mem_newFlags]
    grind
  constructor
  · intro h
    exact accepts_words hw e (h.1 rfl)
  · intro h
    exact ⟨fun _ => accepts_words hw (fun w => (e w).symm) h, rfl⟩

theorem java_default (run : List Text → Except Err Unit) (hw : ByWords run) (src : Text) (c : Java.Compiler)
    (h1 : Accepts run (Java.runJava c {} none [src]))
    (h2 : c.debugFlags ≠ [] → Accepts run (Java.runJava c { flags := c.debugFlags } none [src])) :
    Accepts run (Java.runJava c { debug := some true } none [src]) := by
  by_cases hd : c.debugFlags = []
  · refine accepts_words hw ?_ h1
    intro w
    simp [Java.javac, hd]
  · refine accepts_words hw ?_ (h2 hd)
    intro w
    have e : Java.wanted (some true) c.debug = true := by simp [Java.wanted]
    simp only [Java.javac, List.mem_append, e, if_true]
    cases Java.wanted none c.debug <;> simp <;> grind

/-- **C164**, Java: a compiler that was made accepts the call without options, and that which asks for debugging.  Partial: as above. -/
theorem C164_java_partial (run : List Text → Except Err Unit) (hw : ByWords run) (src : Text) (c : Java.Compiler)
    (h : makeJavac run src c = .ok ()) :
    Accepts run (Java.runJava c {} none [src]) ∧ Accepts run (Java.runJava c { debug := some true } none [src]) := by
  unfold makeJavac makeJava at h
  rw [require_ok, require_ok] at h
  obtain ⟨h1, h2, -⟩ := h
  exact ⟨h1 rfl, java_default run hw src c (h1 rfl) fun hd => h2 (by simpa using hd)⟩

/-- **C164**, Scala: a compiler that was made accepts the call without options, and those that ask for debugging or for optimizing.
Partial: as above. -/
theorem C164_scala_partial (run : List Text → Except Err Unit) (hw : ByWords run) (src : Text) (c : Java.Compiler)
    (h : makeScala run src c = .ok ()) :
    Accepts run (Java.runScala c {} none [src]) ∧
    Accepts run (Java.runScala c { debug := some true } none [src]) ∧
    Accepts run (Java.runScala c { optimize := some true } none [src]) := by
  unfold makeScala makeJava at h
  rw [require_ok, require_ok, require_ok] at h
  obtain ⟨h1, h2, h3, -⟩ := h
  refine ⟨h1 rfl, ?_, ?_⟩
  · by_cases hd : c.debugFlags = []
    · refine accepts_words hw ?_ (h1 rfl)
      intro w
      simp [Java.javac, hd]
    · refine accepts_words hw ?_ (h2 (by simpa using hd))
      intro w
      have e : Java.wanted (some true) c.debug = true := by simp [Java.wanted]
      simp only [Java.javac, List.mem_append, e, if_true]
      cases Java.wanted none c.debug <;> cases Java.wanted none c.optimize <;> simp <;> grind
  · by_cases hd : c.optimizeFlags = []
    · refine accepts_words hw ?_ (h1 rfl)
      intro w
      simp [Java.javac, hd]
    · refine accepts_words hw ?_ (h3 (by simpa using hd))
      intro w
      have e : Java.wanted (some true) c.optimize = true := by simp [Java.wanted]
      simp only [Java.javac, List.mem_append, e, if_true]
      cases Java.wanted none c.debug <;> cases Java.wanted none c.optimize <;> simp

/-- **C164**: if the programs only fail by an exit status, then all that is raised is `ConfigFailed`. -/
theorem C164_refused (run : List Text → Except Err Unit) (hs : OnlyStatus run) (src : Text) :
    (∀ b, makeCl run src b = .ok () ∨ makeCl run src b = .error .configFailed) ∧
    (∀ b flags, makeClCompiler run src b flags = .ok () ∨ makeClCompiler run src b flags = .error .configFailed) ∧
    (∀ exe own, makeGhc run src exe own = .ok () ∨ makeGhc run src exe own = .error .configFailed) ∧
    (∀ c, makeJavac run src c = .ok () ∨ makeJavac run src c = .error .configFailed) ∧
    (∀ c, makeScala run src c = .ok () ∨ makeScala run src c = .error .configFailed) := by
  refine ⟨?_, ?_, ?_, ?_, ?_⟩
  · exact fun b => require_refused run hs _ _ rfl _ (require_refused run hs _ _ rfl _ (require_refused run hs _ _ rfl _ (.inl rfl)))
  · exact fun b flags => require_refused run hs _ _ rfl _ (.inl rfl)
  · exact fun exe own => require_refused run hs _ _ rfl _ (.inl rfl)
  · intro c
    unfold makeJavac makeJava
    exact require_refused run hs _ _ rfl _ (require_refused run hs _ _ rfl _ (.inl rfl))
  · intro c
    unfold makeScala makeJava
    exact require_refused run hs _ _ rfl _ (require_refused run hs _ _ rfl _ (require_refused run hs _ _ rfl _ (.inl rfl)))

/-- **C164**: a program that cannot be called at all is not taken for one that refuses its flags: its exception is passed on. -/
theorem C164_other (run : List Text → Except Err Unit) (n : Nat) (h : ∀ c, run c = .error (.other n)) (src : Text) :
    (∀ b, makeCl run src b = .error (.other n)) ∧
    (∀ b flags, flags ≠ [] → makeClCompiler run src b flags = .error (.other n)) ∧
    (∀ exe own, makeGhc run src exe own = .error (.other n)) := by
  refine ⟨?_, ?_, ?_⟩
  · intro b
    simp [makeCl, clCommand, require, check, h]
  · intro b flags hf
    simp [makeClCompiler, clCommand, require, check, h, hf]
  · intro exe own
    simp [makeGhc, require, check, h]

/-- `C164_other` -/
example : makeGhc (fun _ => .error (.other 2)) "t.hs".toList "ghc".toList [] = .error (.other 2) :=
  (C164_other _ 2 (fun _ => rfl) _).2.2 _ _

/-- **C164** is false for Felix: a compiler that always fails is made. -/
theorem C164_felix_violated (run : List Text → Except Err Unit) (src : Text) (ex : Text → Bool) (f : Small.Flx)
    (h : ∀ c, run c = .error .status) :
    makeFlx run src ex f = .ok () ∧ ∀ src includes debug static stdout flags,
      ¬ Accepts run (some (Small.flx ex f src includes debug static stdout flags)) := by
  constructor
  · simp [makeFlx, check, h]
  · rintro src includes debug static stdout flags ⟨c, -, hc⟩
    rw [h] at hc
    cases hc

/-! ## Programs that refuse some words -/

/-- a program that does not know these words -/
def knows (unknown cmd : List Text) : Except Err Unit := if cmd.any (· ∈ unknown) then .error .status else .ok ()

theorem knows_words (unknown : List Text) : ByWords (knows unknown) := by
  intro c c' h
  have : c.any (· ∈ unknown) = c'.any (· ∈ unknown) := by
    rw [Bool.eq_iff_iff, List.any_eq_true, List.any_eq_true]
    simp only [h]
  unfold knows
  rw [this]

theorem knows_status (unknown : List Text) : OnlyStatus (knows unknown) := by
  intro c n h
  unfold knows at h
  split at h <;> cases h

/-- **C164** is false for flags that nobody asks for: a Java compiler without `-g`, one of Scala without `-optimise`, and one of Visual C
without `/Zi` are refused, although they accept the call without options, which asks for none of them. -/
theorem C164_unasked_violated :
    (let c : Java.Compiler := { exe := "javac".toList, debugFlags := ["-g".toList] }
     let run := knows ["-g".toList]
     makeJavac run "t.java".toList c = .error .configFailed ∧ Accepts run (Java.runJava c {} none ["t.java".toList])) ∧
    (let c : Java.Compiler := { exe := "scalac".toList, debugFlags := ["-g:vars".toList], optimizeFlags := ["-optimise".toList] }
     let run := knows ["-optimise".toList]
     makeScala run "t.scala".toList c = .error .configFailed ∧ Accepts run (Java.runScala c {} none ["t.scala".toList])) ∧
    (let b : Msvc.Cl := { exe := "cl".toList }
     let run := knows ["/Zi".toList]
     makeCl run "t.c".toList b = .error .configFailed ∧ Accepts run (some (b.command ["t.c".toList] none [] {}))) := by
  refine ⟨⟨?_, ⟨["javac".toList, "t.java".toList], by decide +kernel, ?_⟩⟩, ⟨?_, ⟨["scalac".toList, "t.scala".toList], by decide +kernel, ?_⟩⟩,
    ⟨?_, ⟨["cl".toList, "/nologo".toList, "t.c".toList], by decide +kernel, ?_⟩⟩⟩
  · rcases (C164_refused _ (knows_status ["-g".toList]) "t.java".toList).2.2.2.1 { exe := "javac".toList, debugFlags := ["-g".toList] }
      with h | h
    · obtain ⟨-, c, hc, hr⟩ := C164_java_partial _ (knows_words _) _ _ h
      cases hc
      exact nomatch (show (Except.error Err.status : Except Err Unit) = .ok () from hr)
    · exact h
  · rfl
  · rcases (C164_refused _ (knows_status ["-optimise".toList]) "t.scala".toList).2.2.2.2
      { exe := "scalac".toList, debugFlags := ["-g:vars".toList], optimizeFlags := ["-optimise".toList] } with h | h
    · obtain ⟨-, -, c, hc, hr⟩ := C164_scala_partial _ (knows_words _) _ _ h
      cases hc
      exact nomatch (show (Except.error Err.status : Except Err Unit) = .ok () from hr)
    · exact h
  · rfl
  · rcases (C164_refused _ (knows_status ["/Zi".toList]) "t.c".toList).1 { exe := "cl".toList } with h | h
    · obtain ⟨-, ⟨c, hc, hr⟩, -⟩ := C164_cl_partial _ (knows_words _) _ _ h
      cases hc
      exact nomatch (show (Except.error Err.status : Except Err Unit) = .ok () from hr)
    · exact h
  · rfl

/-- hypotheses met: compilers that know all but one word are made -/
example : makeCl (knows ["/bad".toList]) "t.c".toList { exe := "cl".toList, debug := some true } = .ok () ∧
    makeJavac (knows ["/bad".toList]) "t.java".toList { exe := "javac".toList, debugFlags := ["-g".toList], flags := ["-Xlint".toList] } =
      .ok () ∧
    makeScala (knows ["/bad".toList]) "t.scala".toList { exe := "scalac".toList, optimizeFlags := ["-optimise".toList] } = .ok () ∧
    makeGhc (knows ["/bad".toList]) "t.hs".toList "ghc".toList ["-O".toList] = .ok () := ⟨rfl, rfl, rfl, rfl⟩

end Verif.Made
