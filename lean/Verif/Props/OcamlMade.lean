import Verif.Ocaml.Made
import Verif.Props.BuilderChecks
import Verif.Props.Versions
/-!
# OCaml builders that were made work (C159)
-/
namespace Verif.Ocaml.Made
open Verif.Checks.Builder (Tools Err Builds BuildsLib BuildsWith OnlyFails)
open Verif.Checks.Builder (tempLib_ok tempExe_ok linked_ok tempLib_only tempExe_only linked_only)
open Verif.Builders (Requires Earlier dotted)

variable {Obj Lib Exe : Type}

/-! ## Specification -/

/-- the version that is required, by its numbers -/
structure Need where
  exactly : Option (List Int) := none
  atLeast : Option (List Int) := none
  atMost : Option (List Int) := none

def Need.requires (n : Need) : Requires := ⟨n.exactly.map (·.map .num), n.atLeast.map (·.map .num), n.atMost.map (·.map .num)⟩

/-- a version is as required -/
def Need.holds (n : Need) (v : List Int) : Prop :=
  (∀ r, n.exactly = some r → v = r) ∧ (∀ r, n.atLeast = some r → ¬ Earlier v r) ∧ (∀ r, n.atMost = some r → ¬ Earlier r v)

/-- The programs print their version: `v e` are its numbers, which are read back from their digits. -/
def Prints (w : World Obj Lib Exe) (v : Text → List Int) : Prop :=
  (∃ digit, Versions.Known w.space digit ∧
    ∀ e, ∃ ps, ps ≠ [] ∧ (∀ p ∈ ps, p ≠ [] ∧ ∀ c ∈ p, digit c = true ∧ c ≠ '.') ∧ ps.map w.int = (v e).map some ∧
      w.version e = .ok (dotted ps ++ ['\n']))

/-- The compiler makes objects, libraries and programs from an empty source, and a program with a library that writes its number. -/
def Works (t : Tools Obj Lib Exe) : Prop :=
  (∃ lib, BuildsLib t [] [] "" lib) ∧ (∃ exe, Builds t [] [] "" exe) ∧
  ∃ exe, BuildsWith t "let x = 5;;\n" "print_int Lib.x;;\n" exe ∧ t.run exe = .ok "5"

/-- the program that is found: the one that is given, or else one of the usual names -/
def Found (w : World Obj Lib Exe) (given : Option Text) (usual : List Text) (e : Text) : Prop :=
  (∀ g, given = some g → g ≠ [] → w.find [g] = some e) ∧ (given = none ∨ given = some [] → w.find usual = some e)

/-- the dependencies are found by the `ocamldep` that is given, or else by the usual one -/
def FoundDep (w : World Obj Lib Exe) (given : Option Text) (d : Text) : Prop :=
  given = some d ∨ (given = none ∧ w.find ["ocamldep.opt".toList, "ocamldep".toList] = some d)

/-! ## Proofs -/

theorem after_ok {A B : Type} {x : Except Exc A} {f : A → Except Exc B} {b : B} :
    after x f = .ok b ↔ ∃ a, x = .ok a ∧ f a = .ok b := by
  unfold after
  cases x <;> simp

theorem after_error {A B : Type} {x : Except Exc A} {f : A → Except Exc B} {e : Exc}
    (h : after x f = .error e) : x = .error e ∨ ∃ a, x = .ok a ∧ f a = .error e := by
  unfold after at h
  cases x with
  | error e' => cases h; exact .inl rfl
  | ok a => exact .inr ⟨a, rfl, h⟩

theorem demand_ok {α : Type} {x : Except Err α} : demand (Checks.Builder.attempt x) = .ok () ↔ ∃ a, x = .ok a := by
  match x with
  | .ok a => simp [Checks.Builder.attempt, demand]
  | .error .execution => simp [Checks.Builder.attempt, demand]
  | .error (.other n) => simp [Checks.Builder.attempt, demand]

theorem demand_error {α : Type} {x : Except Err α} {e : Exc} (h : demand (Checks.Builder.attempt x) = .error e)
    (ho : ∀ n, x ≠ .error (.other n)) : e = .configFailed := by
  match x with
  | .ok a => simp [Checks.Builder.attempt, demand] at h
  | .error .execution => simp [Checks.Builder.attempt, demand] at h; exact h.symm
  | .error (.other n) => exact absurd rfl (ho n)

theorem last_ok (t : Tools Obj Lib Exe) :
    lastCheck t = .ok () ↔ ∃ exe, BuildsWith t "let x = 5;;\n" "print_int Lib.x;;\n" exe ∧ t.run exe = .ok "5" := by
  unfold lastCheck
  have hl := fun exe => linked_ok t (p := programs) (exe := exe)
  simp only [show programs.libSrc = "let x = 5;;\n" from rfl, show programs.exeSrc = "print_int Lib.x;;\n" from rfl] at hl
  simp only [← hl]
  cases h : Checks.Builder.linked t programs with
  | error e => simp
  | ok exe =>
    simp only [Except.ok.injEq, exists_eq_left']
    match hr : t.run exe with
    | .ok out => by_cases h5 : out = "5" <;> simp [h5]
    | .error .execution => simp
    | .error (.other n) => simp

variable {w : World Obj Lib Exe}

theorem version_cases {v : Text → List Int} (hp : Prints w v) (n : Need) (e : Text) :
    (checkVersion w n.requires e = .ok () ∧ n.holds (v e)) ∨ (checkVersion w n.requires e = .error .configFailed ∧ ¬ n.holds (v e)) := by
  obtain ⟨digit, hk, hp⟩ := hp
  obtain ⟨ps, hne, hd, hv, hw⟩ := hp e
  have hc := Versions.C143_partial w.space digit hk w.int w.less .other ps (v e) (dotted ps ++ ['\n']) hne hd hv rfl
    n.exactly n.atLeast n.atMost _ rfl
  unfold checkVersion
  by_cases hq : (n.requires.exactly.isNone && n.requires.atLeast.isNone && n.requires.atMost.isNone) = true
  · rw [if_pos hq]
    refine .inl ⟨rfl, ?_⟩
    simp only [Need.requires, Option.isNone_map, Bool.and_eq_true, Option.isNone_iff_eq_none] at hq
    obtain ⟨⟨h1, h2⟩, h3⟩ := hq
    simp [Need.holds, h1, h2, h3]
  · rw [if_neg hq, hw]
    dsimp only
    unfold Need.holds
    revert hc
    simp only [Versions.Tool.found, Need.requires]
    generalize Versions.check w.int w.less _ (Versions.plain w.space (dotted ps ++ ['\n'])) = o
    intro ⟨h1, h2⟩
    by_cases ho : o = .ok
    · refine .inl ⟨by rw [ho], h1.1 ho⟩
    · refine .inr ⟨by rw [h2 ho], fun h => ho (h1.2 h)⟩

theorem checks_ok {v : Text → List Int} (hp : Prints w v) (n : Need) (e : Text) :
    checks w n.requires e = .ok () ↔ n.holds (v e) ∧ Works (w.tools e) := by
  unfold checks
  simp only [after_ok, Checks.Builder.tryCompile, Checks.Builder.tryLinkLib, Checks.Builder.tryLinkExe]
  have hv : checkVersion w n.requires e = .ok () ↔ n.holds (v e) := by
    rcases version_cases hp n e with ⟨h1, h2⟩ | ⟨h1, h2⟩ <;> simp [h1, h2]
  constructor
  · rintro ⟨_, h0, _, _, _, h2, _, h3, h4⟩
    obtain ⟨lib, h2⟩ := demand_ok.1 h2
    obtain ⟨exe, h3⟩ := demand_ok.1 h3
    exact ⟨hv.1 h0, ⟨lib, (tempLib_ok _).1 h2⟩, ⟨exe, (tempExe_ok _).1 h3⟩, (last_ok _).1 h4⟩
  · rintro ⟨h0, ⟨lib, h2⟩, ⟨exe, obj, hc, hx⟩, h4⟩
    exact ⟨(), hv.2 h0, (), demand_ok.2 ⟨obj, hc⟩, (), demand_ok.2 ⟨lib, (tempLib_ok _).2 h2⟩, (),
      demand_ok.2 ⟨exe, (tempExe_ok _).2 ⟨obj, hc, hx⟩⟩, (last_ok _).2 h4⟩

theorem look_ok {g : Option Text} {names : List Text} {e : Text} : lookFor w g names = .ok e ↔ Found w g names e := by
  unfold lookFor Found
  match g with
  | none => cases h : w.find names <;> simp
  | some [] => cases h : w.find names <;> simp
  | some (c :: r) => cases h : w.find [c :: r] <;> simp [h]

theorem dep_ok {g : Option Text} {d : Text} : depOf w g = .ok d ↔ FoundDep w g d := by
  unfold depOf FoundDep
  cases g with
  | none =>
    rw [look_ok]
    simp [Found]
  | some d' => simp

theorem builder_ok {v : Text → List Int} (hp : Prints w v) (n : Need) {names : List Text} {g dep : Option Text} {c : Compiler} :
    builder w names n.requires g dep = .ok c ↔
      Found w g names c.exe ∧ FoundDep w dep c.dep ∧ n.holds (v c.exe) ∧ Works (w.tools c.exe) := by
  unfold builder
  simp only [after_ok, look_ok, dep_ok]
  constructor
  · rintro ⟨e, h1, d, h2, _, h3, h4⟩
    cases h4
    exact ⟨h1, h2, (checks_ok hp n e).1 h3⟩
  · rintro ⟨h1, h2, h3⟩
    exact ⟨c.exe, h1, c.dep, h2, (), (checks_ok hp n _).2 h3, rfl⟩

/-! ## C159 -/

/-- what can be said of a compiler that was made -/
def Good (w : World Obj Lib Exe) (v : Text → List Int) (n : Need) (given : Option Text) (usual : List Text) (dep : Option Text) (c : Compiler) :
    Prop :=
  Found w given usual c.exe ∧ FoundDep w dep c.dep ∧ n.holds (v c.exe) ∧ Works (w.tools c.exe)

/-- **C159**: a bytecode compiler is made exactly if it is found, has the version that is required, and works. -/
theorem C159_bytecode {v : Text → List Int} (hp : Prints w v) (n : Need) (g dep : Option Text) (c : Compiler) :
    ocamlc w n.requires g dep = .ok c ↔ Good w v n g ["ocamlc.opt".toList, "ocamlc".toList] dep c :=
  builder_ok hp n

/-- **C159**: a native compiler is made exactly if it is found, has the version that is required, and works, and its bytecode compiler, which
is the one that is given or the usual one, works too. -/
theorem C159_native {v : Text → List Int} (hp : Prints w v) (n : Need) (g dep : Option Text) (given : Option Compiler) (o : Native) :
    ocamlopt w n.requires g dep given = .ok o ↔
      Good w v n g ["ocamlopt.opt".toList, "ocamlopt".toList] dep o.own ∧
      (given = some o.ocamlc ∨ (given = none ∧ Good w v {} none ["ocamlc.opt".toList, "ocamlc".toList] dep o.ocamlc)) := by
  unfold ocamlopt
  simp only [after_ok, builder_ok hp]
  have hc : ∀ c, (match given with | some c => .ok c | none => ocamlc w ⟨none, none, none⟩ none dep : Except Exc Compiler) = .ok c ↔
      (given = some c ∨ (given = none ∧ Good w v {} none ["ocamlc.opt".toList, "ocamlc".toList] dep c)) := by
    intro c
    cases given with
    | some c' => simp
    | none =>
      have := C159_bytecode hp {} none dep c
      exact ⟨fun h => .inr ⟨rfl, this.1 h⟩, fun h => this.2 (h.elim (fun h => by cases h) (·.2))⟩
  constructor
  · rintro ⟨c, h1, o', h2, h3⟩
    cases h3
    exact ⟨h2, (hc _).1 h1⟩
  · rintro ⟨h1, h2⟩
    exact ⟨o.ocamlc, (hc _).2 h2, o.own, h1, rfl⟩

/-- **C159**: a builder for bytecode and native code is made exactly if all its programs are found, have the version that is required, and
work; interfaces are compiled by its own bytecode compiler, and all use the same `ocamldep`. -/
theorem C159_both {v : Text → List Int} (hp : Prints w v) (n : Need) (g : Given) (dep : Option Text) (b : Both) :
    ocaml w n.requires g dep = .ok b ↔
      FoundDep w dep b.dep ∧
      Good w v n g.ocamlc ["ocamlc.opt".toList, "ocamlc".toList] dep b.ocamlc ∧
      Good w v n g.ocamlcp ["ocamlcp.opt".toList, "ocamlcp".toList] dep b.ocamlcp ∧
      Good w v n g.ocamlopt ["ocamlopt.opt".toList, "ocamlopt".toList] dep b.ocamlopt.own ∧
      b.ocamlopt.ocamlc = b.ocamlc ∧ b.ocamlc.dep = b.dep ∧ b.ocamlcp.dep = b.dep ∧ b.ocamlopt.own.dep = b.dep := by
  have same : ∀ {d d'}, FoundDep w dep d → FoundDep w dep d' → d = d' := by
    rintro d d' (h | ⟨h, h1⟩) (h' | ⟨h', h1'⟩)
    · rw [h] at h'; exact Option.some.inj h'
    · rw [h] at h'; cases h'
    · rw [h] at h'; cases h'
    · rw [h1] at h1'; exact Option.some.inj h1'
  unfold ocaml
  simp only [after_ok, dep_ok]
  constructor
  · rintro ⟨d, hd, c, hc, cp, hcp, o, ho, h⟩
    cases h
    have hc := (C159_bytecode hp n _ _ _).1 hc
    have hcp : Good w v n g.ocamlcp _ dep cp := (builder_ok hp n).1 hcp
    obtain ⟨h1, h2⟩ := (C159_native hp n _ _ _ _).1 ho
    obtain ⟨f1, f2, f3⟩ := h1
    have hdo : o.own.dep = d := by
      rcases f2 with h | ⟨h, _⟩
      · exact (Option.some.inj h).symm
      · cases h
    have hoc : o.ocamlc = c := by
      rcases h2 with h | ⟨h, _⟩
      · exact (Option.some.inj h).symm
      · cases h
    exact ⟨hd, hc, hcp, ⟨f1, hdo ▸ hd, f3⟩, hoc, same hc.2.1 hd, same hcp.2.1 hd, hdo⟩
  · rintro ⟨hd, hc, hcp, ho, h1, h2, h3, h4⟩
    refine ⟨b.dep, hd, b.ocamlc, (C159_bytecode hp n _ _ _).2 hc, b.ocamlcp, (builder_ok hp n).2 hcp, b.ocamlopt,
      (C159_native hp n _ _ _ _).2 ⟨⟨ho.1, .inl (by rw [h4]), ho.2.2⟩, .inl (by rw [h1])⟩, rfl⟩

theorem checks_error {v : Text → List Int} (hp : Prints w v) (n : Need) {e : Text} {x : Exc} (ho : OnlyFails (w.tools e))
    (hl : ∃ exe, BuildsWith (w.tools e) "let x = 5;;\n" "print_int Lib.x;;\n" exe) (h : checks w n.requires e = .error x) :
    x = .configFailed := by
  unfold checks at h
  rcases after_error h with h | ⟨_, _, h⟩
  · rcases version_cases hp n e with ⟨h1, _⟩ | ⟨h1, _⟩
    · rw [h1] at h; cases h
    · rw [h1] at h; cases h; rfl
  rcases after_error h with h | ⟨_, _, h⟩
  · exact demand_error h (fun n => ho.1 _ _ n)
  rcases after_error h with h | ⟨_, _, h⟩
  · exact demand_error h (fun n => tempLib_only _ ho)
  rcases after_error h with h | ⟨_, _, h⟩
  · exact demand_error h (fun n => tempExe_only _ ho)
  unfold lastCheck at h
  obtain ⟨exe, hl⟩ := hl
  rw [(linked_ok (w.tools e) (p := programs)).2 hl] at h
  dsimp only at h
  match hr : w.tools e |>.run exe with
  | .ok out =>
    rw [hr] at h
    dsimp only at h
    split at h
    · cases h; rfl
    · cases h
  | .error .execution => rw [hr] at h; cases h; rfl
  | .error (.other n) => exact absurd hr (ho.2.2.2 _ _)

theorem look_error {g : Option Text} {names : List Text} {x : Exc} (h : lookFor w g names = .error x) : x = .configFailed := by
  unfold lookFor at h
  split at h
  · cases h; rfl
  · cases h

theorem dep_error {g : Option Text} {x : Exc} (h : depOf w g = .error x) : x = .configFailed := by
  unfold depOf at h
  split at h
  · cases h
  · exact look_error h

theorem builder_error {v : Text → List Int} (hp : Prints w v) (n : Need) (ho : ∀ e, OnlyFails (w.tools e))
    (hl : ∀ e, ∃ exe, BuildsWith (w.tools e) "let x = 5;;\n" "print_int Lib.x;;\n" exe) {names : List Text} {g dep : Option Text} {x : Exc}
    (h : builder w names n.requires g dep = .error x) : x = .configFailed := by
  unfold builder at h
  rcases after_error h with h | ⟨_, _, h⟩
  · exact look_error h
  rcases after_error h with h | ⟨_, _, h⟩
  · exact dep_error h
  rcases after_error h with h | ⟨_, _, h⟩
  · exact checks_error hp n (ho _) (hl _) h
  · cases h

/-- **C159**: if a builder cannot be made, `ConfigFailed` is raised.  Partial: the program and library of the last check can be compiled and
linked (`C159_link_violated`). -/
theorem C159_refused_partial {v : Text → List Int} (hp : Prints w v) (n : Need) (ho : ∀ e, OnlyFails (w.tools e))
    (hl : ∀ e, ∃ exe, BuildsWith (w.tools e) "let x = 5;;\n" "print_int Lib.x;;\n" exe) (g : Given) (dep : Option Text)
    (h : ¬ ∃ b, ocaml w n.requires g dep = .ok b) : ocaml w n.requires g dep = .error .configFailed := by
  match hx : ocaml w n.requires g dep with
  | .ok b => exact absurd ⟨b, hx⟩ h
  | .error x =>
    rw [show x = .configFailed from ?_]
    unfold ocaml at hx
    rcases after_error hx with h | ⟨_, _, h⟩
    · exact dep_error h
    rcases after_error h with h | ⟨_, _, h⟩
    · exact builder_error hp n ho hl h
    rcases after_error h with h | ⟨_, _, h⟩
    · exact builder_error hp n ho hl h
    rcases after_error h with h | ⟨_, _, h⟩
    · unfold ocamlopt at h
      rcases after_error h with h | ⟨_, _, h⟩
      · cases h
      rcases after_error h with h | ⟨_, _, h⟩
      · exact builder_error hp n ho hl h
      · cases h
    · cases h

/-- **C159** fails: a compiler that makes objects, libraries and programs, but not the program with a library, is refused by the exception of
the tool, not by `ConfigFailed`. -/
theorem C159_link_violated {v : Text → List Int} (hp : Prints w v) (n : Need) (g dep : Option Text) (e d : Text)
    (he : Found w g ["ocamlc.opt".toList, "ocamlc".toList] e) (hd : FoundDep w dep d) (hn : n.holds (v e)) (ho : OnlyFails (w.tools e))
    (h1 : ∃ lib, BuildsLib (w.tools e) [] [] "" lib) (h2 : ∃ exe, Builds (w.tools e) [] [] "" exe)
    (h3 : ¬ ∃ exe, BuildsWith (w.tools e) "let x = 5;;\n" "print_int Lib.x;;\n" exe) :
    ocamlc w n.requires g dep = .error .execution := by
  obtain ⟨exe, obj, hc, hx⟩ := h2
  have hv : checkVersion w n.requires e = .ok () := by
    rcases version_cases hp n e with ⟨h, _⟩ | ⟨_, h⟩
    · exact h
    · exact absurd hn h
  unfold ocamlc builder
  rw [look_ok.2 he, dep_ok.2 hd]
  simp only [after]
  unfold checks
  rw [hv]
  simp only [after, Checks.Builder.tryCompile, Checks.Builder.tryLinkLib, Checks.Builder.tryLinkExe]
  have d1 := demand_ok.2 ⟨obj, hc⟩
  have d2 : demand (Checks.Builder.attempt (Checks.Builder.tempLib (w.tools e) [] [] "")) = .ok () :=
    demand_ok.2 (h1.imp fun _ h => (tempLib_ok _).2 h)
  have d3 : demand (Checks.Builder.attempt (Checks.Builder.tempExe (w.tools e) [] [] "")) = .ok () :=
    demand_ok.2 ⟨exe, (tempExe_ok _).2 ⟨obj, hc, hx⟩⟩
  simp only [show programs.main = "" from rfl, show programs.lib = "" from rfl, d1, d2, d3, lastCheck]
  match hl : Checks.Builder.linked (w.tools e) programs with
  | .ok exe => exact absurd ⟨exe, (linked_ok _).1 hl⟩ h3
  | .error .execution => rfl
  | .error (.other k) => exact absurd hl (linked_only _ ho)

/-- **C159** fails: a builder for bytecode and native code needs the profiling compiler, which it does not use: without it, it is refused
although the compilers for both work. -/
theorem C159_profiler_violated {v : Text → List Int} (hp : Prints w v) (n : Need) (dep : Option Text) (c o : Compiler)
    (hc : Good w v n none ["ocamlc.opt".toList, "ocamlc".toList] dep c)
    (_ : Good w v n none ["ocamlopt.opt".toList, "ocamlopt".toList] dep o)
    (hn : w.find ["ocamlcp.opt".toList, "ocamlcp".toList] = none) :
    ocaml w n.requires {} dep = .error .configFailed := by
  unfold ocaml
  rw [dep_ok.2 hc.2.1, (C159_bytecode hp n none dep c).2 hc]
  simp only [after]
  unfold ocamlcp builder lookFor
  simp only [hn, after]

/-- **C159** fails: a native compiler of the version that is required is made with a bytecode compiler of another version. -/
theorem C159_version_violated {v : Text → List Int} (hp : Prints w v) (n : Need) (dep : Option Text) (c o : Compiler)
    (ho : Good w v n none ["ocamlopt.opt".toList, "ocamlopt".toList] dep o)
    (hc : Good w v {} none ["ocamlc.opt".toList, "ocamlc".toList] dep c) (hn : ¬ n.holds (v c.exe)) :
    ∃ b, ocamlopt w n.requires none dep none = .ok b ∧ ¬ n.holds (v b.ocamlc.exe) :=
  ⟨⟨o, c⟩, (C159_native hp n none dep none ⟨o, c⟩).2 ⟨ho, .inr ⟨rfl, hc⟩⟩, hn⟩

/-! ## Examples -/

/-- tools whose objects, libraries and programs are the sources in them; `broken`: programs cannot be linked with libraries -/
def exTools (broken : Bool) : Tools (List String) (List String) (List String) where
  compile _ s := .ok [s]
  linkLib _ os := .ok os.flatten
  linkExe _ os ls := if broken && !ls.isEmpty then .error .execution else .ok (os ++ ls).flatten
  run e := .ok (if "let x = 5;;\n" ∈ e then "5" else "")

/-- a system with some programs; the native compiler has version 5.1, the others 4.14 -/
def exWorld (broken : Bool) (present : List Text) : World (List String) (List String) (List String) where
  find names := names.find? fun n => n ∈ present
  tools _ := exTools broken
  version e := .ok ((if e = "ocamlopt".toList then "5.1" else "4.14").toList ++ ['\n'])
  space := Versions.exSpace
  int := Versions.exInt
  less := Versions.exLess

def exVersion (e : Text) : List Int := if e = "ocamlopt".toList then [5, 1] else [4, 14]

theorem exPrints (broken : Bool) (present : List Text) : Prints (exWorld broken present) exVersion := by
  refine ⟨Char.isDigit, Versions.exKnown, fun e => ?_⟩
  by_cases h : e = "ocamlopt".toList
  · refine ⟨[['5'], ['1']], by simp, by decide, ?_, ?_⟩
    · simp only [exVersion, if_pos h]; exact (by decide : List.map Versions.exInt [['5'], ['1']] = List.map some [5, 1])
    · simp only [exWorld, if_pos h]; rfl
  · refine ⟨[['4'], ['1', '4']], by simp, by decide, ?_, ?_⟩
    · simp only [exVersion, if_neg h]; exact (by decide : List.map Versions.exInt [['4'], ['1', '4']] = List.map some [4, 14])
    · simp only [exWorld, if_neg h]; rfl

instance {A : Type} [DecidableEq A] : DecidableEq (Except Exc A) := fun x y =>
  match x, y with
  | .ok a, .ok b => if h : a = b then .isTrue (by rw [h]) else .isFalse (by simpa using h)
  | .error a, .error b => if h : a = b then .isTrue (by rw [h]) else .isFalse (by simpa using h)
  | .ok _, .error _ => .isFalse (by simp)
  | .error _, .ok _ => .isFalse (by simp)

def exAll : List Text := ["ocamldep".toList, "ocamlc".toList, "ocamlcp".toList, "ocamlopt".toList]

/-- all are found and work -/
example : ocaml (exWorld false exAll) ({} : Need).requires {} none =
    .ok ⟨"ocamldep".toList, ⟨"ocamlc".toList, "ocamldep".toList⟩, ⟨"ocamlcp".toList, "ocamldep".toList⟩,
      ⟨⟨"ocamlopt".toList, "ocamldep".toList⟩, ⟨"ocamlc".toList, "ocamldep".toList⟩⟩⟩ := by decide +kernel

/-- the bytecode compiler is too old -/
example : ocaml (exWorld false exAll) ({ atLeast := some [5] } : Need).requires {} none = .error .configFailed := by decide +kernel

/-- for `C159_version_violated`: the native compiler is new enough, with an old bytecode compiler -/
example : ocamlopt (exWorld false exAll) ({ atLeast := some [5] } : Need).requires none none none =
    .ok ⟨⟨"ocamlopt".toList, "ocamldep".toList⟩, ⟨"ocamlc".toList, "ocamldep".toList⟩⟩ := by decide +kernel

/-- for `C159_profiler_violated`: no ocamlcp -/
example : ocaml (exWorld false ["ocamldep".toList, "ocamlc".toList, "ocamlopt".toList]) ({} : Need).requires {} none = .error .configFailed ∧
    (ocamlc (exWorld false ["ocamldep".toList, "ocamlc".toList, "ocamlopt".toList]) ({} : Need).requires none none).isOk = true ∧
    (ocamlopt (exWorld false ["ocamldep".toList, "ocamlc".toList, "ocamlopt".toList]) ({} : Need).requires none none none).isOk = true := by
  decide +kernel

/-- for `C159_link_violated` -/
example : ocamlc (exWorld true exAll) ({} : Need).requires none none = .error .execution := by decide +kernel

/-- for `C159_refused_partial` -/
example : (∀ e, OnlyFails ((exWorld false []).tools e)) ∧
    ∀ e, ∃ exe, BuildsWith ((exWorld false []).tools e) "let x = 5;;\n" "print_int Lib.x;;\n" exe := by
  refine ⟨fun e => ⟨fun _ _ _ h => (by cases h), fun _ _ _ h => (by cases h), fun f o l n h => ?_, fun _ _ h => (by cases h)⟩,
    fun e => ⟨["print_int Lib.x;;\n", "let x = 5;;\n"], ["let x = 5;;\n"], ["print_int Lib.x;;\n"], ⟨["let x = 5;;\n"], rfl, rfl⟩, rfl, rfl⟩⟩
  have : (.ok (o ++ l).flatten : Except Err (List String)) = .error (.other n) := h
  cases this

end Verif.Ocaml.Made
