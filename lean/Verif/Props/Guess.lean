import Verif.Builders.Guess
/-!
# Guessing a builder: properties

C88.
-/
namespace Verif.Guess

variable {K β : Type}

/-! ## Specification -/

/-- what the caller passed as platform, or the platform of the machine -/
def given (host : List Text) (h : Heap) : Platform → List Text
  | .none => host
  | .frozen xs => xs
  | .set r => h.getD r []

/-- The platform the search is for: what was given, and the compilers that may be used: those that `exe` may be, or
all. -/
def IsPlatform (g : Guesser) (host : List Text) (h : Heap) (p : Platform) (exe : Option (List Text))
    (platform : List Text) : Prop :=
  ∀ x, x ∈ platform ↔ x ∈ given host h p ∨ (x ∈ g.compilers ∧ ∀ tp, exe = some tp → x ∈ tp)

/-- The function `f` was asked for a builder, with the options for the platform, and the outcome is `r`. -/
def Asked (g : Guesser) (opts : List Text → K → Except Exc K) (make : Text → List Text → K → Except Exc β)
    (platform : List Text) (e : Entry) (f : Text) (k : K) (r : Except Exc β) : Prop :=
  ∃ simple k', (∀ x, x ∈ simple ↔ (x ∈ platform ∧ x ∉ g.compilers) ∨ x ∈ e.needs) ∧ opts simple k = .ok k' ∧
    make f platform k' = r

/-- The builder is there just if it was asked for, and is what the function made. -/
def Made (g : Guesser) (opts : List Text → K → Except Exc K) (make : Text → List Text → K → Except Exc β)
    (platform : List Text) (e : Entry) (f : Text) (k : Option K) (b : Option β) : Prop :=
  match k, b with
  | none, none => True
  | some k, some b => Asked g opts make platform e f k (.ok b)
  | _, _ => False

/-- The entry is not for this platform, or one of the builders asked for cannot be made. -/
def Fails (g : Guesser) (opts : List Text → K → Except Exc K) (make : Text → List Text → K → Except Exc β)
    (platform : List Text) (w : Wanted K) (e : Entry) : Prop :=
  (∃ x ∈ e.needs, x ∉ platform) ∨
  (∃ k, w.static = some k ∧ Asked g opts make platform e e.static k (.error .configFailed)) ∨
  (∃ k, w.shared = some k ∧ Asked g opts make platform e e.shared k (.error .configFailed))

/-! ## Proofs -/

theorem mem_union {a b : List Text} {x : Text} : x ∈ union a b ↔ x ∈ a ∨ x ∈ b := by
  unfold union
  simp only [List.mem_append, List.mem_filter, Bool.not_eq_eq_eq_not, Bool.not_true]
  by_cases h : x ∈ a
  · simp [h]
  · have : a.contains x = false := by
      rw [← Bool.not_eq_true, List.contains_iff_mem]; exact h
    simp [h, this]

theorem subset_iff {a b : List Text} : subset a b = true ↔ ∀ x ∈ a, x ∈ b := by
  simp [subset, List.all_eq_true, List.contains_iff_mem]

theorem simple_mem (g : Guesser) (platform : List Text) (e : Entry) (x : Text) :
    x ∈ union (platform.filter fun x => !g.compilers.contains x) e.needs ↔
      (x ∈ platform ∧ x ∉ g.compilers) ∨ x ∈ e.needs := by
  rw [mem_union, List.mem_filter, Bool.not_eq_eq_eq_not, Bool.not_true, ← Bool.not_eq_true, List.contains_iff_mem]

theorem one_ok {g : Guesser} {opts : List Text → K → Except Exc K} {make : Text → List Text → K → Except Exc β}
    {platform : List Text} {e : Entry} {f : Text} {k : Option K} {b : Option β}
    (h : one g opts make platform e f k = .done b) : Made g opts make platform e f k b := by
  cases k with
  | none =>
    simp only [one, Outcome.done.injEq] at h
    subst h
    trivial
  | some k =>
    simp only [one] at h
    split at h
    · cases h
    · rename_i k' hk
      split at h
      · split at h <;> cases h
      · rename_i b' hb
        simp only [Outcome.done.injEq] at h
        subst h
        exact ⟨_, k', simple_mem g platform e, hk, hb⟩

theorem one_failed {g : Guesser} {opts : List Text → K → Except Exc K} {make : Text → List Text → K → Except Exc β}
    {platform : List Text} {e : Entry} {f : Text} {k : Option K}
    (h : one g opts make platform e f k = .givenUp) :
    ∃ k', k = some k' ∧ Asked g opts make platform e f k' (.error .configFailed) := by
  cases k with
  | none => simp [one] at h
  | some k =>
    simp only [one] at h
    split at h
    · cases h
    · rename_i k' hk
      split at h
      · rename_i x hx
        split at h
        · rename_i hc
          subst hc
          exact ⟨k, rfl, _, k', simple_mem g platform e, hk, hx⟩
        · cases h
      · cases h

theorem one_raised {g : Guesser} {opts : List Text → K → Except Exc K} {make : Text → List Text → K → Except Exc β}
    {platform : List Text} {e : Entry} {f : Text} {k : Option K} {x : Exc}
    (h : one g opts make platform e f k = .raised x) :
    (∃ p k, opts p k = .error x) ∨ (x ≠ .configFailed ∧ ∃ k, make f platform k = .error x) := by
  cases k with
  | none => simp [one] at h
  | some k =>
    simp only [one] at h
    split at h
    · rename_i y hy
      cases h
      exact Or.inl ⟨_, _, hy⟩
    · split at h
      · rename_i y hy
        split at h
        · cases h
        · rename_i hne
          cases h
          exact Or.inr ⟨hne, _, hy⟩
      · cases h

theorem search_ok {g : Guesser} {opts : List Text → K → Except Exc K} {make : Text → List Text → K → Except Exc β}
    {platform : List Text} {w : Wanted K} (es : List Entry)
    {e : Entry} {a b : Option β} (h : search g opts make platform w es = .ok (e, a, b)) :
    ∃ before after, es = before ++ e :: after ∧ (∀ x ∈ e.needs, x ∈ platform) ∧
      Made g opts make platform e e.static w.static a ∧ Made g opts make platform e e.shared w.shared b ∧
      ∀ e' ∈ before, Fails g opts make platform w e' := by
  induction es with
  | nil => simp [search] at h
  | cons e0 es ih =>
    have next : search g opts make platform w es = .ok (e, a, b) → Fails g opts make platform w e0 →
        ∃ before after, e0 :: es = before ++ e :: after ∧ (∀ x ∈ e.needs, x ∈ platform) ∧
      Made g opts make platform e e.static w.static a ∧ Made g opts make platform e e.shared w.shared b ∧
      ∀ e' ∈ before, Fails g opts make platform w e' := by
      intro h hf
      obtain ⟨be, af, rfl, h1, h2, h3, h4⟩ := ih h
      refine ⟨e0 :: be, af, rfl, h1, h2, h3, ?_⟩
      intro e' he
      rcases List.mem_cons.mp he with rfl | he
      · exact hf
      · exact h4 e' he
    simp only [search] at h
    split at h
    · rename_i hs
      split at h
      · rename_i hx
        exact next h (Or.inr (Or.inl (one_failed hx)))
      · cases h
      · rename_i a' ha
        split at h
        · rename_i hx
          exact next h (Or.inr (Or.inr (one_failed hx)))
        · cases h
        · rename_i b' hb
          simp only [Except.ok.injEq, Prod.mk.injEq] at h
          obtain ⟨rfl, rfl, rfl⟩ := h
          exact ⟨[], es, rfl, subset_iff.mp hs, one_ok ha, one_ok hb, by simp⟩
    · rename_i hs
      refine next h (Or.inl ?_)
      rw [subset_iff] at hs
      simpa using hs

theorem search_failed {g : Guesser} {opts : List Text → K → Except Exc K} {make : Text → List Text → K → Except Exc β}
    (ho : ∀ p k, opts p k ≠ .error .configFailed) {platform : List Text} {w : Wanted K} (es : List Entry)
    (h : search g opts make platform w es = .error .configFailed) :
    ∀ e ∈ es, Fails g opts make platform w e := by
  induction es with
  | nil => simp
  | cons e0 es ih =>
    have next : search g opts make platform w es = .error .configFailed → Fails g opts make platform w e0 →
        ∀ e ∈ e0 :: es, Fails g opts make platform w e := by
      intro h hf e he
      rcases List.mem_cons.mp he with rfl | he
      · exact hf
      · exact ih h e he
    have no : ∀ f k, one g opts make platform e0 f k ≠ .raised .configFailed := by
      intro f k hx
      rcases one_raised hx with ⟨p, k, h⟩ | ⟨h, _⟩
      · exact ho _ _ h
      · exact h rfl
    simp only [search] at h
    split at h
    · split at h
      · rename_i hx
        exact next h (Or.inr (Or.inl (one_failed hx)))
      · rename_i hx
        cases h
        exact absurd hx (no _ _)
      · split at h
        · rename_i hx
          exact next h (Or.inr (Or.inr (one_failed hx)))
        · rename_i hx
          cases h
          exact absurd hx (no _ _)
        · cases h
    · rename_i hs
      refine next h (Or.inl ?_)
      rw [subset_iff] at hs
      simpa using hs

theorem search_raised {g : Guesser} {opts : List Text → K → Except Exc K} {make : Text → List Text → K → Except Exc β}
    {platform : List Text} {w : Wanted K} (es : List Entry) {x : Exc}
    (h : search g opts make platform w es = .error x) :
    x = .configFailed ∨ (∃ p k, opts p k = .error x) ∨
      ∃ e ∈ es, ∃ f, (f = e.static ∨ f = e.shared) ∧ ∃ k, make f platform k = .error x := by
  induction es with
  | nil =>
    cases h
    exact Or.inl rfl
  | cons e0 es ih =>
    have next : search g opts make platform w es = .error x → x = .configFailed ∨ (∃ p k, opts p k = .error x) ∨
      ∃ e ∈ e0 :: es, ∃ f, (f = e.static ∨ f = e.shared) ∧ ∃ k, make f platform k = .error x := by
      intro h
      rcases ih h with h | h | ⟨e, he, h⟩
      · exact Or.inl h
      · exact Or.inr (Or.inl h)
      · exact Or.inr (Or.inr ⟨e, List.mem_cons_of_mem _ he, h⟩)
    simp only [search] at h
    split at h
    · split at h
      · exact next h
      · rename_i hx
        cases h
        rcases one_raised hx with h | ⟨_, h⟩
        · exact Or.inr (Or.inl h)
        · exact Or.inr (Or.inr ⟨e0, by simp, _, Or.inl rfl, h⟩)
      · split at h
        · exact next h
        · rename_i hx
          cases h
          rcases one_raised hx with h | ⟨_, h⟩
          · exact Or.inr (Or.inl h)
          · exact Or.inr (Or.inr ⟨e0, by simp, _, Or.inr rfl, h⟩)
        · cases h
    · exact next h

theorem update_mem {host : List Text} {p : Platform} {xs : List Text} {h : Heap} {x : Text} :
    x ∈ (update host p xs h).1 ↔ x ∈ given host h p ∨ x ∈ xs := by
  cases p <;> simp [update, given, mem_union]

theorem call_search {g : Guesser} {opts : List Text → K → Except Exc K}
    {make : Option Text → Text → List Text → K → Except Exc β} {host : List Text} {p : Platform}
    {exe : Option (Text × List Text)} {w : Wanted K} {h : Heap} :
    ∃ platform, IsPlatform g host h p (exe.map Prod.snd) platform ∧
      (g.call opts make host p (exe.map fun x => (x.1, some x.2)) w h).1 =
        search g opts (make (exe.map Prod.fst)) platform w g.functions := by
  cases exe with
  | none =>
    refine ⟨(update host p g.compilers h).1, ?_, rfl⟩
    intro x
    rw [update_mem]
    simp
  | some e =>
    obtain ⟨e, tp⟩ := e
    refine ⟨(update host p (tp.filter fun c => g.compilers.contains c) h).1, ?_, rfl⟩
    intro x
    rw [update_mem, List.mem_filter, List.contains_iff_mem]
    simp [and_comm]

/-! ## C88 -/

/-- **C88**: `guess` returns the builders of the first entry of the table that is for this platform and whose
builders, as far as they are asked for, can be made; they are made by the functions of that entry. -/
theorem C88_first {g : Guesser} {opts : List Text → K → Except Exc K}
    {make : Option Text → Text → List Text → K → Except Exc β}
    {host : List Text} {p : Platform} {exe : Option (Text × List Text)} {w : Wanted K} {h : Heap}
    {e : Entry} {a b : Option β}
    (hc : (g.call opts make host p (exe.map fun x => (x.1, some x.2)) w h).1 = .ok (e, a, b)) :
    ∃ platform, IsPlatform g host h p (exe.map Prod.snd) platform ∧
      ∃ before after, g.functions = before ++ e :: after ∧ (∀ x ∈ e.needs, x ∈ platform) ∧
        Made g opts (make (exe.map Prod.fst)) platform e e.static w.static a ∧
        Made g opts (make (exe.map Prod.fst)) platform e e.shared w.shared b ∧
        ∀ e' ∈ before, Fails g opts (make (exe.map Prod.fst)) platform w e' := by
  obtain ⟨platform, hp, hs⟩ := call_search (g := g) (opts := opts) (make := make) (host := host) (p := p)
    (exe := exe) (w := w) (h := h)
  rw [hs] at hc
  exact ⟨platform, hp, search_ok _ hc⟩

/-- **C88**: if `guess` finds nothing, there was nothing to be found: each entry is for another platform, or has a
builder that cannot be made. -/
theorem C88_nothing {g : Guesser} {opts : List Text → K → Except Exc K}
    {make : Option Text → Text → List Text → K → Except Exc β} (ho : ∀ p k, opts p k ≠ .error .configFailed)
    {host : List Text} {p : Platform} {exe : Option (Text × List Text)} {w : Wanted K} {h : Heap}
    (hc : (g.call opts make host p (exe.map fun x => (x.1, some x.2)) w h).1 = .error .configFailed) :
    ∃ platform, IsPlatform g host h p (exe.map Prod.snd) platform ∧
      ∀ e ∈ g.functions, Fails g opts (make (exe.map Prod.fst)) platform w e := by
  obtain ⟨platform, hp, hs⟩ := call_search (g := g) (opts := opts) (make := make) (host := host) (p := p)
    (exe := exe) (w := w) (h := h)
  rw [hs] at hc
  exact ⟨platform, hp, search_failed ho _ hc⟩

/-- **C88**: any other exception comes from the parsing of the options or from a builder function of the table. -/
theorem C88_raised {g : Guesser} {opts : List Text → K → Except Exc K}
    {make : Option Text → Text → List Text → K → Except Exc β}
    {host : List Text} {p : Platform} {exe : Option (Text × List Text)} {w : Wanted K} {h : Heap} {x : Exc}
    (hx : x ≠ .configFailed)
    (hc : (g.call opts make host p (exe.map fun x => (x.1, some x.2)) w h).1 = .error x) :
    (∃ p k, opts p k = .error x) ∨
      ∃ e ∈ g.functions, ∃ f, (f = e.static ∨ f = e.shared) ∧ ∃ p k, make (exe.map Prod.fst) f p k = .error x := by
  obtain ⟨platform, _, hs⟩ := call_search (g := g) (opts := opts) (make := make) (host := host) (p := p)
    (exe := exe) (w := w) (h := h)
  rw [hs] at hc
  rcases search_raised _ hc with h | h | ⟨e, he, f, hf, k, h⟩
  · exact absurd h hx
  · exact Or.inl h
  · exact Or.inr ⟨e, he, f, hf, _, k, h⟩

/-- **C88**: the builders are for the compiler that was given: a compiler the entry is for is one of those `exe` was
identified as.

Partial: no compiler may be in the platform that is passed (`C88_changed_violated`). -/
theorem C88_compiler_partial {g : Guesser} {opts : List Text → K → Except Exc K}
    {make : Option Text → Text → List Text → K → Except Exc β}
    {host : List Text} {p : Platform} {x : Text} {tp : List Text} {w : Wanted K} {h : Heap}
    {e : Entry} {a b : Option β} (hn : ∀ c ∈ g.compilers, c ∉ given host h p)
    (hc : (g.call opts make host p (some (x, some tp)) w h).1 = .ok (e, a, b)) :
    ∀ c ∈ e.needs, c ∈ g.compilers → c ∈ tp := by
  obtain ⟨platform, hp, _, _, _, h1, _⟩ := C88_first (exe := some (x, tp)) hc
  intro c hcn hcc
  rcases (hp c).mp (h1 c hcn) with h2 | ⟨_, h2⟩
  · exact absurd h2 (hn c hcc)
  · exact h2 tp rfl

/-- **C88**: each entry of the table for C has a function called `static...` for the static builder and one called
`shared...` for the shared builder, in one module, and is for one compiler. -/
theorem C88_table_c : ∀ e ∈ guessC.functions,
    (∃ m ∈ ["c.msvc", "c.gcc.avr", "c.gcc.iphone", "c.clang.darwin", "c.gcc.darwin", "c.clang", "c.gcc", "c.intel"],
      ∃ s ∈ ["", "_simulator"],
        e.static = "fbuild.builders." ++ m ++ ".static" ++ s ∧ e.shared = "fbuild.builders." ++ m ++ ".shared" ++ s ∧
        ("darwin" ∈ e.needs ↔ m = "c.clang.darwin" ∨ m = "c.gcc.darwin") ∧
        ("iphone" ∈ e.needs ↔ m = "c.gcc.iphone") ∧ ("simulator" ∈ e.needs ↔ s = "_simulator")) ∧
    ∃ c ∈ guessC.compilers, c ∈ e.needs ∧ ∀ c' ∈ guessC.compilers, c' ∈ e.needs → c' = c := by
  decide

/-- **C88**: the same for C++, but for the shared builder of g++ (see `C88_shared_violated`). -/
theorem C88_table_cxx_partial : ∀ e ∈ guessCxx.functions,
    (∃ m ∈ ["cxx.msvc", "cxx.gxx.iphone", "cxx.clangxx.darwin", "cxx.gxx.darwin", "cxx.clangxx", "cxx.gxx", "cxx.intelxx"],
      ∃ s ∈ ["", "_simulator"], e.static = "fbuild.builders." ++ m ++ ".static" ++ s ∧
        (e.needs ≠ ["g++"] → e.shared = "fbuild.builders." ++ m ++ ".shared" ++ s) ∧
        ("darwin" ∈ e.needs ↔ m = "cxx.clangxx.darwin" ∨ m = "cxx.gxx.darwin") ∧
        ("iphone" ∈ e.needs ↔ m = "cxx.gxx.iphone") ∧ ("simulator" ∈ e.needs ↔ s = "_simulator")) ∧
    ∃ c ∈ guessCxx.compilers, c ∈ e.needs ∧ ∀ c' ∈ guessCxx.compilers, c' ∈ e.needs → c' = c := by
  decide

/-- **C88** is false for C++: with g++ on other systems than Darwin the shared builder is made by `static`, so what is asked
for as a shared builder makes static libraries. -/
theorem C88_shared_violated :
    ∃ e ∈ guessCxx.functions, e.needs = ["g++"] ∧ e.shared = "fbuild.builders.cxx.gxx.static" ∧
      (guessCxx.call (K := Unit) (β := Text) (fun _ k => .ok k) (fun _ f _ _ => .ok f) ["posix", "linux"] .none
        (some ("g++", some ["gcc", "g++"])) ⟨none, some ()⟩ []).1.toOption.bind (fun r => r.2.2) =
        some "fbuild.builders.cxx.gxx.static" := by
  refine ⟨⟨["g++"], "fbuild.builders.cxx.gxx.static", "fbuild.builders.cxx.gxx.static"⟩, ?_, rfl, rfl, ?_⟩
  · simp [guessCxx]
  · decide

/-- **C88** is false for a program that cannot be identified: instead of `ConfigFailed` there is a `NameError`, for
every guesser, platform and request. -/
theorem C88_unidentified_violated (g : Guesser) (opts : List Text → K → Except Exc K)
    (make : Option Text → Text → List Text → K → Except Exc β) (host : List Text) (p : Platform) (x : Text)
    (w : Wanted K) (h : Heap) : (g.call opts make host p (some (x, none)) w h).1 = .error .nameError := rfl

/-- **C88** is false for a platform that is passed as a set: the call adds the compilers to the caller's set.  After a call
for clang, a call for gcc with the same set gets the functions for clang, with the program `gcc`. -/
theorem C88_changed_violated :
    ∃ (h h' : Heap) (p : Platform),
      (guessC.call (K := Unit) (β := Text) (fun _ k => .ok k) (fun _ f _ _ => .ok f) [] p
        (some ("clang", identify "clang" none none)) ⟨some (), none⟩ h).2 = h' ∧
      given [] h p = ["posix", "linux"] ∧ given [] h' p = ["posix", "linux", "clang"] ∧
      (guessC.call (K := Unit) (β := Text) (fun _ k => .ok k) (fun _ f _ _ => .ok f) [] p
        (some ("gcc", identify "gcc" none none)) ⟨some (), none⟩ h').1.toOption.bind (fun r => r.2.1) =
        some "fbuild.builders.c.clang.static" :=
  ⟨[["posix", "linux"]], [["posix", "linux", "clang"]], .set 0, by decide, rfl, rfl, by decide⟩

/-- **C88**, identification: a program is taken for a compiler of one family only. -/
theorem C88_identify {exe : Text} {version plain : Option Ran} {tp : List Text} (h : identify exe version plain = some tp) :
    ∃ f ∈ [["gcc", "g++"], ["clang", "clang++"], ["icc", "icpc"], ["msvc", "msvc++"]], tp = f := by
  unfold identify at h
  split at h
  · exact ⟨_, by simp, (Option.some.inj h).symm⟩
  split at h
  · exact ⟨_, by simp, (Option.some.inj h).symm⟩
  split at h
  · exact ⟨_, by simp, (Option.some.inj h).symm⟩
  split at h
  · exact ⟨_, by simp, (Option.some.inj h).symm⟩
  split at h
  · split at h
    · cases h
    · split at h
      · exact ⟨_, by simp, (Option.some.inj h).symm⟩
      · cases h
  · simp only [List.foldl_cons, List.foldl_nil] at h
    split at h
    · exact ⟨_, by simp, (Option.some.inj h).symm⟩
    split at h
    · exact ⟨_, by simp, (Option.some.inj h).symm⟩
    split at h
    · exact ⟨_, by simp, (Option.some.inj h).symm⟩
    · cases h

/-! ## Cases -/

/-- hypotheses met: on Linux, without clang, both builders are for gcc -/
example : (guessC.call (K := Unit) (β := Text) (fun _ k => .ok k)
      (fun _ f _ _ => if f = "fbuild.builders.c.clang.static" then .error .configFailed else .ok f)
      ["posix", "linux"] .none none ⟨some (), some ()⟩ []).1.toOption.map (fun r => r.2) =
    some (some "fbuild.builders.c.gcc.static", some "fbuild.builders.c.gcc.shared") := by decide

/-- on a platform without any compiler nothing is found: `cl` on Linux -/
example : (match (guessC.call (K := Unit) (β := Text) (fun _ k => .ok k) (fun _ f _ _ => .ok f)
      ["posix", "linux"] .none (some ("cl", identify "cl" none none)) ⟨some (), some ()⟩ []).1 with
    | .error .configFailed => true | _ => false) = true := by decide

/-- a compiler called in another way, known by its version -/
example : identify "/usr/bin/cc" (some ⟨"Copyright (C) Free Software Foundation", ""⟩) none = some ["gcc", "g++"] := by
  decide

end Verif.Guess
