import Verif.Checks.Core
/-!
# What a configuration finds out about a C compiler

C112, C113.
-/
namespace Verif.Checks

/-- lines, one below the other -/
def unlines (ls : List Text) : Text := ['\n'].intercalate ls

/-- The program that includes these headers and has this statement in `main`, indented in some way.  (The semicolon behind the
headers is an empty declaration, or is ignored as the rest of the last directive.) -/
def Program (headers : List Text) (statement code : Text) : Prop :=
  ∃ i j k : Text, (∀ c ∈ i ++ j ++ k, c = ' ') ∧
    code = unlines [[],
      i ++ unlines (headers.map (fun h => "#include <".toList ++ h ++ ">".toList)) ++ ";".toList,
      i ++ "int main() {".toList,
      j ++ statement,
      j ++ "return 0;".toList,
      i ++ "}".toList,
      k]

theorem unlines_one (l : Text) : unlines [l] = l := by simp [unlines, List.intercalate]

theorem unlines_cons (l m : Text) (ls : List Text) : unlines (l :: m :: ls) = l ++ '\n' :: unlines (m :: ls) := by
  simp [unlines, List.intercalate]

theorem joinLines_eq (ls : List Text) : joinLines ls = unlines ls := by
  unfold unlines
  induction ls with
  | nil => rfl
  | cons h hs ih =>
    cases hs with
    | nil => simp [joinLines, List.intercalate]
    | cons g hs =>
      rw [joinLines, ih]
      simp [List.intercalate]

theorem program_is (headers : List Text) (statement : Text) : Program headers statement (program headers statement) := by
  refine ⟨List.replicate 12 ' ', List.replicate 16 ' ', List.replicate 8 ' ', by decide, ?_⟩
  have h : (headers.map (fun h => "#include <".toList ++ h ++ ">".toList)) = headers.map includeLine := by
    congr 1
  unfold program
  rw [h, joinLines_eq]
  rw [show "\n            ".toList = '\n' :: List.replicate 12 ' ' from by decide +kernel,
    show ";\n            int main() {\n                ".toList = ";".toList ++ '\n' :: (List.replicate 12 ' ' ++ ("int main() {".toList ++
      '\n' :: List.replicate 16 ' ')) from by decide +kernel,
    show "\n                return 0;\n            }\n        ".toList = '\n' :: (List.replicate 16 ' ' ++ ("return 0;".toList ++
      '\n' :: (List.replicate 12 ' ' ++ ("}".toList ++ '\n' :: List.replicate 8 ' ')))) from by decide +kernel]
  rw [unlines_cons, unlines_cons, unlines_cons, unlines_cons, unlines_cons, unlines_cons, unlines_one]
  simp only [List.append_assoc, List.cons_append, List.nil_append]

theorem mem_add {r : List Text} {n m : Text} : m ∈ add r n ↔ m ∈ r ∨ m = n := by
  unfold add
  split
  · constructor
    · exact .inl
    · rintro (h | rfl)
      · exact h
      · assumption
  · simp

theorem nodup_add {r : List Text} {n : Text} (h : r.Nodup) : (add r n).Nodup := by
  unfold add
  split
  · exact h
  · rw [List.nodup_append]
    refine ⟨h, by simp, ?_⟩
    intro a ha b hb
    simp only [List.mem_singleton] at hb
    rintro rfl
    subst hb
    contradiction

theorem loop_spec (cc : Text → Outcome) (headers : List Text) (items : List (Text × Text)) : ∀ r,
    (∀ out, loop cc headers r items = .ok out → (∀ p ∈ items, ∀ e, cc (program headers p.2) ≠ .raised e) ∧
      (∀ n, n ∈ out ↔ n ∈ r ∨ ∃ s, (n, s) ∈ items ∧ cc (program headers s) = .ok) ∧ (r.Nodup → out.Nodup)) ∧
    (∀ e, loop cc headers r items = .error e → ∃ p ∈ items, cc (program headers p.2) = .raised e) := by
  induction items with
  | nil =>
    intro r
    refine ⟨?_, fun e h => (nomatch h)⟩
    intro out h
    cases h
    exact ⟨fun _ h => (nomatch h), fun n => by simp, id⟩
  | cons p items ih =>
    obtain ⟨m, t⟩ := p
    intro r
    cases hc : cc (program headers t) with
    | ok =>
      have e : loop cc headers r ((m, t) :: items) = loop cc headers (add r m) items := by
        rw [loop, checkStatement, tryCompile, hc]
      rw [e]
      obtain ⟨h1, h2⟩ := ih (add r m)
      refine ⟨?_, ?_⟩
      · intro out ho
        obtain ⟨a, b, c⟩ := h1 out ho
        refine ⟨?_, ?_, fun h => c (nodup_add h)⟩
        · intro p hp e
          rcases List.mem_cons.1 hp with rfl | hp
          · rw [hc]; exact fun h => (nomatch h)
          · exact a p hp e
        · intro n
          rw [b n, mem_add]
          constructor
          · rintro ((h | rfl) | ⟨s, hs, hk⟩)
            · exact .inl h
            · exact .inr ⟨t, .head _, hc⟩
            · exact .inr ⟨s, .tail _ hs, hk⟩
          · rintro (h | ⟨s, hs, hk⟩)
            · exact .inl (.inl h)
            · rcases List.mem_cons.1 hs with h | hs
              · cases h; exact .inl (.inr rfl)
              · exact .inr ⟨s, hs, hk⟩
      · intro e he
        obtain ⟨p, hp, h⟩ := h2 e he
        exact ⟨p, .tail _ hp, h⟩
    | failed =>
      have e : loop cc headers r ((m, t) :: items) = loop cc headers r items := by
        rw [loop, checkStatement, tryCompile, hc]
      rw [e]
      obtain ⟨h1, h2⟩ := ih r
      refine ⟨?_, ?_⟩
      · intro out ho
        obtain ⟨a, b, c⟩ := h1 out ho
        refine ⟨?_, ?_, c⟩
        · intro p hp e
          rcases List.mem_cons.1 hp with rfl | hp
          · rw [hc]; exact fun h => (nomatch h)
          · exact a p hp e
        · intro n
          rw [b n]
          constructor
          · rintro (h | ⟨s, hs, hk⟩)
            · exact .inl h
            · exact .inr ⟨s, .tail _ hs, hk⟩
          · rintro (h | ⟨s, hs, hk⟩)
            · exact .inl h
            · rcases List.mem_cons.1 hs with h | hs
              · cases h; rw [hc] at hk; exact (nomatch hk)
              · exact .inr ⟨s, hs, hk⟩
      · intro e he
        obtain ⟨p, hp, h⟩ := h2 e he
        exact ⟨p, .tail _ hp, h⟩
    | raised x =>
      have e : loop cc headers r ((m, t) :: items) = .error x := by
        rw [loop, checkStatement, tryCompile, hc]
      rw [e]
      refine ⟨fun out h => (nomatch h), ?_⟩
      intro y hy
      cases hy
      exact ⟨(m, t), .head _, hc⟩

/-- The names are those of the checks whose programs compile, each once. -/
def Found (cc : Text → Outcome) (headers : List Text) (items : List (Text × Text)) (out : List Text) : Prop :=
  out.Nodup ∧ ∃ code : Text → Text, (∀ s, Program headers s (code s)) ∧ ∀ n, n ∈ out ↔ ∃ s, (n, s) ∈ items ∧ cc (code s) = .ok

theorem statements_found {cc : Text → Outcome} {headers : List Text} {items : List (Text × Text)} {out : List Text}
    (h : checkStatements cc headers items = .ok out) : Found cc headers items out := by
  obtain ⟨_, h2, h3⟩ := ((loop_spec cc headers items []).1 out h)
  exact ⟨h3 .nil, program headers, program_is headers, fun n => by rw [h2 n]; simp⟩

/-- **C112**: `check_statements` and `check_functions_exist` return the names whose statements compile. -/
theorem C112_statements (cc : Text → Outcome) (headers : List Text) (items : List (Text × Text)) (out : List Text)
    (h : checkStatements cc headers items = .ok out) : Found cc headers items out := statements_found h

/-- **C112**: an exception that they raise is one of the compiler, other than that it failed. -/
theorem C112_raises (cc : Text → Outcome) (headers : List Text) (items : List (Text × Text)) (e : Text)
    (h : checkStatements cc headers items = .error e) : ∃ code, cc code = .raised e := by
  obtain ⟨p, _, hp⟩ := (loop_spec cc headers items []).2 e h
  exact ⟨_, hp⟩

/-- **C112**: they return, if each program compiles or fails to. -/
theorem C112_returns (cc : Text → Outcome) (headers : List Text) (items : List (Text × Text)) (hcc : ∀ code e, cc code ≠ .raised e) :
    ∃ out, checkStatements cc headers items = .ok out := by
  cases h : checkStatements cc headers items with
  | ok out => exact ⟨out, rfl⟩
  | error e =>
    obtain ⟨c, hc⟩ := C112_raises cc headers items e h
    exact absurd hc (hcc c e)

/-- the directives that are an error unless the macro `m` is defined, indented in some way -/
def MacroCheck (m s : Text) : Prop :=
  ∃ i k : Text, (∀ c ∈ i ++ k, c = ' ') ∧
    s = unlines [[], i ++ "#ifndef ".toList ++ m, i ++ "#error ".toList ++ m, i ++ "#endif".toList, k]

/-- **C112**: `check_macros_exist` returns the macros for which the program that needs them compiles. -/
theorem C112_macros (cc : Text → Outcome) (headers macros : List Text) (out : List Text) (h : checkMacros cc headers macros = .ok out) :
    ∃ check : Text → Text, (∀ m, MacroCheck m (check m)) ∧ Found cc headers (macros.map (fun m => (m, check m))) out := by
  refine ⟨macroStatement, ?_, statements_found h⟩
  intro m
  refine ⟨List.replicate 12 ' ', List.replicate 8 ' ', by decide, ?_⟩
  unfold macroStatement
  rw [show "\n            #ifndef ".toList = '\n' :: (List.replicate 12 ' ' ++ "#ifndef ".toList) from by decide +kernel,
    show "\n            #error ".toList = '\n' :: (List.replicate 12 ' ' ++ "#error ".toList) from by decide +kernel,
    show "\n            #endif\n        ".toList = '\n' :: (List.replicate 12 ' ' ++ ("#endif".toList ++
      '\n' :: List.replicate 8 ' ')) from by decide +kernel]
  rw [unlines_cons, unlines_cons, unlines_cons, unlines_cons, unlines_one]
  simp only [List.append_assoc, List.cons_append, List.nil_append]

/-- **C112**: `check_header_exists` finds whether the program that includes the header compiles. -/
theorem C112_header (cc : Text → Outcome) (header : Text) (r : Bool) (h : checkHeader cc header = .ok r) :
    ∃ code, Program [header] [] code ∧ (r = true ↔ cc code = .ok) := by
  refine ⟨program [header] [], program_is _ _, ?_⟩
  unfold checkHeader checkStatement tryCompile at h
  cases hc : cc (program [header] []) with
  | ok => rw [hc] at h; cases h; simp
  | failed => rw [hc] at h; cases h; simp
  | raised e => rw [hc] at h; exact (nomatch h)

/-! ## Types -/

/-- the check for a type: the given one, or the declaration of a variable -/
def typeCheck : Arg → Text × Text
  | .name n => (n, n ++ " t;".toList)
  | .pair n s => (n, s)

/-- **C113**: `check_types_exist` returns the types of which a variable can be declared, or whose statements compile.
Partial: no name has two characters (`C113_violated`). -/
theorem C113_partial (cc : Text → Outcome) (headers : List Text) (types : List Arg) (out : List Text)
    (h2 : ∀ n, Arg.name n ∈ types → n.length ≠ 2) (h : checkTypes cc headers types = .ok out) :
    Found cc headers (types.map typeCheck) out := by
  have : types.map typeCheck = types.map item := by
    apply List.map_congr_left
    intro a ha
    match a, ha with
    | .pair n s, _ => rfl
    | .name [], _ => rfl
    | .name [x], _ => rfl
    | .name [x, y], ha => exact absurd rfl (h2 _ ha)
    | .name (x :: y :: z :: n), _ => rfl
  rw [this]
  exact statements_found h

/-- **C113**, violated: a name of two characters is never found, whatever the compiler. -/
theorem C113_violated (cc : Text → Outcome) (headers : List Text) (names : List Text) (out : List Text) (n : Text) (h2 : n.length = 2)
    (h : checkTypes cc headers (names.map .name) = .ok out) : n ∉ out := by
  obtain ⟨_, code, _, hf⟩ := statements_found h
  intro hn
  obtain ⟨s, hs, _⟩ := (hf n).1 hn
  simp only [List.map_map, List.mem_map, Function.comp] at hs
  obtain ⟨m, _, hm⟩ := hs
  match m, hm with
  | [], hm => cases hm; simp at h2
  | [x], hm => cases hm; simp at h2
  | [x, y], hm => cases hm; simp at h2
  | x :: y :: z :: n, hm => cases hm; simp at h2

/-- a compiler that knows the types `int` and `DB` -/
def sampleCc (code : Text) : Outcome :=
  if code = program [] "int t;".toList ∨ code = program [] "DB t;".toList ∨ code = program [] (macroStatement "M".toList) ∨
      code = program ["h".toList] [] then .ok
  else .failed

set_option maxRecDepth 4000 in
/-- `C112_*`, `C113_*`: hypotheses that can be met.  The type `DB` is not found. -/
example : checkTypes sampleCc [] [.name "int".toList, .name "none".toList, .pair "X".toList "DB t;".toList] = .ok ["int".toList, "X".toList] ∧
    checkTypes sampleCc [] (["int".toList, "DB".toList].map .name) = .ok ["int".toList] ∧
    checkMacros sampleCc [] ["M".toList, "N".toList] = .ok ["M".toList] ∧
    checkHeader sampleCc "h".toList = .ok true ∧ checkHeader sampleCc "g".toList = .ok false := by
  refine ⟨?_, ?_, ?_, ?_, ?_⟩ <;> rfl

end Verif.Checks
