import Verif.Props.Config
/-!
# C77, C78: what tests return and what is listed
-/
namespace Verif.Config
open Verif (Dict)

/-! ## C77 -/

/-- what a test for something else than a type returns when it passes -/
inductive Declares : Kind → Res → Prop
  | header (f) : Declares (.header f) (.header f)
  | function (r args) : Declares (.function r args) (.function r args)
  | macro : Declares .macro .macro
  | struct (ms) : Declares (.struct ms) (.struct ms)
  | variable : Declares .variable .variable
  | template (ts) : Declares (.template ts) .template

/-- `Includes header kind h`: the header of the class is usable, and `h` is the one to include.  Header tests include
no other header; tests in classes without a header do not include any. -/
inductive Includes : HeaderAttr → Kind → Option Text → Prop
  | isHeader (a f) : Includes a (.header f) none
  | noHeader (k) : Includes none k none
  | found (h k) : (∀ f, k ≠ .header f) → Includes (some (some h)) k (some h)

/-- the program that is run: the given one, or a generated one -/
inductive Program (format : Desc → Option Text → Text) (d : Desc) (h : Option Text) : Text → Prop
  | given (t) : d.test = some t → t ≠ [] → Program format d h t
  | generated : d.test = none ∨ d.test = some [] → Program format d h (format d h)

theorem program_exists (format : Desc → Option Text → Text) (d : Desc) (h : Option Text) :
    Program format d h (match d.test with
      | some t => if t = [] then format d h else t
      | none => format d h) := by
  cases ht : d.test with
  | none => exact .generated (.inl ht)
  | some t =>
    simp only
    split
    · rename_i e; subst e; exact .generated (.inr ht)
    · rename_i e; exact .given t ht e

theorem Program.eq {format : Desc → Option Text → Text} {d : Desc} {h : Option Text} {p : Text}
    (hp : Program format d h p) : p = (match d.test with
      | some t => if t = [] then format d h else t
      | none => format d h) := by
  cases hp with
  | given t h1 h2 => simp [h1, h2]
  | generated ht => rcases ht with ht | ht <;> simp [ht]

/-- how the evaluation goes on when the header is usable -/
theorem evaluate_of {format : Desc → Option Text → Text} {run : Text → Option Text → Option Text} {a : HeaderAttr}
    {d : Desc} {h : Option Text} (hi : Includes a d.kind h) {p : Text} (hp : Program format d h p) :
    evaluate format run a d = match run p d.stdin with
      | none => .value none
      | some stdout => process d stdout := by
  rw [hp.eq]
  generalize hk : d.kind = k at hi
  cases hi with
  | isHeader f => simp [evaluate, hk]; rfl
  | noHeader => cases k <;> simp [evaluate, hk] <;> rfl
  | found h _ hne => cases k <;> first | (simp [evaluate, hk]; done) | (simp [evaluate, hk]; rfl) | exact absurd rfl (hne _)

theorem evaluate_not {format : Desc → Option Text → Text} {run : Text → Option Text → Option Text} {a : HeaderAttr}
    {d : Desc} (hi : ∀ h, ¬ Includes a d.kind h) : evaluate format run a d = .value none := by
  generalize hk : d.kind = k at hi
  cases a with
  | none => exact absurd (.noHeader k) (hi none)
  | some a =>
    cases k with
    | header f => exact absurd (.isHeader (some a) f) (hi none)
    | _ =>
      cases a with
      | none => simp [evaluate, hk]
      | some h => exact absurd (.found h _ (by simp)) (hi (some h))

theorem process_expected {d : Desc} (hk : d.kind ≠ .type ∧ d.kind ≠ .intType) (out : Text) :
    ∃ r, Declares d.kind r ∧ process d out = expected d out r := by
  obtain ⟨h1, h2⟩ := hk
  cases h : d.kind with
  | header f => exact ⟨_, .header f, by simp [process, h]⟩
  | function r args => exact ⟨_, .function r args, by simp [process, h]⟩
  | «macro» => exact ⟨_, .macro, by simp [process, h]⟩
  | struct ms => exact ⟨_, .struct ms, by simp [process, h]⟩
  | «variable» => exact ⟨_, .variable, by simp [process, h]⟩
  | template ts => exact ⟨_, .template ts, by simp [process, h]⟩
  | type => exact absurd h h1
  | intType => exact absurd h h2

theorem Declares.unique {k : Kind} {r r' : Res} (h : Declares k r) (h' : Declares k r') : r = r' := by
  cases h <;> cases h' <;> rfl

/-- **C77** for tests other than those of types: the value is what the test declares if the header is there and the
program was built, ran without error and wrote what is asked for; and `None` in every other case. -/
theorem C77_outcome (format : Desc → Option Text → Text) (run : Text → Option Text → Option Text) (a : HeaderAttr)
    (d : Desc) (hk : d.kind ≠ .type ∧ d.kind ≠ .intType) :
    (∀ r, evaluate format run a d = .value (some r) ↔
      Declares d.kind r ∧ ∃ h p out, Includes a d.kind h ∧ Program format d h p ∧ run p d.stdin = some out ∧
        (d.stdout = none ∨ d.stdout = some out)) ∧
    evaluate format run a d ≠ .raised := by
  by_cases hi : ∃ h, Includes a d.kind h
  · obtain ⟨h, hi⟩ := hi
    have hp := program_exists format d h
    generalize (match d.test with
      | some t => if t = [] then format d h else t
      | none => format d h) = p at hp
    have hdet : ∀ h' p', Includes a d.kind h' → Program format d h' p' → p' = p := by
      intro h' p' hi' hp'
      have : h' = h := by
        generalize d.kind = k at hi hi'
        cases hi <;> cases hi' <;> first | rfl | simp_all
      subst this
      rw [hp.eq, hp'.eq]
    rw [evaluate_of hi hp]
    cases hr : run p d.stdin with
    | none =>
      refine ⟨?_, by simp⟩
      intro r
      simp only [Out.value.injEq, reduceCtorEq, false_iff, not_and]
      rintro _ ⟨h', p', out, hi', hp', hr', _⟩
      rw [hdet h' p' hi' hp', hr] at hr'
      cases hr'
    | some out =>
      obtain ⟨r0, hd, he⟩ := process_expected hk out
      simp only [he, expected]
      constructor
      · intro r
        constructor
        · intro hv
          split at hv
          · rename_i hs
            simp only [Out.value.injEq, Option.some.injEq] at hv
            subst hv
            exact ⟨hd, h, p, out, hi, hp, hr, .inl hs⟩
          · rename_i s hs
            split at hv
            · rename_i e
              subst e
              simp only [Out.value.injEq, Option.some.injEq] at hv
              subst hv
              exact ⟨hd, h, p, s, hi, hp, hr, .inr hs⟩
            · simp at hv
        · rintro ⟨hd', h', p', out', hi', hp', hr', hs⟩
          rw [hdet h' p' hi' hp', hr, Option.some.injEq] at hr'
          subst hr'
          rw [hd.unique hd']
          rcases hs with hs | hs <;> simp [hs]
      · split
        · simp
        · split <;> simp
  · have hi' : ∀ h, ¬ Includes a d.kind h := fun h hh => hi ⟨h, hh⟩
    rw [evaluate_not hi']
    refine ⟨?_, by simp⟩
    intro r
    simp only [Out.value.injEq, reduceCtorEq, false_iff, not_and]
    rintro _ ⟨h, _, _, hh, _⟩
    exact hi' h hh

/-- `printf` of `c90.stdio_h` is asked to write "5 6" (lib/fbuild/config/c/c90.py:564) -/
def exPrintf : Desc :=
  { kind := .function "int".toList ["const char*".toList], test := some "int main() ...".toList, stdout := some "5 6".toList }

set_option maxRecDepth 20000 in
example : evaluate (fun _ _ => []) (fun p _ => if p = "int main() ...".toList then some "5 6".toList else none)
      (some (some "stdio.h".toList)) exPrintf = .value (some (.function "int".toList ["const char*".toList])) ∧
    evaluate (fun _ _ => []) (fun _ _ => some "5 7".toList) (some (some "stdio.h".toList)) exPrintf = .value none ∧
    evaluate (fun _ _ => []) (fun _ _ => some "5 6".toList) (some none) exPrintf = .value none := by decide +kernel

/-! ### Types: the printed numbers are read back -/

/-- the digit of a number below ten -/
def digit (n : Nat) : Char := Char.ofNat (48 + n)

/-- `printf("%d", n)` for a number that is not negative; the first argument bounds the number of digits -/
def showNat : Nat → Nat → Text
  | 0, _ => []
  | fuel + 1, n => if n < 10 then [digit n] else showNat fuel (n / 10) ++ [digit (n % 10)]

/-- `printf("%d", n)` -/
def showInt (n : Int) : Text :=
  if 0 ≤ n then showNat (n.natAbs + 1) n.natAbs else '-' :: showNat (n.natAbs + 1) n.natAbs

/-- numbers, each on its line -/
def showLines (l : List Int) : Text := l.flatMap (fun n => showInt n ++ ['\n'])

theorem digit_spec : ∀ n, n < 10 → (digit n).isDigit = true ∧ (digit n).toNat - '0'.toNat = n ∧
    Gcc.isSpace (digit n) = false ∧ digit n ≠ '-' ∧ digit n ≠ '+' := by decide

theorem digits_append : ∀ (s t : Text) (acc : Nat), digits acc (s ++ t) = (digits acc s).bind (fun n => digits n t) := by
  intro s
  induction s with
  | nil => intro t acc; rfl
  | cons c s ih =>
    intro t acc
    simp only [List.cons_append, digits]
    split
    · exact ih t _
    · rfl

theorem showNat_spec : ∀ fuel n, n < fuel →
    digits 0 (showNat fuel n) = some n ∧ showNat fuel n ≠ [] ∧
    ∀ c ∈ showNat fuel n, Gcc.isSpace c = false ∧ c ≠ '-' ∧ c ≠ '+' := by
  intro fuel
  induction fuel with
  | zero => intro n h; omega
  | succ fuel ih =>
    intro n h
    simp only [showNat]
    split
    · rename_i hn
      obtain ⟨h1, h2, h3, h4, h5⟩ := digit_spec n hn
      refine ⟨?_, by simp, ?_⟩
      · simp only [digits, h1, if_true, h2]; simp
      · intro c hc
        simp only [List.mem_singleton] at hc
        subst hc
        exact ⟨h3, h4, h5⟩
    · rename_i hn
      obtain ⟨h1, h2, h3, h4, h5⟩ := digit_spec (n % 10) (Nat.mod_lt _ (by omega))
      obtain ⟨i1, i2, i3⟩ := ih (n / 10) (by omega)
      refine ⟨?_, by simp, ?_⟩
      · rw [digits_append, i1]
        simp only [Option.bind_some, digits, h1, if_true, h2, Option.some.injEq]
        omega
      · intro c hc
        rcases List.mem_append.1 hc with hc | hc
        · exact i3 c hc
        · simp only [List.mem_singleton] at hc
          subst hc
          exact ⟨h3, h4, h5⟩

theorem showInt_spec (n : Int) : pyInt (showInt n) = some n ∧ showInt n ≠ [] ∧ ∀ c ∈ showInt n, Gcc.isSpace c = false := by
  obtain ⟨h1, h2, h3⟩ := showNat_spec (n.natAbs + 1) n.natAbs (by omega)
  simp only [showInt]
  generalize showNat (n.natAbs + 1) n.natAbs = s at h1 h2 h3
  cases s with
  | nil => exact absurd rfl h2
  | cons c s =>
    have hc := h3 c (List.mem_cons_self ..)
    split
    · rename_i hn
      refine ⟨?_, by simp, fun c hc => (h3 c hc).1⟩
      have : pyInt (c :: s) = (digits 0 (c :: s)).map (fun n => (n : Int)) := by
        unfold pyInt
        split
        · rename_i e; cases e
        · rename_i e; cases e; exact absurd rfl hc.2.1
        · rename_i e; cases e; exact absurd rfl hc.2.2
        · rename_i e; cases e; exact absurd rfl hc.2.1
        · rename_i e; cases e; exact absurd rfl hc.2.2
        · rfl
      rw [this, h1]
      exact congrArg some (by show (n.natAbs : Int) = n; omega)
    · rename_i hn
      refine ⟨?_, by simp, ?_⟩
      · have : pyInt ('-' :: c :: s) = (digits 0 (c :: s)).map (fun n => - (n : Int)) := by
          unfold pyInt
          split
          · rename_i e; cases e
          · rename_i e; cases e
          · rename_i e; cases e
          · rename_i e; cases e; rfl
          · rename_i e; cases e
          · rename_i h _; exact absurd rfl (h _)
        rw [this, h1]
        exact congrArg some (by show -(n.natAbs : Int) = n; omega)
      · intro x hx
        rcases List.mem_cons.1 hx with rfl | hx
        · decide
        · exact (h3 x hx).1

theorem split_word : ∀ (w : Text) (cur : Text) (s : Text), (∀ c ∈ w, Gcc.isSpace c = false) → cur ++ w ≠ [] →
    Gcc.splitBlank cur (w ++ '\n' :: s) = (cur ++ w) :: Gcc.splitBlank [] s := by
  intro w
  induction w with
  | nil =>
    intro cur s _ hne
    have hcur : cur ≠ [] := by simpa using hne
    have : Gcc.isSpace '\n' = true := by decide
    simp [Gcc.splitBlank, this, hcur]
  | cons c w ih =>
    intro cur s h hne
    have hc := h c (List.mem_cons_self ..)
    simp only [List.cons_append, Gcc.splitBlank, hc, Bool.false_eq_true, if_false]
    rw [ih (cur ++ [c]) s (fun x hx => h x (List.mem_cons_of_mem _ hx)) (by simp)]
    simp

theorem split_lines : ∀ l : List Int, Gcc.splitBlank [] (showLines l) = l.map showInt := by
  intro l
  induction l with
  | nil => rfl
  | cons n l ih =>
    obtain ⟨_, h2, h3⟩ := showInt_spec n
    have e : showLines (n :: l) = showInt n ++ '\n' :: showLines l := by simp [showLines]
    rw [e, split_word (showInt n) [] _ h3 (by simpa using h2), ih]
    rfl

/-- **C77** for types: alignment and size are those that the program printed. -/
theorem C77_type (format : Desc → Option Text → Text) (run : Text → Option Text → Option Text) (a : HeaderAttr)
    (d : Desc) (hk : d.kind = .type) {h : Option Text} {p : Text} (hi : Includes a d.kind h)
    (hp : Program format d h p) (alignment size : Int) (hr : run p d.stdin = some (showLines [alignment, size])) :
    evaluate format run a d = .value (some (.type alignment size)) := by
  rw [evaluate_of hi hp, hr]
  simp only [process, hk, split_lines, word, List.map_cons, List.map_nil, List.getElem?_cons_zero,
    List.getElem?_cons_succ, (showInt_spec alignment).1, (showInt_spec size).1]

/-- **C77** for integer types: also whether the type is signed, for which the program prints 1 or 0. -/
theorem C77_int_type (format : Desc → Option Text → Text) (run : Text → Option Text → Option Text) (a : HeaderAttr)
    (d : Desc) (hk : d.kind = .intType) {h : Option Text} {p : Text} (hi : Includes a d.kind h)
    (hp : Program format d h p) (alignment size : Int) (signed : Bool)
    (hr : run p d.stdin = some (showLines [alignment, size, if signed then 1 else 0])) :
    evaluate format run a d = .value (some (.intType alignment size signed)) := by
  rw [evaluate_of hi hp, hr]
  simp only [process, hk, split_lines, word, List.map_cons, List.map_nil, List.getElem?_cons_zero,
    List.getElem?_cons_succ, (showInt_spec alignment).1, (showInt_spec size).1, (showInt_spec _).1]
  cases signed <;> rfl

/-- **C77** for types: `None` if the header is missing or the program fails. -/
theorem C77_type_fails (format : Desc → Option Text → Text) (run : Text → Option Text → Option Text) (a : HeaderAttr)
    (d : Desc) (hf : ∀ h p, Includes a d.kind h → Program format d h p → run p d.stdin = none) :
    evaluate format run a d = .value none := by
  by_cases hi : ∃ h, Includes a d.kind h
  · obtain ⟨h, hi⟩ := hi
    have hp := program_exists format d h
    rw [evaluate_of hi hp, hf h _ hi hp]
  · exact evaluate_not (fun h hh => hi ⟨h, hh⟩)

set_option maxRecDepth 20000 in
example : evaluate (fun _ _ => "p".toList) (fun p _ => if p = "p".toList then some (showLines [4, 8]) else none) none
      { kind := .type } = .value (some (.type 4 8)) ∧
    showLines [4, 8] = "4\n8\n".toList ∧ showInt (-12) = "-12".toList ∧
    evaluate (fun _ _ => "p".toList) (fun _ _ => none) none { kind := .type } = .value none := by decide +kernel

set_option maxRecDepth 20000 in
/-- **C77** is false for types when something else is in the output, as from a program that wraps executables: the
test does not give `None` but raises. -/
theorem C77_output_violated :
    evaluate (fun _ _ => []) (fun _ _ => some "fixme: 4 8".toList) none { kind := .type } = .raised ∧
    evaluate (fun _ _ => []) (fun _ _ => some []) none { kind := .type } = .raised := by decide +kernel

set_option maxRecDepth 20000 in
/-- **C77** is false for a type test with a declared output: the output is not compared. -/
theorem C77_declared_violated :
    evaluate (fun _ _ => []) (fun _ _ => some "4 8".toList) none { kind := .type, stdout := some "8 8".toList } =
      .value (some (.type 4 8)) := by decide +kernel

/-! ## C78 -/

/-- what each listing is for -/
inductive Lists : Listing → Kind → Prop
  | functions (r args) : Lists .functions (.function r args)
  | macros : Lists .macros .macro
  | types : Lists .types .type
  | typesInt : Lists .types .intType
  | intTypes : Lists .intTypes .intType
  | structs (ms) : Lists .structs (.struct ms)
  | variables : Lists .variables .variable

theorem test_iff (l : Listing) (k : Kind) : l.test k = true ↔ Lists l k := by
  constructor
  · intro h
    cases l <;> cases k <;> first | (simp [Listing.test] at h; done) | constructor
  · intro h
    cases h <;> rfl

/-- **C78** for classes with one base and tests made by descriptors: a listing contains one entry for each test of its
kind that the class has, with the name that is tested for and the result of the test. -/
theorem C78_listing_partial {heap0 heap1 : Heap} {root c : Cls} {bodies : List (List Stmt)}
    (hroot : root.fieldNames = [] ∧ ∀ k v, getattr root.dicts k = some v → v.isField = false)
    (hc : chain heap0 root bodies = some (heap1, c)) (hn : ∀ b ∈ bodies, NoReset b)
    (heap : Heap) (value : Text → Option Res) (l : Listing) :
    ∃ keys : List (Text × Nat), (keys.map Prod.fst).Nodup ∧
      listing heap value l c = keys.map (fun p => ((heap p.2).name, value p.1)) ∧
      (∀ k i, (k, i) ∈ keys ↔ Attribute bodies k (.desc i) ∧ Lists l (heap i).kind) ∧
      (keys.map Prod.fst).Sublist c.fieldNames := by
  obtain ⟨h1, h2, -, -, -⟩ := C75_fields_partial hroot hc hn
  have key : ∀ names : List Text, ∃ keys : List (Text × Nat),
      (keys.map Prod.fst).Sublist names ∧
      (names.map (fun k => (k, getattr c.dicts k))).filterMap (fun f =>
        match f.2 with
        | some (.desc i) => if l.test (heap i).kind then some ((heap i).name, value f.1) else none
        | _ => none) = keys.map (fun p => ((heap p.2).name, value p.1)) ∧
      ∀ k i, (k, i) ∈ keys ↔ k ∈ names ∧ getattr c.dicts k = some (.desc i) ∧ l.test (heap i).kind = true := by
    intro names
    induction names with
    | nil => exact ⟨[], List.Sublist.slnil, rfl, by simp⟩
    | cons n names ih =>
      obtain ⟨keys, i1, i2, i3⟩ := ih
      by_cases hg : ∃ i, getattr c.dicts n = some (.desc i) ∧ l.test (heap i).kind = true
      · obtain ⟨i, hg, ht⟩ := hg
        refine ⟨(n, i) :: keys, by simpa using i1, ?_, ?_⟩
        · rw [List.map_cons, List.filterMap_cons, i2]
          simp [hg, ht]
        · intro k j
          simp only [List.mem_cons, Prod.mk.injEq, i3]
          constructor
          · rintro (⟨rfl, rfl⟩ | ⟨h, h'⟩)
            · exact ⟨.inl rfl, hg, ht⟩
            · exact ⟨.inr h, h'⟩
          · rintro ⟨rfl | h, h'⟩
            · rw [hg] at h'
              simp only [Option.some.injEq, Val.desc.injEq] at h'
              exact .inl ⟨rfl, h'.1.symm⟩
            · exact .inr ⟨h, h'⟩
      · refine ⟨keys, i1.trans (List.sublist_cons_self ..), ?_, ?_⟩
        · rw [List.map_cons, List.filterMap_cons, i2]
          have : ∀ x : Option Val, x = getattr c.dicts n →
              (match x with
                | some (.desc i) => if l.test (heap i).kind then some ((heap i).name, value n) else none
                | _ => none) = (none : Option (Option Text × Option Res)) := by
            intro x hx
            split
            · rename_i i
              split
              · rename_i ht; exact absurd ⟨i, hx.symm, ht⟩ hg
              · rfl
            · rfl
          rw [this _ rfl]
        · intro k j
          simp only [List.mem_cons, i3]
          constructor
          · rintro ⟨h, h'⟩; exact ⟨.inr h, h'⟩
          · rintro ⟨rfl | h, h'⟩
            · exact absurd ⟨j, h'⟩ hg
            · exact ⟨h, h'⟩
  obtain ⟨keys, k1, k2, k3⟩ := key c.fieldNames
  refine ⟨keys, h1.sublist k1, k2, ?_, k1⟩
  intro k i
  rw [k3, test_iff]
  have := h2 k (.desc i)
  simp only [fields, List.mem_map, Prod.mk.injEq, Val.isField, and_true] at this
  rw [← this]
  constructor
  · rintro ⟨h, h', h''⟩; exact ⟨⟨k, h, rfl, h'⟩, h''⟩
  · rintro ⟨⟨k', h, rfl, h'⟩, h''⟩; exact ⟨h, h', h''⟩

/-- a macro and a function -/
def exStdio : Heap := fun i => if i = 0 then { kind := .macro } else { kind := .function [] [] }

set_option maxRecDepth 20000 in
example : (chain exStdio {} [assigns [("EOF".toList, .desc 0), ("fopen".toList, .desc 1)]]).map
    (fun p => listing p.1 (fun _ => some (.function [] [])) .functions p.2) =
    some [(some "fopen".toList, some (.function [] []))] := by decide +kernel

set_option maxRecDepth 20000 in
example : (chain exStdio {} [assigns [("EOF".toList, .desc 0), ("fopen".toList, .desc 1)]]).map
    (fun p => listing p.1 (fun _ => none) .macros p.2) = some [(some "EOF".toList, none)] := by decide +kernel

set_option maxRecDepth 20000 in
/-- **C78** is false for functions that are tested by a property, as `fclose` in lib/fbuild/config/c/c90.py:441-444:
whatever its value, it is not among `functions()`. -/
theorem C78_property_violated (value : Text → Option Res) :
    (chain (fun _ => { kind := .macro }) {} [assigns [("fclose".toList, .prop 0)]]).map
      (fun p => (fields p.2, listing p.1 value .functions p.2)) =
    some ([("fclose".toList, some (.prop 0))], []) := by rfl

end Verif.Config
