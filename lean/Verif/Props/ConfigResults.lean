import Verif.Config.Results
import Std.Data.String.ToNat
/-!
# What configuration tests return (C141), and the programs that they run (C142)
-/
namespace Verif.Config.Results

/-! ## C141 -/

/-- not a function -/
def Result.Plain : Result → Prop
  | .function _ _ => False
  | _ => True

/-- **C141**, results that are not functions: they are equal exactly if they describe the same. -/
theorem C141_equal_partial (a b : Result) (h : a.Plain ∨ b.Plain) : ∃ e, eq a b = some e ∧ (e = true ↔ a = b) := by
  cases a <;> cases b <;> simp only [Result.Plain, or_self, or_true, true_or] at h <;>
    refine ⟨_, rfl, ?_⟩ <;> simp [and_assoc]

theorem tyEq_function (r r' : Ty) (as as' : List Ty) : tyEq (.function r as) (.function r' as') ≠ some true := by
  rw [tyEq]
  split <;> simp

/-- **C141** is false for functions: no function is equal to a function, not even to itself, and the comparison raises an exception if
they return the same type. -/
theorem C141_function_violated (r r' : Ty) (as as' : List Ty) :
    eq (.function r as) (.function r' as') ≠ some true ∧
    (∀ s, eq (.function (.text s) as) (.function (.text s) as') = none) := by
  refine ⟨tyEq_function r r' as as', fun s => ?_⟩
  simp [eq, tyEq]

theorem tyEq_sound : ∀ a b : Ty, tyEq a b = some false → a ≠ b
  | .text a, .text b, h, he => by
    cases he
    simp [tyEq] at h
  | .text _, .function _ _, _, he => by cases he
  | .function _ _, .text _, _, he => by cases he
  | .function r as, .function r' as', h, he => by
    cases he
    rw [tyEq] at h
    split at h
    · cases h
    · rename_i hf
      exact tyEq_sound r r hf rfl
    · cases h

/-- **C141**: whatever is compared, an answer that is given is right; functions are only ever found to be different. -/
theorem C141_answer (a b : Result) (e : Bool) (h : eq a b = some e) : e = true ↔ a = b := by
  by_cases hp : a.Plain ∨ b.Plain
  · obtain ⟨e', h', hi⟩ := C141_equal_partial a b hp
    rw [h] at h'
    cases h'
    exact hi
  · cases a <;> cases b <;> simp only [Result.Plain, not_or, not_true_eq_false, not_false_eq_true, and_true, and_false, true_and, false_and, and_self] at hp
    rename_i r as r' as'
    cases e with
    | true => exact absurd h (C141_function_violated r r' as as').1
    | false =>
      simp only [Bool.false_eq_true, false_iff]
      intro he
      cases he
      exact tyEq_sound _ _ h rfl

/-- **C141**: equal results have the same hash. -/
theorem C141_hash (a b : Result) (hash : Key → Int) (h : eq a b = some true) : hash (key a) = hash (key b) := by
  rw [(C141_answer a b true h).1 rfl]

mutual
theorem Ty.key_inj : ∀ a b : Ty, a.key = b.key → a = b
  | .text a, .text b, h => by
    simp only [Ty.key, Key.text.injEq] at h
    rw [h]
  | .text a, .function r as, h => by simp [Ty.key] at h
  | .function r as, .text b, h => by simp [Ty.key] at h
  | .function r as, .function r' as', h => by
    simp only [Ty.key, Key.tuple.injEq, List.cons.injEq, true_and, and_true] at h
    rw [Ty.key_inj r r' h.1, Ty.keys_inj as as' h.2]
theorem Ty.keys_inj : ∀ as bs : List Ty, Ty.keys as = Ty.keys bs → as = bs
  | [], [], _ => rfl
  | [], b :: bs, h => by simp [Ty.keys] at h
  | a :: as, [], h => by simp [Ty.keys] at h
  | a :: as, b :: bs, h => by
    simp only [Ty.keys, List.cons.injEq] at h
    rw [Ty.key_inj a b h.1, Ty.keys_inj as bs h.2]
end

set_option maxRecDepth 4000 in
/-- **C141**: the hash takes account of all that a result describes: results for which the same is hashed are the same. -/
theorem C141_hashed (a b : Result) (h : key a = key b) : a = b := by
  have hm : ∀ ms ms' : List (Text × Text), (ms.map fun m => Key.tuple [.text m.1, .text m.2]) = (ms'.map fun m => Key.tuple [.text m.1, .text m.2]) →
      ms = ms' := by
    intro ms
    induction ms with
    | nil => intro ms' h; cases ms' <;> simp at h ⊢
    | cons m ms ih =>
      intro ms' h
      cases ms' with
      | nil => simp at h
      | cons m' ms' =>
        simp only [List.map_cons, List.cons.injEq, Key.tuple.injEq, Key.text.injEq, and_true] at h
        rw [ih ms' h.2, Prod.ext h.1.1 h.1.2]
  cases a <;> cases b <;> simp only [key, Key.tuple.injEq, Key.cls.injEq, Key.int.injEq, Key.bool.injEq, List.cons.injEq, true_and, and_true,
    reduceCtorEq, and_false] at h
  case function.function r as r' as' => rw [Ty.key_inj r r' h.1, Ty.keys_inj as as' h.2]
  case type.type => rw [h.1, h.2]
  case intType.intType => rw [h.1, h.2.1, h.2.2]
  case struct.struct ms ms' => rw [hm ms ms' h]
  all_goals first
    | rfl
    | (exfalso; simp at h)

theorem reprs_text (args : List Text) : Ty.reprs (args.map .text) = args.map fun s => '\'' :: s ++ ['\''] := by
  induction args with
  | nil => rfl
  | cons a as ih => exact congrArg (_ :: ·) ih

/-- the arguments of a call, as they are written -/
def written : List Text → Text
  | [] => []
  | s :: l => s ++ l.flatMap fun t => ", ".toList ++ t

theorem commas_written (l : List Text) : commas l = written l := by
  induction l with
  | nil => rfl
  | cons s l ih =>
    cases l with
    | nil => simp [commas, written]
    | cons t l =>
      rw [commas, ih]
      simp [written]

theorem call_text (p r : Text) (args : List Text) :
    p ++ ('\'' :: r ++ ['\'']) ++ (if (args.map Ty.text).isEmpty then [] else ',' :: ' ' :: written (args.map fun s => '\'' :: s ++ ['\''])) ++ [')'] =
      p ++ written ((r :: args).map fun s => '\'' :: s ++ ['\'']) ++ [')'] := by
  cases args <;> simp [written]

theorem repr_function (r : Ty) (as : List Ty) : Ty.repr (.function r as) =
    "Function(".toList ++ r.repr ++ (if as.isEmpty then [] else ',' :: ' ' :: commas (Ty.reprs as)) ++ [')'] := by
  with_unfolding_all rfl

theorem function_text (r : Text) (args : List Text) : Ty.repr (.function (.text r) (args.map .text)) =
    "Function(".toList ++ written ((r :: args).map fun s => '\'' :: s ++ ['\'']) ++ [')'] := by
  rw [repr_function, reprs_text, commas_written]
  exact call_text _ r args

/-- **C141**: what `repr` writes is the call that makes the result, with the arguments in their order. -/
theorem C141_repr_text :
    (∀ a s : Int, repr (.type a s) = some ("Type(" ++ toString a ++ ", " ++ toString s ++ ")").toList) ∧
    (∀ a s : Int, repr (.intType a s true) = some ("IntType(" ++ toString a ++ ", " ++ toString s ++ ", True)").toList ∧
      repr (.intType a s false) = some ("IntType(" ++ toString a ++ ", " ++ toString s ++ ", False)").toList) ∧
    repr .macro = some "Macro()".toList ∧ repr .variable = some "Variable()".toList ∧
    (∀ (r : Text) (args : List Text), repr (.function (.text r) (args.map .text)) =
      some ("Function(".toList ++ written ((r :: args).map fun s => '\'' :: s ++ ['\'']) ++ [')'])) := by
  refine ⟨?_, ?_, rfl, rfl, ?_⟩
  · intro a s
    simp [repr, commas, number]
  · intro a s
    simp [repr, commas, number, truth]
  · intro r args
    exact congrArg some (function_text r args)

/-- `C141_hashed`, `C141_repr_text` -/
example : key (.struct [(['i'], ['x'])]) ≠ key (.struct [(['i'], ['y'])]) ∧
    repr (.function (.text "int".toList) [.text "char*".toList]) = some "Function('int', 'char*')".toList ∧
    repr (.intType 4 8 true) = some "IntType(4, 8, True)".toList :=
  ⟨fun h => absurd (C141_hashed _ _ h) (by simp), (C141_repr_text.2.2.2.2 _ [_]).trans (by decide +kernel), by decide +kernel⟩

/-- **C141** is false for structs: they cannot be written by `repr`, all others can. -/
theorem C141_repr_violated (a : Result) : repr a = none ↔ ∃ ms, a = .struct ms := by
  cases a <;> simp [repr]

/-- `C141_equal_partial` -/
example : eq (.intType 4 4 true) (.intType 4 4 false) = some false ∧ eq (.struct [(['i'], ['x'])]) (.struct [(['i'], ['x'])]) = some true ∧
    eq (.type 4 4) (.intType 4 4 true) = some false := by decide +kernel

/-! ## C142 -/

/-- the lines of a text -/
def split : Text → List Text
  | [] => [[]]
  | c :: s =>
    if c = '\n' then [] :: split s
    else match split s with
      | [] => [[c]]
      | l :: ls => (c :: l) :: ls

/-- the lines that are not empty, without the blanks at their beginning -/
def code (s : Text) : List Text := ((split s).map (fun l => l.dropWhile (fun c => decide (c = ' ')))).filter (fun l => decide (l ≠ []))

/-- a text that stands on a line of its own -/
def Line (s : Text) : Prop := s ≠ [] ∧ '\n' ∉ s ∧ s.head? ≠ some ' '

theorem split_ne (s : Text) : split s ≠ [] := by
  cases s with
  | nil => simp [split]
  | cons c s =>
    rw [split]
    split
    · simp
    · split <;> simp

theorem split_newline (a b : Text) : split (a ++ '\n' :: b) = split a ++ split b := by
  induction a with
  | nil => simp [split]
  | cons c a ih =>
    rw [List.cons_append, split, split]
    split
    · rw [ih]; rfl
    · rw [ih]
      cases h : split a with
      | nil => exact absurd h (split_ne a)
      | cons l ls => rfl

theorem code_newline (a b : Text) : code (a ++ '\n' :: b) = code a ++ code b := by
  unfold code
  rw [split_newline, List.map_append, List.filter_append]

theorem code_blank (s : Text) : code (' ' :: s) = code s := by
  unfold code
  rw [split, if_neg (by decide)]
  cases h : split s with
  | nil => exact absurd h (split_ne s)
  | cons l ls => simp [List.dropWhile_cons]

theorem split_line {s : Text} (h : '\n' ∉ s) : split s = [s] := by
  induction s with
  | nil => rfl
  | cons c s ih =>
    rw [List.mem_cons, not_or] at h
    rw [split, if_neg (Ne.symm h.1), ih h.2]

theorem code_line {s : Text} (h : Line s) : code s = [s] := by
  unfold code
  rw [split_line h.2.1]
  cases s with
  | nil => exact absurd rfl h.1
  | cons c s =>
    have : c ≠ ' ' := fun hc => h.2.2 (by rw [hc]; rfl)
    simp [List.dropWhile_cons, this]

theorem code_nil : code [] = [] := rfl

/-- a line of `main` -/
def margin : Text := "\n    ".toList

theorem code_margin (a b : Text) : code (a ++ margin ++ b) = code a ++ code b := by
  show code (a ++ ['\n', ' ', ' ', ' ', ' '] ++ b) = _
  rw [List.append_assoc]
  show code (a ++ '\n' :: (' ' :: ' ' :: ' ' :: ' ' :: b)) = _
  rw [code_newline, code_blank, code_blank, code_blank, code_blank]

theorem code_join : ∀ ls : List Text, code (join margin ls) = ls.flatMap code
  | [] => rfl
  | [l] => by simp [join]
  | l :: m :: ls => by rw [join, code_margin, code_join (m :: ls)]; simp

/-- the first and the last lines of a program -/
def opening : Text := "int main() {".toList
def closing : List Text := ["return 0;".toList, ['}']]

theorem code_main (first : Text) (ss : List Text) :
    code (mainProgram first ss) = code first ++ [opening] ++ ss.flatMap code ++ closing := by
  have e : mainProgram first ss = [] ++ '\n' :: (first ++ '\n' :: (opening ++ margin ++ (join margin ss ++ margin ++
      ("return 0;".toList ++ '\n' :: (['}'] ++ '\n' :: []))))) := by
    unfold mainProgram opening margin
    simp
  rw [e, code_newline, code_newline, code_margin, code_margin, code_newline, code_newline, code_join]
  have h1 : code opening = [opening] := code_line ⟨by decide, by decide, by decide⟩
  have h2 : code "return 0;".toList = ["return 0;".toList] := code_line ⟨by decide, by decide, by decide⟩
  have h3 : code ['}'] = [['}']] := code_line ⟨by decide, by decide, by decide⟩
  rw [h1, h2, h3, code_nil]
  simp [closing]

/-- the line for the header of the test -/
def headerLine : Option Text → List Text
  | none => []
  | some h => ["#include <".toList ++ h ++ ['>']]

theorem code_include (header : Option Text) (h : ∀ x, header = some x → '\n' ∉ x) : code (includeLine header) = headerLine header := by
  cases header with
  | none => rfl
  | some x =>
    unfold includeLine headerLine
    have hb : "#include <".toList = ['#', 'i', 'n', 'c', 'l', 'u', 'd', 'e', ' ', '<'] := by decide +kernel
    rw [hb]
    refine code_line ⟨by simp, ?_, by simp⟩
    rw [List.mem_append, List.mem_append, not_or, not_or]
    exact ⟨⟨by decide, h x rfl⟩, by decide⟩

theorem digits_line (i : Nat) : '\n' ∉ argName i := by
  unfold argName digits
  rw [List.mem_append, not_or]
  refine ⟨by decide, fun h => ?_⟩
  have := Nat.isDigit_of_mem_toDigits (b := 10) (n := i) (c := '\n') (by decide) (by decide) (Nat.toList_repr ▸ h)
  exact absurd this (by decide)

theorem argName_inj {i j : Nat} (h : argName i = argName j) : i = j := by
  unfold argName digits at h
  exact Nat.repr_injective (String.toList_inj.1 (List.append_cancel_left h))

/-- the declaration of a variable -/
def declare (v : Text × Text) : Text := v.1 ++ ' ' :: v.2 ++ [';']

/-- the words for a call whose result is kept, unless there is none -/
def callLine (ret name : Text) (args : List Text) : Text :=
  (if ret = "void".toList then [] else ret ++ " res = ".toList) ++ name ++ ['('] ++ [',', ' '].intercalate args ++ [')', ';']

theorem commas_intercalate : ∀ ls : List Text, commas ls = [',', ' '].intercalate ls
  | [] => rfl
  | [l] => by simp [commas, List.intercalate]
  | l :: m :: ls => by
    rw [commas, commas_intercalate (m :: ls)]
    simp [List.intercalate]

/-- the variables for the parameters -/
def vars : Nat → List Text → List (Text × Text)
  | _, [] => []
  | i, t :: ts => if t = "void".toList then vars (i + 1) ts else (t, argName i) :: vars (i + 1) ts

theorem vars_types (ts : List Text) : ∀ i, (vars i ts).map Prod.fst = ts.filter (fun t => decide (t ≠ "void".toList)) := by
  induction ts with
  | nil => intro i; rfl
  | cons t ts ih =>
    intro i
    rw [vars, List.filter_cons]
    by_cases h : t = "void".toList
    · rw [if_pos h, if_neg (by simp [h]), ih]
    · rw [if_neg h, if_pos (by simpa using h), List.map_cons, ih]

theorem vars_names (ts : List Text) : ∀ i, ∀ v ∈ vars i ts, ∃ j, i ≤ j ∧ v.2 = argName j := by
  induction ts with
  | nil => intro i v hv; cases hv
  | cons t ts ih =>
    intro i v hv
    rw [vars] at hv
    split at hv
    · obtain ⟨j, h1, h2⟩ := ih _ v hv
      exact ⟨j, by omega, h2⟩
    · rcases List.mem_cons.1 hv with rfl | hv
      · exact ⟨i, Nat.le_refl _, rfl⟩
      · obtain ⟨j, h1, h2⟩ := ih _ v hv
        exact ⟨j, by omega, h2⟩

theorem vars_nodup (ts : List Text) : ∀ i, ((vars i ts).map Prod.snd).Nodup := by
  induction ts with
  | nil => intro i; exact List.Pairwise.nil
  | cons t ts ih =>
    intro i
    rw [vars]
    split
    · exact ih _
    · rw [List.map_cons, List.nodup_cons]
      refine ⟨?_, ih _⟩
      intro hm
      obtain ⟨v, hv, he⟩ := List.mem_map.1 hm
      obtain ⟨j, h1, h2⟩ := vars_names ts _ v hv
      have := argName_inj (h2.symm.trans he)
      omega

theorem params_text (ts : List Text) : ∀ i, params i (ts.map .text) = some ((vars i ts).map fun v => (v.2, declare v)) := by
  induction ts with
  | nil => intro i; rfl
  | cons t ts ih =>
    intro i
    rw [List.map_cons, params, ih, param, vars]
    by_cases h : t = "void".toList
    · simp only [if_pos h]
    · simp only [if_neg h]
      rfl

theorem declare_line {v : Text × Text} (h1 : Line v.1) (h2 : '\n' ∉ v.2) : Line (declare v) := by
  unfold declare
  refine ⟨by simp, ?_, ?_⟩
  · simp only [List.mem_append, List.mem_cons, not_or]
    exact ⟨⟨h1.2.1, by decide, h2⟩, by decide, by simp⟩
  · cases hv : v.1 with
    | nil => exact absurd hv h1.1
    | cons c s =>
      have := h1.2.2
      rw [hv] at this
      exact this

theorem newline_intercalate : ∀ ls : List Text, (∀ l ∈ ls, '\n' ∉ l) → '\n' ∉ commas ls
  | [], _ => by simp [commas]
  | [l], h => h l (.head _)
  | l :: m :: ls, h => by
    rw [commas]
    simp only [List.mem_append, List.mem_cons, not_or]
    exact ⟨h l (.head _), by decide, by decide, newline_intercalate (m :: ls) (fun x hx => h x (.tail _ hx))⟩

theorem flatMap_lines : ∀ ls : List Text, (∀ l ∈ ls, Line l) → ls.flatMap code = ls
  | [], _ => rfl
  | l :: ls, h => by
    rw [List.flatMap_cons, code_line (h l (.head _)), flatMap_lines ls (fun x hx => h x (.tail _ hx))]
    rfl

theorem callText_line (ret name : Text) (args : List Text) : callText name (.text ret) args ++ [';'] = callLine ret name args := by
  unfold callText callLine
  rw [commas_intercalate]
  by_cases h : ret = "void".toList <;> simp [isVoid, Ty.str, h]

theorem callLine_line {ret name : Text} {args : List Text} (hr : Line ret) (hn : Line name) (ha : ∀ a ∈ args, '\n' ∉ a) :
    Line (callLine ret name args) := by
  unfold callLine
  rw [← commas_intercalate]
  refine ⟨by simp, ?_, ?_⟩
  · simp only [List.mem_append, not_or]
    refine ⟨⟨⟨⟨?_, hn.2.1⟩, by decide⟩, newline_intercalate _ ha⟩, by decide⟩
    split
    · simp
    · rw [List.mem_append, not_or]
      exact ⟨hr.2.1, by decide⟩
  · split
    · cases hv : name with
      | nil => exact absurd hv hn.1
      | cons c s =>
        have := hn.2.2
        rw [hv] at this
        exact this
    · cases hv : ret with
      | nil => exact absurd hv hr.1
      | cons c s =>
        have := hr.2.2
        rw [hv] at this
        exact this

/-- **C142**: the program of a function test includes the header, declares one variable for each parameter, with its type and different
names, and calls the function with these, in the order of the parameters, keeping the result if there is one; it does nothing else.
Partial: the types are texts (`C142_callback_violated`). -/
theorem C142_function_partial (header : Option Text) (name ret : Text) (types : List Text) (hh : ∀ x, header = some x → '\n' ∉ x)
    (hn : Line name) (hr : Line ret) (ht : ∀ t ∈ types, Line t) :
    ∃ (prog : Text) (vs : List (Text × Text)), functionProgram header name (.text ret) (types.map .text) [] = some prog ∧
      vs.map Prod.fst = types.filter (fun t => decide (t ≠ "void".toList)) ∧ (vs.map Prod.snd).Nodup ∧
      code prog = headerLine header ++ [opening] ++ vs.map declare ++ [callLine ret name (vs.map Prod.snd)] ++ closing := by
  have hv : ∀ v ∈ vars 0 types, Line (declare v) ∧ '\n' ∉ v.2 := by
    intro v hv
    obtain ⟨j, _, hj⟩ := vars_names types 0 v hv
    have h1 : v.1 ∈ types := by
      have : v.1 ∈ (vars 0 types).map Prod.fst := List.mem_map_of_mem hv
      rw [vars_types] at this
      exact (List.mem_filter.1 this).1
    have h2 : '\n' ∉ v.2 := hj ▸ digits_line j
    exact ⟨declare_line (ht _ h1) h2, h2⟩
  refine ⟨mainProgram (includeLine header) [join "\n    ".toList (((vars 0 types).map fun v => (v.2, declare v)).map Prod.snd),
    callText name (.text ret) (((vars 0 types).map fun v => (v.2, declare v)).map Prod.fst) ++ [';']],
    vars 0 types, ?_, vars_types types 0, vars_nodup types 0, ?_⟩
  · unfold functionProgram
    rw [if_neg (by simp), params_text]
  · have hj : ∀ a b, code (mainProgram (includeLine header) [join "\n    ".toList a, b]) =
        headerLine header ++ [opening] ++ (a.flatMap code ++ code b) ++ closing := by
      intro a b
      rw [code_main, code_include header hh, List.flatMap_cons, List.flatMap_cons, List.flatMap_nil, List.append_nil]
      rw [show code (join "\n    ".toList a) = a.flatMap code from code_join a]
    rw [hj, callText_line, List.map_map, List.map_map]
    have e1 : (vars 0 types).map (Prod.snd ∘ fun v => (v.2, declare v)) = (vars 0 types).map declare := rfl
    have e2 : (vars 0 types).map (Prod.fst ∘ fun v => (v.2, declare v)) = (vars 0 types).map Prod.snd := rfl
    show headerLine header ++ [opening] ++ (((vars 0 types).map (Prod.snd ∘ fun v => (v.2, declare v))).flatMap code ++
      code (callLine ret name ((vars 0 types).map (Prod.fst ∘ fun v => (v.2, declare v))))) ++ closing = _
    rw [e1, e2, flatMap_lines _ (by
      intro l hl
      obtain ⟨v, hm, rfl⟩ := List.mem_map.1 hl
      exact (hv v hm).1), code_line (callLine_line hr hn (by
      intro l hl
      obtain ⟨v, hm, rfl⟩ := List.mem_map.1 hl
      exact (hv v hm).2))]
    simp

/-- **C142**, with `default_args`: the function is called with these. -/
theorem C142_defaults (header : Option Text) (name ret : Text) (types : List Ty) (defaults : List Text) (hh : ∀ x, header = some x → '\n' ∉ x)
    (hn : Line name) (hr : Line ret) (h0 : defaults ≠ []) (hd : ∀ t ∈ defaults, '\n' ∉ t) :
    ∃ prog, functionProgram header name (.text ret) types defaults = some prog ∧
      code prog = headerLine header ++ [opening] ++ [callLine ret name defaults] ++ closing := by
  unfold functionProgram
  rw [if_pos h0]
  refine ⟨_, rfl, ?_⟩
  rw [code_main, code_include header hh, List.flatMap_cons, List.flatMap_cons, List.flatMap_nil, List.append_nil, callText_line,
    code_line (callLine_line hr hn hd), code_nil]
  rfl

/-- how a member of the struct is read into a variable -/
def readMember (v : (Text × Text) × Text) : Text := v.1.1 ++ ' ' :: v.2 ++ " = arg.".toList ++ v.1.2 ++ [';']

theorem memberDefs_names : ∀ (ms : List (Text × Text)) (i : Nat), ∃ names : List Text, names.length = ms.length ∧ names.Nodup ∧
    (∀ n ∈ names, ∃ j, i ≤ j ∧ n = argName j) ∧ memberDefs i ms = (ms.zip names).map readMember
  | [], i => ⟨[], rfl, List.Pairwise.nil, by simp, rfl⟩
  | (ty, m) :: ms, i => by
    obtain ⟨names, h1, h2, h3, h4⟩ := memberDefs_names ms (i + 1)
    refine ⟨argName i :: names, by simp [h1], ?_, ?_, ?_⟩
    · rw [List.nodup_cons]
      refine ⟨fun hm => ?_, h2⟩
      obtain ⟨j, hj, he⟩ := h3 _ hm
      have := argName_inj he
      omega
    · intro n hn
      rcases List.mem_cons.1 hn with rfl | hn
      · exact ⟨i, Nat.le_refl _, rfl⟩
      · obtain ⟨j, hj, he⟩ := h3 n hn
        exact ⟨j, by omega, he⟩
    · rw [memberDefs, h4]
      rfl

/-- **C142**: the program of a struct test declares the struct and reads every member into a variable of its type. -/
theorem C142_struct (header : Option Text) (name : Text) (members : List (Text × Text)) (hh : ∀ x, header = some x → '\n' ∉ x)
    (hn : Line name) (hm : ∀ m ∈ members, Line m.1 ∧ '\n' ∉ m.2) :
    ∃ names : List Text, names.length = members.length ∧ names.Nodup ∧
      code (structProgram header name members) =
        headerLine header ++ [opening] ++ [name ++ " arg;".toList] ++ (members.zip names).map readMember ++ closing := by
  obtain ⟨names, h1, h2, h3, h4⟩ := memberDefs_names members 0
  refine ⟨names, h1, h2, ?_⟩
  unfold structProgram
  rw [code_main, code_include header hh, List.flatMap_cons, List.flatMap_cons, List.flatMap_nil, List.append_nil,
    show code (join "\n    ".toList (memberDefs 0 members)) = _ from code_join _, h4, flatMap_lines, code_line]
  · simp
  · refine ⟨by simp, ?_, ?_⟩
    · rw [List.mem_append, not_or]
      exact ⟨hn.2.1, by decide⟩
    · cases hv : name with
      | nil => exact absurd hv hn.1
      | cons c s =>
        have := hn.2.2
        rw [hv] at this
        exact this
  · intro l hl
    obtain ⟨v, hv, rfl⟩ := List.mem_map.1 hl
    obtain ⟨hv1, hv2⟩ := List.of_mem_zip (a := v.1) (b := v.2) hv
    obtain ⟨j, _, hj⟩ := h3 _ hv2
    obtain ⟨hl1, hl2⟩ := hm _ hv1
    unfold readMember
    refine ⟨by simp, ?_, ?_⟩
    · simp only [List.mem_append, List.mem_cons, not_or]
      exact ⟨⟨⟨⟨hl1.2.1, by decide, hj ▸ digits_line j⟩, by decide⟩, hl2⟩, by decide, by simp⟩
    · cases hv : v.1.1 with
      | nil => exact absurd hv hl1.1
      | cons c s =>
        have := hl1.2.2
        rw [hv] at this
        exact this

/-- **C142**: the program of a variable test uses the variable. -/
theorem C142_variable (header : Option Text) (name : Text) (hh : ∀ x, header = some x → '\n' ∉ x) (hn : Line name) :
    code (variableProgram header name) = headerLine header ++ [opening] ++ [name ++ [';']] ++ closing := by
  unfold variableProgram
  rw [code_main, code_include header hh, List.flatMap_cons, List.flatMap_nil, List.append_nil, code_line]
  refine ⟨by simp, ?_, ?_⟩
  · rw [List.mem_append, not_or]
    exact ⟨hn.2.1, by decide⟩
  · cases hv : name with
    | nil => exact absurd hv hn.1
    | cons c s =>
      have := hn.2.2
      rw [hv] at this
      exact this

/-- **C142** is false for a parameter that is a function: its variable is declared with Python's text for the type, and what is passed is
a declaration and no variable. -/
theorem C142_callback_violated :
    (functionProgram none "atexit".toList (.text "int".toList) [.function (.text "void".toList) [.text "void".toList]] []).map code =
      some [opening, "Function('void', 'void') arg_0;".toList, "int res = atexit(void (arg_0)(void));".toList, "return 0;".toList, ['}']] := by
  decide +kernel

/-- **C142** is false for functions of functions: for any of them there is an exception instead of a program. -/
theorem C142_nested_violated (header : Option Text) (name : Text) (ret r r' : Ty) (as as' before after ts : List Ty) :
    functionProgram header name ret (.function r (before ++ .function r' as' :: after) :: ts) [] = none := by
  have key : joinTypes (before ++ .function r' as' :: after) = none := by
    unfold joinTypes
    split
    · rename_i h
      simp at h
    · rename_i h
      rw [List.mapM_append]
      simp
  unfold functionProgram
  rw [if_neg (by simp)]
  simp only [params, param, key]

/-- `C142_function_partial`, `C142_struct` -/
example : (functionProgram (some "math.h".toList) "frexp".toList (.text "double".toList) [.text "double".toList, .text "int*".toList] []).map code =
    some ["#include <math.h>".toList, opening, "double arg_0;".toList, "int* arg_1;".toList, "double res = frexp(arg_0, arg_1);".toList,
      "return 0;".toList, ['}']] ∧
    code (structProgram none "struct div_t".toList [("int".toList, "quot".toList)]) =
      [opening, "struct div_t arg;".toList, "int arg_0 = arg.quot;".toList, "return 0;".toList, ['}']] := by
  decide +kernel

end Verif.Config.Results
