import Verif.Props.ConfigPrograms
import Verif.Props.ConfigTests
/-!
# Tests for types measure them

C163.
-/
namespace Verif.Config
open Results (code)

/-! ## Specification: what the programs print -/

/-- the integer types of C -/
inductive Sign
  | signed | unsigned | bool
  deriving DecidableEq

/-- a type: its size in bytes of eight bits, and its alignment -/
structure CType where
  size : Nat
  align : Nat
  sign : Sign

/-- What a compiler knows: the types behind a list of headers; `none`: one of the headers is missing or cannot be used there. -/
abbrev World := List Text → Option (Text → Option CType)

/-- the value of an `int` converted to the type -/
def CType.convert (t : CType) (n : Int) : Int :=
  match t.sign with
  | .signed => Int.bmod n (2 ^ (8 * t.size))
  | .unsigned => n % 2 ^ (8 * t.size)
  | .bool => if n = 0 then 0 else 1

/-- a member behind one with the size `n`: the next multiple of the alignment -/
def offset (n align : Nat) : Nat := (n + align - 1) / align * align

/-- `(int)n` with 32 bits -/
def toInt (n : Nat) : Int := Int.bmod n (2 ^ 32)

/-- the lines of C that the programs consist of -/
inductive Stmt'
  | include (file : Text)
  | typedef (name : Text)
  /-- `struct TEST { char c; type mem; };` -/
  | struct
  /-- `int main() {` -/
  | main
  | offset
  | size
  | less

/-- how a line is read; `none`: it cannot be compiled -/
def readLine (l : Text) : Option Stmt' :=
  if l = "struct TEST { char c; type mem; };".toList then some .struct
  else if l = "int main() {".toList then some .main
  else if l = "printf(\"%d\\n\", (int)offsetof(struct TEST, mem));".toList then some .offset
  else if l = "printf(\"%d\\n\", (int)sizeof(type));".toList then some .size
  else if l = "printf(\"%d\\n\", (type)~3 < (type)0);".toList then some .less
  else match behind "#include <".toList l with
    | some r => some (.include r.dropLast)
    | none => match behind "typedef ".toList l with
      | some r => some (.typedef (r.take (r.length - 6)))
      | none => none

/-- what the compiler has read: the headers, the type, whether there is the structure, and whether this is inside of `main` -/
structure Read where
  incs : List Text := []
  ty : Option CType := none
  struct : Bool := false
  main : Bool := false

/-- The numbers that are printed, each on its line; `none`: the program cannot be compiled, or it fails.  `printf` needs `stdio.h`, and
`offsetof` needs `stddef.h` and the structure; statements are inside of `main`, and declarations before it; the program ends with `return 0;`
and `}`. -/
def exec (w : World) : Read → List Text → Option (List Int)
  | _, [] => none
  | r, l :: ls =>
    if l = "return 0;".toList then (if r.main = true ∧ ls = ["}".toList] then some [] else none)
    else
      match readLine l with
      | none => none
      | some (.include f) => if r.main then none else exec w { r with incs := r.incs ++ [f] } ls
      | some (.typedef n) =>
        match w r.incs with
        | none => none
        | some types =>
          match types n with
          | none => none
          | some t => if r.main then none else exec w { r with ty := some t } ls
      | some .struct => if r.main then none else if r.ty.isSome then exec w { r with struct := true } ls else none
      | some .main => if r.main then none else exec w { r with main := true } ls
      | some .offset =>
        match r.ty with
        | none => none
        | some t =>
          if r.main = true ∧ r.struct = true ∧ "stdio.h".toList ∈ r.incs ∧ "stddef.h".toList ∈ r.incs then
            (exec w r ls).map (toInt (offset 1 t.align) :: ·)
          else none
      | some .size =>
        match r.ty with
        | none => none
        | some t => if r.main = true ∧ "stdio.h".toList ∈ r.incs then (exec w r ls).map (toInt t.size :: ·) else none
      | some .less =>
        match r.ty with
        | none => none
        | some t =>
          if r.main = true ∧ "stdio.h".toList ∈ r.incs then (exec w r ls).map ((if t.convert (-4) < t.convert 0 then 1 else 0) :: ·)
          else none

/-- programs are compiled and run by this compiler -/
def RunsIn (w : World) (run : Text → Option Text → Option Text) : Prop :=
  ∀ text stdin, run text stdin = (exec w {} (code text)).map showLines

/-- the headers that are included for a type -/
def headersFor (header : Option Text) : List Text := ["stddef.h".toList, "stdio.h".toList] ++ header.toList

/-- a type that there is: it takes some room, and all the numbers fit into an `int` -/
def CType.Usual (t : CType) : Prop := 0 < t.size ∧ t.size < 2 ^ 31 ∧ 0 < t.align ∧ t.align < 2 ^ 31

/-! ## Proofs -/

theorem toInt_small {n : Nat} (h : n < 2 ^ 31) : toInt n = n := by
  unfold toInt
  rw [Int.bmod_eq_of_le]
  · omega
  · omega

theorem offset_align {a : Nat} (h : 0 < a) : offset 1 a = a := by
  unfold offset
  rw [show 1 + a - 1 = a by omega, Nat.div_self h, Nat.one_mul]

theorem pow_big {n : Nat} (h : 0 < n) : (256 : Int) ≤ 2 ^ (8 * n) := by
  have : 2 ^ 8 ≤ 2 ^ (8 * n) := Nat.pow_le_pow_right (by decide) (by omega)
  have h2 : ((2 ^ 8 : Nat) : Int) ≤ ((2 ^ (8 * n) : Nat) : Int) := Int.ofNat_le.2 this
  rw [Int.natCast_pow] at h2
  rw [Int.natCast_pow] at h2
  simpa using h2

/-- minus four is less than zero exactly in signed types -/
theorem less_signed (t : CType) (h : 0 < t.size) : (t.convert (-4) < t.convert 0) ↔ t.sign = .signed := by
  have hp := pow_big h
  unfold CType.convert
  cases t.sign with
  | signed =>
    have hn : 256 ≤ 2 ^ (8 * t.size) := by
      have : 2 ^ 8 ≤ 2 ^ (8 * t.size) := Nat.pow_le_pow_right (by decide) (by omega)
      omega
    simp only [iff_true]
    rw [Int.bmod_eq_of_le (by omega) (by omega), Int.bmod_eq_of_le (by omega) (by omega)]
    decide
  | unsigned =>
    simp only [Int.zero_emod, reduceCtorEq, iff_false, Int.not_lt]
    exact Int.emod_nonneg _ (by omega)
  | bool => simp

set_option maxRecDepth 4000 in
theorem read_include (f : Text) : readLine ("#include <".toList ++ f ++ ['>']) = some (.include f) := by
  have h0 : "#include <".toList = ['#', 'i', 'n', 'c', 'l', 'u', 'd', 'e', ' ', '<'] := by decide +kernel
  have h2 : behind "#include <".toList ("#include <".toList ++ f ++ ['>']) = some (f ++ ['>']) := by
    unfold behind
    rw [List.append_assoc, if_pos (List.isPrefixOf_iff_prefix.2 (List.prefix_append _ _)), List.drop_left]
  unfold readLine
  rw [if_neg, if_neg, if_neg, if_neg, if_neg, h2]
  · simp
  all_goals
    rw [h0]
    simp

set_option maxRecDepth 4000 in
theorem read_typedef (n : Text) : readLine ("typedef ".toList ++ n ++ " type;".toList) = some (.typedef n) := by
  have h0 : "typedef ".toList = ['t', 'y', 'p', 'e', 'd', 'e', 'f', ' '] := by decide +kernel
  have h1 : behind "#include <".toList ("typedef ".toList ++ n ++ " type;".toList) = none := by
    unfold behind
    rw [if_neg]
    rw [Bool.not_eq_true]
    rfl
  have h2 : behind "typedef ".toList ("typedef ".toList ++ n ++ " type;".toList) = some (n ++ " type;".toList) := by
    unfold behind
    rw [List.append_assoc, if_pos (List.isPrefixOf_iff_prefix.2 (List.prefix_append _ _)), List.drop_left]
  unfold readLine
  rw [if_neg, if_neg, if_neg, if_neg, if_neg, h1, h2]
  · simp
  all_goals
    rw [h0]
    simp

/-- the lines behind the `typedef` -/
def typeLines : List Text :=
  ["struct TEST { char c; type mem; };".toList, "int main() {".toList, "printf(\"%d\\n\", (int)offsetof(struct TEST, mem));".toList,
    "printf(\"%d\\n\", (int)sizeof(type));".toList]

def intLine : Text := "printf(\"%d\\n\", (type)~3 < (type)0);".toList

def lastLines : List Text := ["return 0;".toList, "}".toList]

set_option maxRecDepth 8000 in
theorem code_start (header : Option Text) (name rest : Text) (hh : ∀ x, header = some x → '\n' ∉ x) (hn : '\n' ∉ name) :
    code (typeStart header name ++ rest) = ["#include <stddef.h>".toList, "#include <stdio.h>".toList] ++ Results.headerLine header ++
      ["typedef ".toList ++ name ++ " type;".toList] ++ typeLines ++ code rest := by
  have e : typeStart header name ++ rest = [] ++ '\n' :: ("#include <stddef.h>".toList ++ '\n' :: ("#include <stdio.h>".toList ++ '\n' ::
      (Results.includeLine header ++ '\n' :: ([] ++ '\n' :: (("typedef ".toList ++ name ++ " type;".toList) ++ '\n' ::
        ("struct TEST { char c; type mem; };\nint main() {\n    printf(\"%d\\n\", (int)offsetof(struct TEST, mem));\n    printf(\"%d\\n\", (int)sizeof(type));".toList ++ '\n' :: rest)))))) := by
    unfold typeStart
    simp
  have l0 : code ("typedef ".toList ++ name ++ " type;".toList) = ["typedef ".toList ++ name ++ " type;".toList] := by
    refine Results.code_line ⟨by simp, ?_, by simp⟩
    rw [List.mem_append, List.mem_append, not_or, not_or]
    exact ⟨⟨by decide, hn⟩, by decide⟩
  have l1 : code "#include <stddef.h>".toList = ["#include <stddef.h>".toList] := by decide +kernel
  have l2 : code "#include <stdio.h>".toList = ["#include <stdio.h>".toList] := by decide +kernel
  have l3 : code "struct TEST { char c; type mem; };\nint main() {\n    printf(\"%d\\n\", (int)offsetof(struct TEST, mem));\n    printf(\"%d\\n\", (int)sizeof(type));".toList = typeLines := by decide +kernel
  rw [e, Results.code_newline, Results.code_newline, Results.code_newline, Results.code_newline, Results.code_newline, Results.code_newline,
    Results.code_newline, Results.code_include header hh, Results.code_nil, l0, l1, l2, l3]
  simp

theorem not_return {l : Text} (h : l.head? ≠ some 'r') : l ≠ "return 0;".toList := by
  rintro rfl
  exact h rfl

theorem exec_start (w : World) (header : Option Text) (name : Text) (rest : List Text) :
    exec w {} (["#include <stddef.h>".toList, "#include <stdio.h>".toList] ++ Results.headerLine header ++
      ["typedef ".toList ++ name ++ " type;".toList] ++ typeLines ++ rest) =
    match w (headersFor header) with
    | none => none
    | some types =>
      match types name with
      | none => none
      | some t => (exec w ⟨headersFor header, some t, true, true⟩ rest).map fun l => toInt (offset 1 t.align) :: toInt t.size :: l := by
  have n1 : "#include <stddef.h>".toList ≠ "return 0;".toList := by decide +kernel
  have n2 : "#include <stdio.h>".toList ≠ "return 0;".toList := by decide +kernel
  have n3 : "struct TEST { char c; type mem; };".toList ≠ "return 0;".toList := by decide +kernel
  have n4 : "int main() {".toList ≠ "return 0;".toList := by decide +kernel
  have n5 : "printf(\"%d\\n\", (int)offsetof(struct TEST, mem));".toList ≠ "return 0;".toList := by decide +kernel
  have n6 : "printf(\"%d\\n\", (int)sizeof(type));".toList ≠ "return 0;".toList := by decide +kernel
  have r1 : readLine "#include <stddef.h>".toList = some (.include "stddef.h".toList) := read_include "stddef.h".toList
  have r2 : readLine "#include <stdio.h>".toList = some (.include "stdio.h".toList) := read_include "stdio.h".toList
  have r3 : readLine "struct TEST { char c; type mem; };".toList = some .struct := by rfl
  have r4 : readLine "int main() {".toList = some .main := by rfl
  have r5 : readLine "printf(\"%d\\n\", (int)offsetof(struct TEST, mem));".toList = some .offset := by rfl
  have r6 : readLine "printf(\"%d\\n\", (int)sizeof(type));".toList = some .size := by rfl
  have hin : "stdio.h".toList ∈ headersFor header ∧ "stddef.h".toList ∈ headersFor header := by
    unfold headersFor
    simp
  have tail : exec w ⟨headersFor header, none, false, false⟩ (["typedef ".toList ++ name ++ " type;".toList] ++ typeLines ++ rest) =
      match w (headersFor header) with
      | none => none
      | some types =>
        match types name with
        | none => none
        | some t => (exec w ⟨headersFor header, some t, true, true⟩ rest).map fun l => toInt (offset 1 t.align) :: toInt t.size :: l := by
    rw [List.append_assoc, List.singleton_append, exec, if_neg (not_return (by simp)), read_typedef]
    dsimp only
    cases w (headersFor header) with
    | none => rfl
    | some types =>
      dsimp only
      cases types name with
      | none => rfl
      | some t =>
        dsimp only
        unfold typeLines
        rw [if_neg (by simp), List.cons_append, exec, if_neg n3, r3]
        dsimp only
        rw [if_neg (by simp), if_pos (by rfl), List.cons_append, exec, if_neg n4, r4]
        dsimp only
        rw [if_neg (by simp), List.cons_append, exec, if_neg n5, r5]
        dsimp only
        rw [if_pos ⟨rfl, rfl, hin⟩, List.cons_append, exec, if_neg n6, r6]
        dsimp only
        rw [if_pos ⟨rfl, hin.1⟩, List.nil_append]
        cases exec w ⟨headersFor header, some t, true, true⟩ rest <;> rfl
  rw [← tail]
  cases header with
  | none =>
    simp only [Results.headerLine, headersFor, Option.toList, List.cons_append, List.nil_append, List.append_nil]
    rw [exec, if_neg n1, r1]
    dsimp only
    rw [if_neg (by simp), exec, if_neg n2, r2]
    rfl
  | some h =>
    simp only [Results.headerLine, headersFor, Option.toList, List.cons_append, List.nil_append]
    rw [exec, if_neg n1, r1]
    dsimp only
    rw [if_neg (by simp), exec, if_neg n2, r2]
    dsimp only
    rw [if_neg (by simp), exec, if_neg (not_return (by simp)), read_include]
    rfl

theorem exec_last (w : World) (incs : List Text) (t : CType) : exec w ⟨incs, some t, true, true⟩ lastLines = some [] := by
  rw [lastLines, exec, if_pos rfl, if_pos ⟨rfl, rfl⟩]

/-- **C163**, types: the test of a type has its alignment and its size if the compiler knows the type behind the header of the class of
tests, and is `None` otherwise. -/
theorem C163_type (w : World) (run : Text → Option Text → Option Text) (hr : RunsIn w run) (other : Desc → Option Text → Text)
    (header : Option Text) (hh : ∀ x, header = some x → '\n' ∉ x) (d : Desc) (n : Text) (hk : d.kind = .type) (hname : d.name = some n)
    (ht : d.test = none) (hn : '\n' ∉ n) :
    (∀ types t, w (headersFor header) = some types → types n = some t → t.Usual →
      evaluate (formatTest other) run (header.map some) d = .value (some (.type t.align t.size))) ∧
    ((∀ types, w (headersFor header) = some types → types n = none) →
      evaluate (formatTest other) run (header.map some) d = .value none) := by
  have hp : formatTest other d header = typeProgram header n := by simp [formatTest, hk, hname]
  have hprog : Program (formatTest other) d header (typeProgram header n) := hp ▸ .generated (.inl ht)
  have hinc : Includes (header.map some) d.kind header := by
    cases header with
    | none => exact .noHeader _
    | some h => exact .found h _ (by rw [hk]; simp)
  have hc : code "    return 0;\n}\n".toList = lastLines := by decide +kernel
  have hrun := hr (typeProgram header n) d.stdin
  unfold typeProgram at hrun
  rw [code_start header n _ hh hn, hc, exec_start] at hrun
  constructor
  · intro types t h1 h2 hu
    obtain ⟨u1, u2, u3, u4⟩ := hu
    rw [h1] at hrun
    dsimp only at hrun
    rw [h2] at hrun
    dsimp only at hrun
    rw [exec_last, offset_align u3, toInt_small u2, toInt_small u4] at hrun
    exact C77_type _ run _ d hk hinc hprog t.align t.size hrun
  · intro h
    refine C77_type_fails _ run _ d ?_
    intro h' p hi hpr
    have hh' : h' = header := by
      rw [hk] at hi
      cases header with
      | none =>
        cases hi
        rfl
      | some x =>
        cases hi
        rfl
    subst hh'
    have hpp : p = typeProgram h' n := by
      cases hpr with
      | given t h1 h2 => rw [ht] at h1; cases h1
      | generated _ => exact hp
    rw [hpp]
    unfold typeProgram
    rw [hrun]
    cases hw : w (headersFor h') with
    | none => rfl
    | some types =>
      dsimp only
      rw [h types hw]
      rfl

/-- **C163**, integer types: also whether the type has negative numbers. -/
theorem C163_int_type (w : World) (run : Text → Option Text → Option Text) (hr : RunsIn w run) (other : Desc → Option Text → Text)
    (header : Option Text) (hh : ∀ x, header = some x → '\n' ∉ x) (d : Desc) (n : Text) (hk : d.kind = .intType) (hname : d.name = some n)
    (ht : d.test = none) (hn : '\n' ∉ n) :
    (∀ types t, w (headersFor header) = some types → types n = some t → t.Usual →
      evaluate (formatTest other) run (header.map some) d = .value (some (.intType t.align t.size (decide (t.sign = .signed))))) ∧
    ((∀ types, w (headersFor header) = some types → types n = none) →
      evaluate (formatTest other) run (header.map some) d = .value none) := by
  have hp : formatTest other d header = intTypeProgram header n := by simp [formatTest, hk, hname]
  have hprog : Program (formatTest other) d header (intTypeProgram header n) := hp ▸ .generated (.inl ht)
  have hinc : Includes (header.map some) d.kind header := by
    cases header with
    | none => exact .noHeader _
    | some h => exact .found h _ (by rw [hk]; simp)
  have hc : code "    printf(\"%d\\n\", (type)~3 < (type)0);\n    return 0;\n}\n".toList = intLine :: lastLines := by decide +kernel
  have hrun := hr (intTypeProgram header n) d.stdin
  unfold intTypeProgram at hrun
  rw [code_start header n _ hh hn, hc, exec_start] at hrun
  constructor
  · intro types t h1 h2 hu
    obtain ⟨u1, u2, u3, u4⟩ := hu
    rw [h1] at hrun
    dsimp only at hrun
    rw [h2] at hrun
    dsimp only at hrun
    have hl : exec w ⟨headersFor header, some t, true, true⟩ (intLine :: lastLines) = some [if decide (t.sign = .signed) then 1 else 0] := by
      have r1 : readLine intLine = some .less := by rfl
      have hin : "stdio.h".toList ∈ headersFor header := by
        unfold headersFor
        simp
      rw [exec, if_neg (by decide +kernel), r1]
      dsimp only
      rw [if_pos ⟨rfl, hin⟩, exec_last]
      have := less_signed t u1
      by_cases hs : t.sign = .signed
      · rw [if_pos (this.2 hs)]
        simp [hs]
      · rw [if_neg (fun h => hs (this.1 h))]
        simp [hs]
    rw [hl, offset_align u3, toInt_small u2, toInt_small u4] at hrun
    exact C77_int_type _ run _ d hk hinc hprog t.align t.size _ hrun
  · intro h
    refine C77_type_fails _ run _ d ?_
    intro h' p hi hpr
    have hh' : h' = header := by
      rw [hk] at hi
      cases header with
      | none =>
        cases hi
        rfl
      | some x =>
        cases hi
        rfl
    subst hh'
    have hpp : p = intTypeProgram h' n := by
      cases hpr with
      | given t h1 h2 => rw [ht] at h1; cases h1
      | generated _ => exact hp
    rw [hpp]
    unfold intTypeProgram
    rw [hrun]
    cases hw : w (headersFor h') with
    | none => rfl
    | some types =>
      dsimp only
      rw [h types hw]
      rfl

/-! ## An instance -/

/-- a compiler for 32 bits with `stdint.h` -/
def cc32 : World := fun incs =>
  if incs.any (fun h => h ∉ ["stddef.h".toList, "stdio.h".toList, "stdint.h".toList]) then none
  else some fun n =>
    if n = "int64_t".toList ∧ "stdint.h".toList ∈ incs then some ⟨8, 4, .signed⟩
    else if n = "uint16_t".toList ∧ "stdint.h".toList ∈ incs then some ⟨2, 2, .unsigned⟩
    else none

def cc32Run (text : Text) (_ : Option Text) : Option Text := (exec cc32 {} (code text)).map showLines

example : RunsIn cc32 cc32Run := fun _ _ => rfl

example : CType.Usual ⟨8, 4, .signed⟩ ∧ CType.Usual ⟨2, 2, .unsigned⟩ := by unfold CType.Usual; decide

set_option maxRecDepth 20000 in
example : evaluate (formatTest fun _ _ => []) cc32Run (some (some "stdint.h".toList)) { kind := .intType, name := some "int64_t".toList } =
      .value (some (.intType 4 8 true)) ∧
    evaluate (formatTest fun _ _ => []) cc32Run (some (some "stdint.h".toList)) { kind := .intType, name := some "uint16_t".toList } =
      .value (some (.intType 2 2 false)) ∧
    evaluate (formatTest fun _ _ => []) cc32Run none { kind := .type, name := some "uint16_t".toList } = .value none := by
  decide +kernel

end Verif.Config
