import Verif.Msvc.Shown
import Verif.Props.Msvc
/-!
# Visual C: what the user sees

C150: what the tools say is shown to the user, and the result of a call is that of the tool.
-/
namespace Verif.Msvc.Shown

/-! ## Specification -/

/-- a line, without its end -/
def Line (l : Text) : Prop := '\n' ∉ l

/-- what the user should see of the output of a linker: all lines but one -/
def seen (silent : Text) (ls : List Text) : Text :=
  ls.flatMap (fun l => if l ++ ['\n'] = silent then [] else l ++ ['\n'])

/-! ## Proofs -/

theorem lines_all (ls : List Text) (h : ∀ l ∈ ls, Line l) : lines (ls.flatMap (· ++ ['\n'])) = ls.map (· ++ ['\n']) := by
  induction ls with
  | nil => rfl
  | cons l ls ih =>
    rw [List.flatMap_cons, List.map_cons, List.append_assoc, List.singleton_append, lines_line _ _ (h l (by simp)),
      ih fun m hm => h m (by simp [hm])]

theorem hidden (out : Out) (v l : Nat) (h : v < l) : executeShows v l out = [] := by
  have : ¬ l ≤ v := by omega
  cases out with
  | text s => simp only [executeShows, if_neg this]; split <;> rfl
  | bytes r => simp only [executeShows, if_neg this]

/-- **C150**: a compilation that succeeds, at the usual level of messages, shows everything that the compiler says but
the notes about headers and the name of the source, once and in order, and succeeds.

Partial: at a higher level it is shown twice (`C150_twice_violated`). -/
theorem C150_compile_partial (relpath : Text → Option Text) (srcName : Text) (ms : List Msg) (h : ∀ m ∈ ms, m.Plain) :
    compile relpath 0 0 0 srcName 0 (.text (ms.flatMap Msg.text)) = ⟨ms.flatMap (Msg.shown srcName), .ok⟩ := by
  simp only [compile, ↓reduceIte, hidden (.text (ms.flatMap Msg.text)) 0 (outLevel 0) (by decide)]
  have := (C90_output_partial relpath true srcName ms h).2
  simp only [if_true] at this
  simp [this]

/-- **C150**: a compilation that fails shows everything that the compiler says but the notes about headers, once and in
order, and raises `ExecutionError`.

Partial: a line that is the name of the source without its extension is left out, instead of the name
(`C150_name_violated`). -/
theorem C150_fails_partial (relpath : Text → Option Text) (srcName : Text) (code : Nat) (hc : code ≠ 0) (ms : List Msg)
    (h : ∀ m ∈ ms, m.Plain) :
    compile relpath 0 0 0 srcName code (.text (ms.flatMap Msg.text)) =
      ⟨ms.flatMap (Msg.shown (Posix.splitext srcName).1), .executionError⟩ := by
  simp only [compile, if_neg hc, hidden (.text (ms.flatMap Msg.text)) 0 (outLevel 0) (by decide)]
  simp only [and_self, decide_true, ↓reduceIte, List.nil_append, Outcome.mk.injEq, and_true]
  unfold failLines
  rw [lines_text ms h]
  generalize (Posix.splitext srcName).1 = stem
  induction ms with
  | nil => rfl
  | cons m ms ih =>
    have hm := h m (by simp)
    have ih := ih fun m hm => h m (by simp [hm])
    rw [List.map_cons, List.flatMap_cons, ← ih]
    cases m with
    | note d p =>
      rw [List.filter_cons_of_neg (by simp [depLine_note d p hm])]
      rfl
    | other l =>
      have e : ((Msg.other l).text ≠ stem ++ "\r\n".toList) ↔ ¬ l = stem ++ ['\r'] := by
        have : stem ++ "\r\n".toList = (stem ++ ['\r']) ++ ['\n'] := by rw [rn]; simp
        simp only [Msg.text, this, ne_eq]
        rw [nl, List.append_left_inj]
      by_cases hl : l = stem ++ ['\r']
      · have : ¬ ((Msg.other l).text ≠ stem ++ "\r\n".toList) := fun hn => e.mp hn hl
        rw [List.filter_cons_of_neg (by simpa [depLine_other l hm] using this)]
        simp [Msg.shown, hl]
      · have : (Msg.other l).text ≠ stem ++ "\r\n".toList := e.mpr hl
        rw [List.filter_cons_of_pos (by simpa [depLine_other l hm] using this)]
        simp only [List.flatten_cons, Msg.shown, if_neg hl, Msg.text, nl]

/-- **C150**: with a level for the output, and in a build that is not more verbose, nothing is shown, and the call ends as the
compiler does.

Partial: `quieter` alone counts as 1, whatever it is (`C150_quieter_violated`). -/
theorem C150_quiet_partial (relpath : Text → Option Text) (v q s : Nat) (hq : q ≠ 0 ∨ s ≠ 0) (hv : v = 0 ∨ v < s)
    (srcName text : Text) (code : Nat) :
    compile relpath v q s srcName code (.text text) = ⟨[], if code = 0 then .ok else .executionError⟩ := by
  have hl : v < outLevel s := by
    unfold outLevel; split <;> omega
  have hloud : ¬ (q = 0 ∧ s = 0) := by omega
  have hread : ∀ (ls : List Text), (read relpath false srcName ls).2 = [] := by
    intro ls
    induction ls with
    | nil => rfl
    | cons l ls ih =>
      simp only [read]
      cases depLine l with
      | none => simpa using ih
      | some p =>
        cases hr : relpath p <;> simpa [hr] using ih
  simp only [compile, hidden _ v _ hl, hloud, decide_false]
  by_cases hc : code = 0
  · simp only [if_pos hc, compileOutput, hread, List.append_nil]
  · simp only [if_neg hc, Bool.false_eq_true, ↓reduceIte]

/-- **C150**: linking a shared library, at the usual level of messages, shows everything that the linker says but that it
makes the two other files, once and in order, and succeeds.

Partial: if it fails nothing is shown (`C150_dll_violated`). -/
theorem C150_dll_partial (s : Nat) (lib exp : Text) (ls : List Text) (h : ∀ l ∈ ls, Line l) :
    dllLink 0 s lib exp 0 (.text (ls.flatMap (· ++ ['\n']))) =
      ⟨seen ("   Creating library ".toList ++ lib ++ " and object ".toList ++ exp ++ "\r\n".toList) ls, .ok⟩ := by
  simp only [dllLink, ↓reduceIte, hidden _ 0 (outLevel s) (by unfold outLevel; split <;> omega), List.nil_append,
    Outcome.mk.injEq, and_true]
  rw [lines_all ls h]
  change _ = seen (creating lib exp) ls
  generalize creating lib exp = x
  clear h
  induction ls with
  | nil => rfl
  | cons l ls ih =>
    simp only [seen, List.map_cons, List.flatMap_cons] at ih ⊢
    by_cases hl : l ++ ['\n'] = x
    · rw [List.filter_cons_of_neg (by simpa using hl), if_pos hl, List.nil_append, ih]
    · rw [List.filter_cons_of_pos (by simpa using hl), if_neg hl, List.flatten_cons, ih]

/-- **C150**: what linking a program or a static library says is shown exactly from the level on that was asked for,
and the call ends as the linker does; also if it fails, and if the output cannot be decoded. -/
theorem C150_link (v q : Nat) (s : Option Nat) (code : Nat) (text : Text) (hn : text ≠ []) :
    (plainLink v q s code (.text text)).screen =
      (if (match s with | some s => s | none => q) ≤ v then rstrip text ++ ['\n'] else []) ∧
    (∀ out, (plainLink v q s code out).result = .ok ↔ code = 0) := by
  constructor
  · cases s <;> simp [plainLink, execute, executeShows, hn]
  · intro out
    simp only [plainLink, execute]
    split <;> simp_all

/-- what `rstrip` leaves: all but white space at the end -/
theorem C150_stripped (s : Text) : ∃ w, s = rstrip s ++ w ∧ (∀ c ∈ w, c ∈ [' ', '\t', '\n', '\r', '\x0b', '\x0c']) ∧
    ∀ c, (rstrip s).getLast? = some c → c ∉ [' ', '\t', '\n', '\r', '\x0b', '\x0c'] := by
  refine ⟨(s.reverse.takeWhile (fun c => c ∈ [' ', '\t', '\n', '\r', '\x0b', '\x0c'])).reverse, ?_, ?_, ?_⟩
  · rw [rstrip, ← List.reverse_append, List.takeWhile_append_dropWhile, List.reverse_reverse]
  · intro c hc
    have := List.all_takeWhile (l := s.reverse) (p := fun c => decide (c ∈ [' ', '\t', '\n', '\r', '\x0b', '\x0c']))
    rw [List.all_eq_true] at this
    simpa using this c (List.mem_reverse.1 hc)
  · intro c hc
    rw [rstrip, List.getLast?_reverse] at hc
    have := List.head?_dropWhile_not (fun c => decide (c ∈ [' ', '\t', '\n', '\r', '\x0b', '\x0c'])) s.reverse
    rw [hc] at this
    simpa using this

/-! ## Violations and examples -/

/-- **C150** is false in a verbose build: each warning is shown twice, and the notes are shown too. -/
theorem C150_twice_violated :
    compile some 1 0 0 "a.c".toList 0 (.text "a.c\r\nNote: including file: a.h\r\na.c(3): warning\r\n".toList) =
      ⟨"a.c\r\nNote: including file: a.h\r\na.c(3): warning\na.c(3): warning\r\n".toList, .ok⟩ := by
  have : (compile some 1 0 0 "a.c".toList 0 (.text "a.c\r\nNote: including file: a.h\r\na.c(3): warning\r\n".toList)).screen =
    "a.c\r\nNote: including file: a.h\r\na.c(3): warning\na.c(3): warning\r\n".toList := by decide +kernel
  rw [← this]
  rfl

/-- **C150** is false for the name of the source when the compiler fails: it is shown. -/
theorem C150_name_violated :
    (compile some 0 0 0 "a.c".toList 2 (.text "a.c\r\na.c(3): error\r\n".toList)).screen =
      "a.c\r\na.c(3): error\r\n".toList := by decide +kernel

/-- **C150** is false for `quieter` above 1: the whole output, with the notes, is shown at level 1. -/
theorem C150_quieter_violated :
    (compile some 1 2 0 "a.c".toList 0 (.text "a.c\r\nNote: including file: a.h\r\n".toList)).screen =
      "a.c\r\nNote: including file: a.h\n".toList := by decide +kernel

/-- **C150** is false for a shared library that cannot be linked: whatever the linker says, nothing of it is shown at the
usual level of messages. -/
theorem C150_dll_violated (lib exp : Text) (code : Nat) (hc : code ≠ 0) (out : Out) :
    dllLink 0 0 lib exp code out = ⟨[], .executionError⟩ := by
  simp only [dllLink, if_neg hc, hidden out 0 (outLevel 0) (by decide)]

/-- **C150** is false for output that cannot be decoded, such as that of a compiler for another language: the compiler
and the linker succeed, and the call raises. -/
theorem C150_bytes_violated (relpath : Text → Option Text) (v q s : Nat) (srcName lib exp repr : Text) :
    (compile relpath v q s srcName 0 (.bytes repr)).result = .decodeError ∧
    (dllLink v s lib exp 0 (.bytes repr)).result = .decodeError := by
  constructor <;> simp [compile, dllLink]

/-- hypotheses met: an error and a warning -/
example :
    let ms := [Msg.other "a.c\r".toList, .note 0 "a.h".toList, .other "a.c(3): error\r".toList, .other "a\r".toList]
    (∀ m ∈ ms, m.Plain) ∧ ms.flatMap (Msg.shown "a.c".toList) = "a.c(3): error\r\na\r\n".toList ∧
    ms.flatMap (Msg.shown (Posix.splitext "a.c".toList).1) = "a.c\r\na.c(3): error\r\n".toList := by
  refine ⟨?_, by decide +kernel, by decide +kernel⟩
  simp only [List.mem_cons, List.not_mem_nil, or_false, forall_eq_or_imp, forall_eq]
  refine ⟨⟨by decide +kernel, by decide +kernel⟩, ⟨by decide +kernel, by decide +kernel⟩, ⟨by decide +kernel, by decide +kernel⟩,
    by decide +kernel, by decide +kernel⟩

/-- hypotheses met: the linker warns -/
example :
    let ls := ["   Creating library a.lib and object a.exp\r".toList, "warning LNK4075\r".toList]
    (∀ l ∈ ls, Line l) ∧
    seen ("   Creating library ".toList ++ "a.lib".toList ++ " and object ".toList ++ "a.exp".toList ++ "\r\n".toList) ls =
      "warning LNK4075\r\n".toList ∧
    (dllLink 0 0 "a.lib".toList "a.exp".toList 0 (.text (ls.flatMap (· ++ ['\n'])))).screen =
      "warning LNK4075\r\n".toList := by
  refine ⟨?_, by decide +kernel, by decide +kernel⟩
  simp only [List.mem_cons, List.not_mem_nil, or_false, forall_eq_or_imp, forall_eq, Line]
  exact ⟨by decide +kernel, by decide +kernel⟩

example : (plainLink 1 1 none 2 (.text "error\r\n".toList)).screen = "error\n".toList ∧
    (plainLink 0 1 none 2 (.text "error\r\n".toList)).screen = [] := by decide +kernel

end Verif.Msvc.Shown
