import Verif.Builders.Found
import Verif.Props.DBNull
import Verif.Props.Clean
/-!
# What was found out about the machine (C144)
-/
namespace Verif.Builders.Found
open Verif.Calls Verif.DB

variable {B R : Type} [DecidableEq B]

/-- the files there are -/
def isFile (fs : FS) (p : Text) : Bool := (fs.content (file p)).isSome

/-- The first name, in the order given, that is a file by itself or in a directory, there in the first directory; `none` if there is none. -/
inductive First (ok : Text → Bool) (join : Text → Text → Text) (paths : List Text) : List Text → Option Text → Prop
  | none : First ok join paths [] none
  | here {n : Text} (ns : List Text) : ok n = true → First ok join paths (n :: ns) (some n)
  | inside {n : Text} (ns before after : List Text) (p : Text) : ok n = false → paths = before ++ p :: after →
      (∀ q ∈ before, ok (join q n) = false) → ok (join p n) = true → First ok join paths (n :: ns) (some (join p n))
  | next {n : Text} {ns : List Text} {r : Option Text} : ok n = false → (∀ q ∈ paths, ok (join q n) = false) →
      First ok join paths ns r → First ok join paths (n :: ns) r

theorem inPaths_runs (sg : Sig B R) (clk : Nat → Nat) (callF : FunName → B → Mach B R → Calls.Outcome B R) (join : Text → Text → Text)
    (found : Text → R) (name : Text) (next : Prog B R) (m : Mach B R) (ps : List Text) :
    (∃ before p after, ps = before ++ p :: after ∧ (∀ q ∈ before, isFile m.sys.env.fs (join q name) = false) ∧
      isFile m.sys.env.fs (join p name) = true ∧
      runProg sg clk callF (inPaths join found name next ps) m = (some (found (join p name)), .none, m)) ∨
    ((∀ q ∈ ps, isFile m.sys.env.fs (join q name) = false) ∧
      runProg sg clk callF (inPaths join found name next ps) m = runProg sg clk callF next m) := by
  induction ps with
  | nil => exact .inr ⟨by simp, rfl⟩
  | cons p ps ih =>
    rw [inPaths, runProg]
    by_cases hp : (m.sys.env.fs.content (file (join p name))).isSome
    · refine .inl ⟨[], p, ps, rfl, by simp, hp, ?_⟩
      rw [if_pos hp]
      rfl
    · rw [if_neg hp]
      have hp' : isFile m.sys.env.fs (join p name) = false := by
        unfold isFile
        simpa using hp
      rcases ih with ⟨before, q, after, h1, h2, h3, h4⟩ | ⟨h1, h2⟩
      · refine .inl ⟨p :: before, q, after, by rw [h1]; rfl, ?_, h3, h4⟩
        intro x hx
        rcases List.mem_cons.1 hx with rfl | hx
        · exact hp'
        · exact h2 x hx
      · refine .inr ⟨?_, h2⟩
        intro x hx
        rcases List.mem_cons.1 hx with rfl | hx
        · exact hp'
        · exact h1 x hx

theorem search_runs (sg : Sig B R) (clk : Nat → Nat) (callF : FunName → B → Mach B R → Calls.Outcome B R) (join : Text → Text → Text)
    (found : Text → R) (paths : List Text) (m : Mach B R) (names : List Text) :
    ∃ r, First (isFile m.sys.env.fs) join paths names r ∧
      runProg sg clk callF (search join found paths names) m = (r.map found, .none, m) := by
  induction names with
  | nil => exact ⟨none, .none, rfl⟩
  | cons n ns ih =>
    rw [search, runProg]
    by_cases hn : (m.sys.env.fs.content (file n)).isSome
    · refine ⟨some n, .here ns hn, ?_⟩
      rw [if_pos hn]
      rfl
    · rw [if_neg hn]
      have hn' : isFile m.sys.env.fs n = false := by
        unfold isFile
        simpa using hn
      rcases inPaths_runs sg clk callF join found n (search join found paths ns) m paths with
        ⟨before, p, after, h1, h2, h3, h4⟩ | ⟨h1, h2⟩
      · exact ⟨some (join p n), .inside ns before after p hn' h1 h2 h3, h4⟩
      · obtain ⟨r, h3, h4⟩ := ih
        exact ⟨r, .next hn' h1 h3, by rw [h2, h4]⟩

/-- the database after a call was prepared -/
def asked (sg : Sig B R) (clk : Nat → Nat) (f : FunName) (b : B) (m : Mach B R) : Sys B R :=
  (step sg (step sg m.sys (.tick (clk m.next))).2 (.prepare m.next f b)).2

/-- **C144**, if the search is made: a call of `find_program` that the database lets run gives the first program that there is now, and
raises if there is none (or if the database cannot store the result). -/
theorem C144_search_partial (sg : Sig B R) (script : Script B R) (clk : Nat → Nat) (n : Nat) (f : FunName) (b : B) (m : Mach B R)
    (join : Text → Text → Text) (found : Text → R) (names paths : List Text)
    (hb : ∀ code, script f code b = search join found paths names)
    (hrun : (step sg (step sg m.sys (.tick (clk m.next))).2 (.prepare m.next f b)).1 = .run) :
    ∃ r, First (isFile m.sys.env.fs) join paths names r ∧
      ((callFn sg script clk (n + 1) f b m).1 = r.map found ∨
        (callFn sg script clk (n + 1) f b m).1 = none ∧
          ∃ x, r = some x ∧ (step sg (asked sg clk f b m) (.complete m.next (found x) [] [] [])).1 ≠ .done) := by
  unfold callFn askCall
  simp only
  generalize hm1 : ((({ m with stack := noteCall f m.stack, next := m.next + 1 } : Mach B R).event sg (.tick (clk m.next))).2) = m1
  have hs1 : m1.sys = (step sg m.sys (.tick (clk m.next))).2 := by rw [← hm1]; rfl
  have he1 : m1.sys.env.fs = m.sys.env.fs := by rw [hs1]; rfl
  have hprep : (m1.event sg (.prepare m.next f b)).1 = (step sg m1.sys (.prepare m.next f b)).1 := rfl
  have hsys : (m1.event sg (.prepare m.next f b)).2.sys = asked sg clk f b m := by rw [asked, ← hs1]; rfl
  have henv : (m1.event sg (.prepare m.next f b)).2.sys.env = m1.sys.env := by
    show (step sg m1.sys (.prepare m.next f b)).2.env = _
    simp only [step, stepPrepare]
    split
    · rfl
    · split
      · rfl
      · split <;> rfl
  rw [hs1, hrun] at hprep
  generalize hev : m1.event sg (.prepare m.next f b) = ev at hprep henv hsys
  obtain ⟨out, m2⟩ := ev
  simp only at hprep henv hsys
  subst hprep
  simp only [runCall]
  obtain ⟨r, h1, h2⟩ := search_runs sg clk (callFn sg script clk n) join found paths { m2 with stack := [] :: m2.stack } names
  simp only [henv, he1] at h1
  refine ⟨r, h1, ?_⟩
  rw [hb, h2]
  cases r with
  | none => exact .inl rfl
  | some x =>
    simp only [Option.map_some]
    have hc : ((({ m2 with stack := m2.stack } : Mach B R).event sg (.complete m.next (found x) [] [] [])).1) =
        (step sg (asked sg clk f b m) (.complete m.next (found x) [] [] [])).1 := by rw [← hsys]; rfl
    simp only [Reports.none]
    generalize ({ m2 with stack := m2.stack } : Mach B R).event sg (.complete m.next (found x) [] [] []) = q at hc ⊢
    obtain ⟨o, m3⟩ := q
    simp only at hc
    cases o with
    | done => exact .inl rfl
    | hit _ => exact .inr ⟨rfl, x, rfl, by rw [← hc]; simp⟩
    | run => exact .inr ⟨rfl, x, rfl, by rw [← hc]; simp⟩
    | raised _ => exact .inr ⟨rfl, x, rfl, by rw [← hc]; simp⟩
    | deleted _ => exact .inr ⟨rfl, x, rfl, by rw [← hc]; simp⟩

/-- The call was executed and stored with result `r`; neither sources nor destinations were declared or reported.  Since then there was
no equal call and no deletion of the function, and its text and the text of those it calls are as they were.  Files may have been changed. -/
structure Remembered (sg : Sig B R) (tr : Trace B R) (s : Sys B R) (f : FunName) (b : B) (r : R) : Prop where
  exec : ∃ later s1 id deps mid s0 rest code,
    tr = later ++ (s1, .complete id r deps [] []) :: (mid ++ (s0, .prepare id f b) :: rest) ∧
    (step sg s0 (.prepare id f b)).1 = .run ∧ (∀ q ∈ mid, q.2.ends id = false) ∧
    (step sg s1 (.complete id r deps [] [])).1 = .done ∧
    s0.env.funDigest f = some code ∧ s.env.funDigest f = some code ∧
    sg.srcs f code b = [] ∧ sg.returnDsts f code r = [] ∧ sg.dsts f code b = [] ∧
    (∀ l1 q l2, later = l1 ++ q :: l2 → Elsewhere sg f b []
      (l2 ++ (s1, .complete id r deps [] []) :: (mid ++ (s0, .prepare id f b) :: rest)) q.2)
  notStale : ¬ Stale s f
  shallow : Shallow s f

/-- **C144** is false: whatever has happened to the files of the machine, a function such as `find_program` that declares none is answered
with what was found at first. -/
theorem C144_remembered_violated {sg : Sig B R} {vers : FileName → Nat → Option Content} {crashes : Bool} {tr : Trace B R} {s : Sys B R}
    (h : History sg vers crashes tr s) {f : FunName} {b : B} {r : R} (hr : Remembered sg tr s f b r) (id : Nat) :
    (step sg s (.prepare id f b)).1 = .hit r := by
  obtain ⟨⟨later, s1, id0, deps, mid, s0, rest, code, h1, h2, h3, h4, h5, h6, hs, hd1, hd2, h7⟩, h8, h9⟩ := hr
  refine C06_null_call_partial h ⟨⟨later, s1, id0, deps, [], [], mid, s0, rest, code, h1, h2, h3, h4, h5, h6, ?_, ?_, ?_, ?_⟩, h8, h9⟩ id
  · rw [hs]
    intro x hx
    cases hx
  · intro x hx
    cases hx
  · rw [hs]
    exact h7
  · rw [hd1, hd2]
    intro x hx
    cases hx

/-! ### A compiler that is removed -/

namespace Ex
open Verif.Calls.Bad CDB

def names : List Text := ["gcc".toList, "cc".toList]
def paths : List Text := ["/usr/bin".toList]
def join (a b : Text) : Text := a ++ '/' :: b
def sg : Sig Nat String := ⟨fun _ _ _ => [], fun _ _ _ => [], fun _ _ _ => []⟩
def script : Script Nat String := fun _ _ _ => search join String.ofList paths names
def main : Prog Nat String := .call "find_program" 0 (orRaise .ret)
def first : Mach Nat String := start [("/usr/bin/gcc", 1, "elf"), ("/usr/bin/cc", 1, "elf")] [("find_program", "text")]
def later : Mach Nat String := edit sg "/usr/bin/gcc" 50 none (run sg script main first).2

set_option maxRecDepth 20000 in
/-- gcc is found; after it was removed it is still what `find_program` returns, although a search finds cc -/
theorem C144_removed_violated :
    (run sg script main first).1 = some "/usr/bin/gcc" ∧
    later.sys.env.fs.content "/usr/bin/gcc" = none ∧
    (run sg script main later).1 = some "/usr/bin/gcc" ∧
    (clean sg script main later).1 = some "/usr/bin/cc" := by decide +kernel

/-- the search for gcc, its end, and the removal of the file -/
def evs : List (Event Nat String) :=
  [.prepare 0 "find_program" 0, .complete 0 "/usr/bin/gcc" [] [] [], .edit "/usr/bin/gcc" none]

example : Remembered sg (runEvents sg [] first.sys evs).1 (after sg first.sys evs) "find_program" 0 "/usr/bin/gcc" := by
  have key : (after sg first.sys evs).db.functions = [("find_program", ("text", []))] := by decide
  have nocall : ∀ f g, ¬ RecCall (storage Nat String) (after sg first.sys evs).db f g := by
    rintro f g ⟨fid, d, deps, h1, h2⟩
    simp only [storage, findFunction, key, Dict.get?] at h1
    split at h1
    · simp at h1; obtain ⟨_, _, rfl⟩ := h1; cases h2
    · simp at h1
  refine ⟨?_, ?_, ⟨fun _ => 0, fun f g h => absurd h (nocall f g), by decide⟩⟩
  · refine ⟨(runEvents sg [] first.sys evs).1.take 1, after sg first.sys [.prepare 0 "find_program" 0], 0, [], [], first.sys, [], "text",
      rfl, by decide, by simp, by decide, by decide, by decide, rfl, rfl, rfl, ?_⟩
    intro l1 q l2 hl
    simp only [evs, runEvents, List.take] at hl
    rcases l1 with _ | ⟨_, l1⟩ <;> simp only [List.nil_append, List.cons_append, List.cons.injEq] at hl
    · obtain ⟨rfl, rfl⟩ := hl
      trivial
    · obtain ⟨_, hl⟩ := hl
      simp at hl
  · rintro ⟨g, h1, h2⟩
    cases h1 with
    | refl => exact h2 "find_program" "text" [] (by decide) (by decide)
    | step hc _ => exact absurd hc (nocall _ _)

/-- a search that is made, in the first build, and can be stored -/
example : (callFn sg script (fun n => 100 + n) 5 "find_program" 0 first).1 = some "/usr/bin/gcc" ∧
    ∃ r, First (isFile first.sys.env.fs) join paths names r ∧
    ((callFn sg script (fun n => 100 + n) 5 "find_program" 0 first).1 = r.map String.ofList ∨
      (callFn sg script (fun n => 100 + n) 5 "find_program" 0 first).1 = none ∧
        ∃ x, r = some x ∧ (step sg (asked sg (fun n => 100 + n) "find_program" 0 first) (.complete 0 (String.ofList x) [] [] [])).1 ≠ .done) :=
  ⟨by decide +kernel,
    C144_search_partial sg script (fun n => 100 + n) 4 "find_program" 0 first join String.ofList names paths (fun _ => rfl) (by decide)⟩

end Ex

end Verif.Builders.Found
