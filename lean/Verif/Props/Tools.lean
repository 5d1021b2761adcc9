import Verif.Calls.Tools
import Verif.Props.Clean
/-!
# Incremental builds of projects that compile and link

C84.
-/
namespace Verif.Calls
open Verif.DB
set_option linter.unusedSectionVars false

variable {B : Type} [DecidableEq B]

/-- What is asked of a project.  `header x`: `x` is a file that compilers may read although it is not declared. -/
structure Tools.Ok (T : Tools B) (header : FileName → Prop) : Prop where
  /-- different calls of tools write different files -/
  distinct : ∀ f b f' b', T.group f = false → T.group f' = false → T.out f b = T.out f' b' → f = f' ∧ b = b'
  /-- what a tool writes is not a header -/
  outputs : ∀ f b, T.group f = false → ¬ header (T.out f b)
  /-- a tool reads declared sources; one that reports what it reads may read all headers -/
  reads : ∀ f code b seen x, T.group f = false → T.next f code b seen = .more x →
    x ∈ T.srcs f b ∨ (T.reports f = true ∧ header x)
  /-- no call declares a file that it writes -/
  self : ∀ f b, ∀ x ∈ T.result (f, b), x ∉ T.srcs f b
  /-- `build_objects` declares the sources of the calls it makes, and these run tools -/
  parts : ∀ f b, T.group f = true → ∀ c ∈ T.parts f b, T.group c.1 = false ∧ (T.text c.1).isSome ∧
    ∀ x ∈ T.srcs c.1 c.2, x ∈ T.srcs f b

open Classical in
/-- the layout of a project -/
noncomputable def Tools.layout (T : Tools B) (header : FileName → Prop) : Layout B where
  lib f := if T.group f then none else T.text f
  rank f := if T.group f then 1 else 0
  depth := 2
  owner x := if h : ∃ fb : FunName × B, T.group fb.1 = false ∧ T.out fb.1 fb.2 = x then some h.choose else none
  keep := header
  leaf f := T.group f = false ∧ (T.text f).isSome
  decl f b x := x ∈ T.srcs f b

theorem owner_out {T : Tools B} {header : FileName → Prop} (h : T.Ok header) {f : FunName} (hf : T.group f = false) (b : B) :
    (T.layout header).owner (T.out f b) = some (f, b) := by
  have hx : ∃ fb : FunName × B, T.group fb.1 = false ∧ T.out fb.1 fb.2 = T.out f b := ⟨(f, b), hf, rfl⟩
  simp only [Tools.layout, hx, dite_true]
  have := h.distinct _ _ _ _ hx.choose_spec.1 hf hx.choose_spec.2
  exact congrArg some (Prod.ext this.1 this.2)

theorem owner_tool {T : Tools B} {header : FileName → Prop} {x : FileName} {f : FunName} {b : B}
    (h : (T.layout header).owner x = some (f, b)) : T.group f = false := by
  simp only [Tools.layout] at h
  split at h
  · rename_i hx
    have := hx.choose_spec.1
    simp only [Option.some.injEq] at h
    rw [h] at this
    exact this
  · cases h

section tool
variable {callC : FunName → B → Files → Option (List FileName) × Files} {callT : FunName → B → Files → Trail} {next : List (FileName × Content) → Next} {rep : Bool}
  {out : FileName}

theorem tool_clean (n : Nat) (seen : List (FileName × Content)) (fs : Files) :
    cleanProg callC (toolProg next rep out n seen) fs =
      match toolRun next fs n seen with
      | none => (none, fs)
      | some (_, o) => (some [out], setFile out (some o) fs) := by
  induction n generalizing seen with
  | zero => rfl
  | succ n ih =>
    rw [toolProg, toolRun]
    cases next seen with
    | error => rfl
    | done o => rfl
    | more x =>
      simp only [cleanProg]
      cases fs x with
      | none => rfl
      | some c => exact ih _

theorem tool_trail (n : Nat) (seen : List (FileName × Content)) (fs : Files) :
    trail callC callT (toolProg (B := B) next rep out n seen) fs =
      match toolRun next fs n seen with
      | none => ⟨[], [], []⟩
      | some (all, _) => ⟨if rep then all.map (·.1) else [], [], [out]⟩ := by
  induction n generalizing seen with
  | zero => rfl
  | succ n ih =>
    rw [toolProg, toolRun]
    cases next seen with
    | error => rfl
    | done o => simp [trail, Trail.add, Trail.none]
    | more x =>
      simp only [trail]
      cases fs x with
      | none => rfl
      | some c => exact ih _

/-- what is read was there -/
theorem toolRun_seen {n : Nat} {seen all : List (FileName × Content)} {fs : Files} {o : Content}
    (h : toolRun next fs n seen = some (all, o)) :
    ∀ q ∈ all, q ∈ seen ∨ (fs q.1 = some q.2 ∧ ∃ s, next s = .more q.1) := by
  induction n generalizing seen with
  | zero => cases h
  | succ n ih =>
    rw [toolRun] at h
    cases hn : next seen with
    | error => rw [hn] at h; cases h
    | done o => rw [hn] at h; cases h; exact fun q hq => .inl hq
    | more x =>
      rw [hn] at h
      simp only at h
      cases hx : fs x with
      | none => rw [hx] at h; cases h
      | some c =>
        rw [hx] at h
        intro q hq
        rcases ih h q hq with h' | h'
        · rcases List.mem_append.1 h' with h' | h'
          · exact .inl h'
          · simp only [List.mem_singleton] at h'
            subst h'
            exact .inr ⟨hx, seen, hn⟩
        · exact .inr h'

theorem toolRun_mono {n : Nat} {seen all : List (FileName × Content)} {fs : Files} {o : Content}
    (h : toolRun next fs n seen = some (all, o)) : ∀ q ∈ seen, q ∈ all := by
  induction n generalizing seen with
  | zero => cases h
  | succ n ih =>
    rw [toolRun] at h
    cases hn : next seen with
    | error => rw [hn] at h; cases h
    | done o => rw [hn] at h; cases h; exact fun q hq => hq
    | more x =>
      rw [hn] at h
      simp only at h
      cases hx : fs x with
      | none => rw [hx] at h; cases h
      | some c =>
        rw [hx] at h
        exact fun q hq => ih h q (List.mem_append_left _ hq)

/-- a tool depends only on the files it reads -/
theorem toolRun_congr {n : Nat} {seen all : List (FileName × Content)} {fs fs' : Files} {o : Content}
    (h : toolRun next fs n seen = some (all, o)) (hag : ∀ q ∈ all, fs' q.1 = fs q.1) :
    toolRun next fs' n seen = some (all, o) := by
  induction n generalizing seen with
  | zero => cases h
  | succ n ih =>
    rw [toolRun] at h ⊢
    cases hn : next seen with
    | error => rw [hn] at h; cases h
    | done o => rw [hn] at h; exact h
    | more x =>
      rw [hn] at h
      simp only at h ⊢
      cases hx : fs x with
      | none => rw [hx] at h; cases h
      | some c =>
        rw [hx] at h
        have := hag (x, c) (toolRun_mono h _ (by simp))
        simp only at this
        rw [this, hx]
        exact ih h

theorem tool_body {ρ : Layout B} {f : FunName} {b : B} (ho : ρ.owner out = some (f, b))
    (hr : rep = true → ∀ s x, next s = .more x → ρ.keep x ∨ ((ρ.lib f = none ∨ ρ.leaf f) ∧ ρ.decl f b x)) (n : Nat)
    (seen : List (FileName × Content))
    (hs : rep = true → ∀ q ∈ seen, ρ.keep q.1 ∨ ((ρ.lib f = none ∨ ρ.leaf f) ∧ ρ.decl f b q.1)) : ρ.Body f b (toolProg next rep out n seen) := by
  induction n generalizing seen with
  | zero => trivial
  | succ n ih =>
    rw [toolProg]
    cases hn : next seen with
    | error => trivial
    | done o =>
      refine ⟨?_, ho, fun _ => rfl, trivial⟩
      intro x hx
      cases rep with
      | false => simp at hx
      | true =>
        simp only [if_true, List.mem_map] at hx
        obtain ⟨q, hq, rfl⟩ := hx
        exact hs rfl q hq
    | more x =>
      intro o
      cases o with
      | none => trivial
      | some c =>
        refine ih _ (fun hr' q hq => ?_)
        rcases List.mem_append.1 hq with hq | hq
        · exact hs hr' q hq
        · simp only [List.mem_singleton] at hq
          subst hq
          exact hr hr' seen x hn

end tool

theorem tools_call {T : Tools B} {f : FunName} (hf : T.group f = false) (ds : FunName → Option Digest) (n : Nat)
    (b : B) (fs : Files) : cleanCall T.sig T.script ds (n + 1) f b fs =
      match T.make ds (f, b) fs with
      | none => (none, fs)
      | some fs1 => (some [T.out f b], fs1) := by
  rw [cleanCall, Tools.make]
  cases hc : ds f with
  | none => rfl
  | some code =>
    simp only
    show (if (T.srcs f b).all (fun x => (fs x).isSome) then
      cleanProg (cleanCall T.sig T.script ds n) (T.script f code b) fs else (none, fs)) = _
    split
    · rw [Tools.script, hf]
      simp only [Bool.false_eq_true, if_false]
      rw [tool_clean]
      cases toolRun (T.next f code b) fs (T.most f b) [] <;> rfl
    · rfl

/-- the files that a tool reads and reports -/
def Tools.seen (T : Tools B) (f : FunName) (code : Digest) (b : B) (fs : Files) : List FileName :=
  match toolRun (T.next f code b) fs (T.most f b) [] with
  | none => []
  | some (all, _) => if T.reports f then all.map (·.1) else []

theorem make_some {T : Tools B} {ds : FunName → Option Digest} {f : FunName} {b : B} {fs fs1 : Files}
    (h : T.make ds (f, b) fs = some fs1) : ∃ code all o, ds f = some code ∧ (∀ x ∈ T.srcs f b, (fs x).isSome) ∧
      toolRun (T.next f code b) fs (T.most f b) [] = some (all, o) ∧ fs1 = setFile (T.out f b) (some o) fs := by
  rw [Tools.make] at h
  split at h
  · cases h
  · rename_i code hc
    split at h
    · rename_i hs
      rw [List.all_eq_true] at hs
      simp only [Option.map_eq_some_iff] at h
      obtain ⟨q, h1, h2⟩ := h
      exact ⟨code, q.1, q.2, hc, hs, h1, h2.symm⟩
    · cases h

theorem make_of {T : Tools B} {ds : FunName → Option Digest} {f : FunName} {b : B} {fs : Files} {code : Digest}
    {all : List (FileName × Content)} {o : Content} (hc : ds f = some code) (hs : ∀ x ∈ T.srcs f b, (fs x).isSome)
    (h : toolRun (T.next f code b) fs (T.most f b) [] = some (all, o)) :
    T.make ds (f, b) fs = some (setFile (T.out f b) (some o) fs) := by
  rw [Tools.make]
  simp only [hc]
  rw [if_pos (List.all_eq_true.2 hs), h]
  rfl

/-- a successful call -/
theorem tools_done {T : Tools B} {ds : FunName → Option Digest} {n : Nat} {f : FunName} (hf : T.group f = false)
    {b : B} {fs fs1 : Files} {r : List FileName} (h : cleanCall T.sig T.script ds (n + 1) f b fs = (some r, fs1)) :
    r = [T.out f b] ∧ T.make ds (f, b) fs = some fs1 := by
  rw [tools_call hf] at h
  split at h
  · cases h
  · rename_i h'
    cases h
    exact ⟨rfl, h'⟩

theorem tool_foot {T : Tools B} {ds : FunName → Option Digest} {n : Nat} {f : FunName} (hf : T.group f = false)
    {code : Digest} {b : B} {fs : Files} {all : List (FileName × Content)} {o : Content}
    (h : toolRun (T.next f code b) fs (T.most f b) [] = some (all, o)) :
    footprint T.sig T.script ds n f code b fs = ⟨if T.reports f then all.map (·.1) else [], [], [T.out f b]⟩ := by
  rw [footprint, Tools.script, hf]
  simp only [Bool.false_eq_true, if_false]
  rw [tool_trail, h]

/-- the files that a tool reads are among its sources -/
theorem tool_sources {T : Tools B} {header : FileName → Prop} (h : T.Ok header) {f : FunName} (hf : T.group f = false)
    {code : Digest} {b : B} {fs : Files} {all : List (FileName × Content)} {o : Content}
    (hrun : toolRun (T.next f code b) fs (T.most f b) [] = some (all, o)) :
    ∀ q ∈ all, q.1 ∈ T.srcs f b ++ (if T.reports f then all.map (·.1) else []) := by
  intro q hq
  rw [List.mem_append]
  rcases toolRun_seen hrun q hq with h' | ⟨_, s, hn⟩
  · cases h'
  · rcases h.reads f code b s _ hf hn with h' | ⟨h', _⟩
    · exact .inl h'
    · right
      rw [h']
      exact List.mem_map.2 ⟨q, hq, rfl⟩

/-- a file that a tool reads is declared, or a header -/
theorem tool_reads {T : Tools B} {header : FileName → Prop} (h : T.Ok header) {f : FunName} (hf : T.group f = false)
    {fs : Files} {code : Digest} {b : B} {all : List (FileName × Content)} {o : Content}
    (hrun : toolRun (T.next f code b) fs (T.most f b) [] = some (all, o)) :
    ∀ q ∈ all, q.1 ∈ T.srcs f b ∨ header q.1 := by
  intro q hq
  rcases toolRun_seen hrun q hq with h' | ⟨_, s, hn⟩
  · cases h'
  · rcases h.reads f code b s _ hf hn with h' | ⟨_, h'⟩
    · exact .inl h'
    · exact .inr h'

/-- two runs that find the same in the files that both read, read the same -/
theorem toolRun_same {next : List (FileName × Content) → Next} {fs fs' : Files} {n : Nat}
    {seen all all' : List (FileName × Content)} {o o' : Content}
    (h : toolRun next fs n seen = some (all, o)) (h' : toolRun next fs' n seen = some (all', o'))
    (hag : ∀ q ∈ all, ∀ q' ∈ all', q.1 = q'.1 → fs' q.1 = fs q.1) : all' = all := by
  induction n generalizing seen with
  | zero => cases h
  | succ n ih =>
    rw [toolRun] at h h'
    cases hn : next seen with
    | error => rw [hn] at h; cases h
    | done o => rw [hn] at h h'; cases h; cases h'; rfl
    | more x =>
      rw [hn] at h h'
      simp only at h h'
      cases hx : fs x with
      | none => rw [hx] at h; cases h
      | some c =>
        cases hx' : fs' x with
        | none => rw [hx'] at h'; cases h'
        | some c' =>
          rw [hx] at h
          rw [hx'] at h'
          have := hag (x, c) (toolRun_mono h _ (by simp)) (x, c') (toolRun_mono h' _ (by simp)) rfl
          simp only at this
          rw [hx, hx'] at this
          cases this
          exact ih h h'

/-! ## `build_objects` -/

/-- the tools run one after the other -/
def Tools.makeMany (T : Tools B) (ds : FunName → Option Digest) : List (FunName × B) → Files → Option Files
  | [], fs => some fs
  | c :: cs, fs => (T.make ds c fs).bind (T.makeMany ds cs)

/-- the files that are reported -/
def Tools.sources (T : Tools B) (ds : FunName → Option Digest) : List (FunName × B) → Files → List FileName
  | [], _ => []
  | c :: cs, fs =>
    match ds c.1, T.make ds c fs with
    | some code, some fs1 => T.srcs c.1 c.2 ++ T.seen c.1 code c.2 fs ++ T.sources ds cs fs1
    | _, _ => []

section group
variable {T : Tools B} {ds : FunName → Option Digest}

theorem group_clean (n : Nat) (cs : List (FunName × B)) (hcs : ∀ c ∈ cs, T.group c.1 = false) (objs : List FileName) (fs : Files) :
    match T.makeMany ds cs fs with
    | none => (cleanProg (cleanCall T.sig T.script ds (n + 1)) (groupProg cs objs) fs).1 = none
    | some fs1 => cleanProg (cleanCall T.sig T.script ds (n + 1)) (groupProg cs objs) fs =
        (some (objs ++ cs.map fun c => T.out c.1 c.2), fs1) := by
  induction cs generalizing objs fs with
  | nil => simp [Tools.makeMany, groupProg, cleanProg]
  | cons c cs ih =>
    simp only [Tools.makeMany, groupProg, cleanProg]
    rw [tools_call (hcs c (.head _))]
    cases hm : T.make ds (c.1, c.2) fs with
    | none =>
      have hm : T.make ds c fs = none := hm
      simp [hm, cleanProg]
    | some fs1 =>
      have hm : T.make ds c fs = some fs1 := hm
      simp only [hm, Option.bind_some]
      have := ih (fun c hc => hcs c (.tail _ hc)) (objs ++ [T.out c.1 c.2]) fs1
      simpa using this

theorem group_trail (n : Nat) (cs : List (FunName × B)) (hcs : ∀ c ∈ cs, T.group c.1 = false) (objs : List FileName)
    {fs fs1 : Files} (h : T.makeMany ds cs fs = some fs1) :
    ∃ dsts, trail (cleanCall T.sig T.script ds (n + 1)) (leafTrail T.sig T.script ds (cleanCall T.sig T.script ds (n + 1)))
      (groupProg cs objs) fs = ⟨T.sources ds cs fs, dsts, cs.map fun c => T.out c.1 c.2⟩ := by
  induction cs generalizing objs fs with
  | nil => exact ⟨[], rfl⟩
  | cons c cs ih =>
    simp only [Tools.makeMany, Option.bind_eq_some_iff] at h
    obtain ⟨fs2, hm, h⟩ := h
    obtain ⟨code, all, o, h1, h2, h3, h4⟩ := make_some (f := c.1) (b := c.2) hm
    have hf := hcs c (.head _)
    have hcall : cleanCall T.sig T.script ds (n + 1) c.1 c.2 fs = (some [T.out c.1 c.2], fs2) := by
      rw [tools_call hf, show T.make ds (c.1, c.2) fs = some fs2 from hm]
    obtain ⟨dsts, ih⟩ := ih (fun c hc => hcs c (.tail _ hc)) (objs ++ [T.out c.1 c.2]) h
    simp only [groupProg, trail, if_true, hcall, ih]
    rw [leafTrail, h1, hcall]
    simp only
    have htr : ∀ callC callT, trail callC callT (T.script c.1 code c.2) fs =
        ⟨if T.reports c.1 then all.map (·.1) else [], [], [T.out c.1 c.2]⟩ := by
      intro callC callT
      rw [Tools.script, hf]
      simp only [Bool.false_eq_true, if_false]
      rw [tool_trail, h3]
    rw [htr]
    refine ⟨T.out c.1 c.2 :: dsts, ?_⟩
    simp [Trail.add, Tools.sources, h1, hm, Tools.sig, Tools.seen, h3]

/-- what was not written is as before -/
theorem makeMany_frame {cs : List (FunName × B)} {fs fs1 : Files} (h : T.makeMany ds cs fs = some fs1) {x : FileName}
    (hx : ∀ c ∈ cs, x ≠ T.out c.1 c.2) : fs1 x = fs x := by
  induction cs generalizing fs with
  | nil => cases h; rfl
  | cons c cs ih =>
    simp only [Tools.makeMany, Option.bind_eq_some_iff] at h
    obtain ⟨fs2, hm, h⟩ := h
    obtain ⟨code, all, o, h1, h2, h3, rfl⟩ := make_some (f := c.1) (b := c.2) hm
    rw [ih h (fun c hc => hx c (.tail _ hc)), setFile, if_neg (hx c (.head _))]

/-- the sources are declared, or headers -/
theorem sources_kind {header : FileName → Prop} (hok : T.Ok header) {cs : List (FunName × B)}
    (hcs : ∀ c ∈ cs, T.group c.1 = false) {fs : Files} {x : FileName} (hx : x ∈ T.sources ds cs fs) :
    (∃ c ∈ cs, x ∈ T.srcs c.1 c.2) ∨ header x := by
  induction cs generalizing fs with
  | nil => cases hx
  | cons c cs ih =>
    rw [Tools.sources] at hx
    split at hx
    · rename_i code fs1 hc hm
      simp only [List.mem_append] at hx
      rcases hx with (hx | hx) | hx
      · exact .inl ⟨c, .head _, hx⟩
      · rw [Tools.seen] at hx
        split at hx
        · cases hx
        · rename_i all o hrun
          split at hx
          · obtain ⟨q, hq, rfl⟩ := List.mem_map.1 hx
            rcases tool_reads hok (hcs c (.head _)) hrun q hq with h | h
            · exact .inl ⟨c, .head _, h⟩
            · exact .inr h
          · cases hx
      · rcases ih (fun c hc => hcs c (.tail _ hc)) hx with ⟨c', h1, h2⟩ | h
        · exact .inl ⟨c', .tail _ h1, h2⟩
        · exact .inr h
    · cases hx

/-- the sources were there -/
theorem sources_exist {header : FileName → Prop} (hok : T.Ok header) {cs : List (FunName × B)}
    (hcs : ∀ c ∈ cs, T.group c.1 = false) {fs : Files} {x : FileName} (hx : x ∈ T.sources ds cs fs)
    (hn : ∀ c ∈ cs, x ≠ T.out c.1 c.2) : (fs x).isSome := by
  induction cs generalizing fs with
  | nil => cases hx
  | cons c cs ih =>
    rw [Tools.sources] at hx
    split at hx
    · rename_i code fs1 hc hm
      obtain ⟨code', all, o, h1, h2, h3, rfl⟩ := make_some (f := c.1) (b := c.2) hm
      rw [hc] at h1
      cases h1
      simp only [List.mem_append] at hx
      rcases hx with (hx | hx) | hx
      · exact h2 x hx
      · rw [Tools.seen, h3] at hx
        simp only at hx
        split at hx
        · obtain ⟨q, hq, rfl⟩ := List.mem_map.1 hx
          rcases toolRun_seen h3 q hq with h' | ⟨h', _⟩
          · cases h'
          · rw [h']; rfl
        · cases hx
      · have := ih (fun c hc => hcs c (.tail _ hc)) hx (fun c hc => hn c (.tail _ hc))
        rw [setFile, if_neg (hn c (.head _))] at this
        exact this
    · cases hx

/-- the tools depend only on their sources -/
theorem makeMany_congr {header : FileName → Prop} (hok : T.Ok header) {cs : List (FunName × B)}
    (hcs : ∀ c ∈ cs, T.group c.1 = false) {P : FileName → Prop} {fs fs1 fs2 : Files} (h : T.makeMany ds cs fs = some fs1)
    (hP : ∀ x ∈ T.sources ds cs fs, P x) (hag : ∀ x, P x → fs2 x = fs x) :
    ∃ fs3, T.makeMany ds cs fs2 = some fs3 ∧ (∀ x, P x ∨ (∃ c ∈ cs, x = T.out c.1 c.2) → fs3 x = fs1 x) := by
  induction cs generalizing fs fs2 P with
  | nil => cases h; exact ⟨fs2, rfl, by simpa using hag⟩
  | cons c cs ih =>
    simp only [Tools.makeMany, Option.bind_eq_some_iff] at h
    obtain ⟨fsa, hm, h⟩ := h
    have hf := hcs c (.head _)
    obtain ⟨code, all, o, h1, h2, h3, h4⟩ := make_some (f := c.1) (b := c.2) hm
    rw [Tools.sources] at hP
    simp only [h1, hm, List.mem_append, Tools.seen, h3] at hP
    have hag' : ∀ q ∈ all, fs2 q.1 = fs q.1 := by
      intro q hq
      exact hag _ (hP _ (.inl (List.mem_append.1 (tool_sources hok hf h3 q hq))))
    have hm2 : T.make ds c fs2 = some (setFile (T.out c.1 c.2) (some o) fs2) :=
      make_of h1 (fun x hx => by rw [hag x (hP x (.inl (.inl hx)))]; exact h2 x hx) (toolRun_congr h3 hag')
    obtain ⟨fs3, h5, h6⟩ := ih (fun c hc => hcs c (.tail _ hc)) (P := fun x => P x ∨ x = T.out c.1 c.2)
      (fs2 := setFile (T.out c.1 c.2) (some o) fs2) h (fun x hx => .inl (hP x (.inr hx))) (by
        intro x hx
        rw [h4]
        unfold setFile
        split
        · rfl
        · rename_i hne
          rcases hx with hx | hx
          · exact hag x hx
          · exact absurd hx hne)
    refine ⟨fs3, by simp [Tools.makeMany, hm2, h5], ?_⟩
    rintro x (hx | ⟨c', hc', hx⟩)
    · exact h6 x (.inl (.inl hx))
    · rcases List.mem_cons.1 hc' with rfl | hc'
      · exact h6 x (.inl (.inr hx))
      · exact h6 x (.inr ⟨c', hc', hx⟩)

end group

theorem group_call {T : Tools B} {f : FunName} (hf : T.group f = true) {ds : FunName → Option Digest} {n : Nat}
    {b : B} (hcs : ∀ c ∈ T.parts f b, T.group c.1 = false) {fs fs1 : Files} {r : List FileName}
    (h : cleanCall T.sig T.script ds (n + 2) f b fs = (some r, fs1)) :
    (∀ x ∈ T.srcs f b, (fs x).isSome) ∧ T.makeMany ds (T.parts f b) fs = some fs1 ∧
      r = (T.parts f b).map fun c => T.out c.1 c.2 := by
  rw [cleanCall] at h
  split at h
  · cases h
  · rename_i code hc
    split at h
    · rename_i hs
      rw [Tools.script, if_pos hf] at h
      have h2 := group_clean (ds := ds) n (T.parts f b) hcs [] fs
      split at h2
      · rw [h] at h2; cases h2
      · rename_i fs2 hm
        rw [h2] at h
        cases h
        exact ⟨fun x hx => (List.all_eq_true.1 hs) x hx, hm, rfl⟩
    · cases h

theorem group_call_of {T : Tools B} {f : FunName} (hf : T.group f = true) {ds : FunName → Option Digest} {n : Nat}
    {b : B} (hcs : ∀ c ∈ T.parts f b, T.group c.1 = false) {fs fs1 : Files} {code : Digest} (hc : ds f = some code)
    (hs : ∀ x ∈ T.srcs f b, (fs x).isSome) (hm : T.makeMany ds (T.parts f b) fs = some fs1) :
    cleanCall T.sig T.script ds (n + 2) f b fs = (some ((T.parts f b).map fun c => T.out c.1 c.2), fs1) := by
  rw [cleanCall]
  simp only [hc]
  rw [if_pos (show (T.sig.srcs f code b).all (fun x => (fs x).isSome) = true from List.all_eq_true.2 hs), Tools.script, if_pos hf]
  have h2 := group_clean (ds := ds) n (T.parts f b) hcs [] fs
  rw [hm] at h2
  exact h2

theorem group_foot {T : Tools B} {f : FunName} (hf : T.group f = true) {ds : FunName → Option Digest} {n : Nat} {code : Digest}
    {b : B} (hcs : ∀ c ∈ T.parts f b, T.group c.1 = false) {fs fs1 : Files} (hm : T.makeMany ds (T.parts f b) fs = some fs1) :
    ∃ dsts, footprint T.sig T.script ds (n + 1) f code b fs =
      ⟨T.sources ds (T.parts f b) fs, dsts, (T.parts f b).map fun c => T.out c.1 c.2⟩ := by
  rw [footprint, Tools.script, if_pos hf]
  exact group_trail n _ hcs [] hm

theorem group_body {ρ : Layout B} {f : FunName} {b : B} (hlib : ρ.lib f = none) (cs : List (FunName × B))
    (hcs : ∀ c ∈ cs, (ρ.lib c.1).isSome ∧ ρ.rank c.1 < ρ.rank f ∧ ρ.leaf c.1 ∧ ∀ x, ρ.decl c.1 c.2 x → ρ.decl f b x)
    (objs : List FileName) : ρ.Body f b (groupProg cs objs) := by
  induction cs generalizing objs with
  | nil => trivial
  | cons c cs ih =>
    obtain ⟨h1, h2, h3, h4⟩ := hcs c (.head _)
    refine ⟨h1, h2, by simp [h3], fun _ => ⟨hlib, fun x hx => .inr (h4 x hx)⟩, ?_⟩
    intro o
    cases o with
    | none => trivial
    | some o => exact ih (fun c hc => hcs c (.tail _ hc)) _

section wb
variable {T : Tools B} {header : FileName → Prop}

theorem layout_lib {f : FunName} (hf : T.group f = false) : (T.layout header).lib f = T.text f := by
  simp [Tools.layout, hf]

theorem group_parts (h : T.Ok header) {f : FunName} (hf : T.group f = true) (b : B) : ∀ c ∈ T.parts f b, T.group c.1 = false :=
  fun c hc => (h.parts f b hf c hc).1

/-- a source of `build_objects` is not an object file -/
theorem group_inputs (h : T.Ok header) {f : FunName} (hf : T.group f = true) {b : B} {ds : FunName → Option Digest} {fs : Files}
    {x : FileName} (hx : x ∈ T.srcs f b ++ T.sources ds (T.parts f b) fs) : ∀ c ∈ T.parts f b, x ≠ T.out c.1 c.2 := by
  intro c hc he
  have hself : x ∈ T.srcs f b → False := by
    intro hx
    refine h.self f b x ?_ hx
    simp only [Tools.result, Tools.jobs, hf, if_true]
    exact List.mem_map.2 ⟨c, hc, he.symm⟩
  rcases List.mem_append.1 hx with hx | hx
  · exact hself hx
  · rcases sources_kind h (group_parts h hf b) hx with ⟨c', h1, h2⟩ | h1
    · exact hself ((h.parts f b hf c' h1).2.2 x h2)
    · exact h.outputs c.1 c.2 (group_parts h hf b c hc) (he ▸ h1)

theorem tool_self (h : T.Ok header) {f : FunName} (hf : T.group f = false) (b : B) : T.out f b ∉ T.srcs f b :=
  h.self f b _ (by simp [Tools.result, Tools.jobs, hf])

theorem tools_wellBehaved (h : T.Ok header) : WellBehaved T.sig T.script (T.layout header) where
  rank_lt f := by simp only [Tools.layout]; split <;> decide
  body f code b _ := by
    cases hf : T.group f with
    | true =>
      rw [Tools.script, if_pos hf]
      refine group_body (by simp [Tools.layout, hf]) _ (fun c hc => ?_) _
      obtain ⟨h1, h2, h3⟩ := h.parts f b hf c hc
      refine ⟨by rw [layout_lib h1]; exact h2, by simp [Tools.layout, h1, hf], ⟨h1, h2⟩, h3⟩
    | false =>
      rw [Tools.script, hf]
      simp only [Bool.false_eq_true, if_false]
      refine tool_body (owner_out h hf b) (fun hr s x hn => ?_) _ _ (by simp)
      rcases h.reads f code b s x hf hn with hx | hx
      · refine .inr ⟨?_, hx⟩
        rw [layout_lib hf]
        cases ht : T.text f with
        | none => exact .inl rfl
        | some d => exact .inr ⟨hf, by rw [ht]; rfl⟩
      · exact .inl hx.2
  pure x f b hx := by
    have hf := owner_tool hx
    rw [layout_lib hf]
    cases ht : T.text f with
    | none => exact .inl rfl
    | some d => exact .inr ⟨hf, by rw [ht]; rfl⟩
  leaf_lib f hl := ⟨by rw [layout_lib hl.1]; exact hl.2, by simp [Tools.layout, hl.1]⟩
  declared f code b x _ hx := hx
  leaf_declared f code b x _ _ hx := hx
  leaf_same ds f b code fs r fs1 fs' r' fs1' hds hc hl hr hr' hag := by
    obtain ⟨_, hm⟩ := tools_done (n := 1) hl.1 hr
    obtain ⟨_, hm'⟩ := tools_done (n := 1) hl.1 hr'
    obtain ⟨code1, all, o, e1, h2, h3, _⟩ := make_some hm
    obtain ⟨code2, all', o', e2, h2', h3', _⟩ := make_some hm'
    rw [hc] at e1 e2
    cases e1
    cases e2
    rw [tool_foot hl.1 h3, tool_foot hl.1 h3'] at hag
    rw [tool_foot hl.1 h3]
    have : all' = all := by
      refine toolRun_same h3 h3' (fun q hq q' hq' he => hag _ (tool_sources h hl.1 h3 q hq) ?_)
      rw [he]
      exact tool_sources h hl.1 h3' q' hq'
    subst this
    exact fun x hx => hag x hx hx
  leaf_trail ds f b code fs r fs1 hds hc hl hr fs2 hag := by
    obtain ⟨_, hm⟩ := tools_done (n := 1) hl.1 hr
    obtain ⟨code1, all, o, e1, h2, h3, _⟩ := make_some hm
    rw [hc] at e1
    cases e1
    rw [tool_foot hl.1 h3] at hag ⊢
    rw [tool_foot hl.1 (toolRun_congr h3 fun q hq => hag _ (tool_sources h hl.1 h3 q hq))]
    exact ⟨fun x hx => hx, fun x hx => hx⟩
  covered ds f b code fs r fs1 hds hc hr fs2 hag := by
    cases hf : T.group f with
    | true =>
      have hcs := group_parts h hf b
      obtain ⟨h1, hm, rfl⟩ := group_call (n := 0) hf hcs hr
      obtain ⟨dsts, htr⟩ := group_foot (n := 1) (code := code) hf hcs hm
      simp only [Tools.layout] at hag ⊢
      rw [htr] at hag ⊢
      obtain ⟨fs3, h3, h4⟩ := makeMany_congr h hcs (P := fun x => x ∈ T.srcs f b ++ T.sources ds (T.parts f b) fs) hm
        (fun x hx => List.mem_append_right _ hx) hag
      refine ⟨fs3, group_call_of hf hcs hc (fun x hx => ?_) h3, ?_⟩
      · rw [hag x (List.mem_append_left _ hx)]; exact h1 x hx
      · intro x hx
        obtain ⟨dsts2, htr2⟩ := group_foot (n := 1) (code := code) hf hcs h3
        rw [htr2] at hx
        refine ⟨hx, ?_⟩
        obtain ⟨c, hc', he⟩ := List.mem_map.1 hx
        exact h4 x (.inr ⟨c, hc', he.symm⟩)
    | false =>
      obtain ⟨rfl, hm⟩ := tools_done (n := 1) hf hr
      obtain ⟨code1, all, o, e1, h2, h3, rfl⟩ := make_some hm
      rw [hc] at e1
      cases e1
      simp only [Tools.layout] at hag ⊢
      rw [tool_foot hf h3] at hag ⊢
      have hrun2 := toolRun_congr h3 (fun q hq => hag _ (tool_sources h hf h3 q hq))
      refine ⟨setFile (T.out f b) (some o) fs2, ?_, ?_⟩
      · rw [tools_call hf, make_of hc (fun x hx => ?_) hrun2]
        rw [hag x (List.mem_append_left _ hx)]
        exact h2 x hx
      · intro x hx
        rw [tool_foot hf hrun2] at hx
        refine ⟨hx, ?_⟩
        simp only [List.mem_singleton] at hx
        subst hx
        simp [setFile]
  outputs ds f b code fs r fs1 hds hc hr x hx := by
    simp only [Tools.sig, List.append_nil, List.mem_append]
    left
    cases hf : T.group f with
    | true =>
      have hcs := group_parts h hf b
      obtain ⟨h1, hm, rfl⟩ := group_call (n := 0) hf hcs hr
      obtain ⟨dsts, htr⟩ := group_foot (n := 1) (code := code) hf hcs hm
      simp only [Tools.layout] at hx
      rw [htr] at hx
      exact hx
    | false =>
      obtain ⟨rfl, hm⟩ := tools_done (n := 1) hf hr
      obtain ⟨code1, all, o, e1, h2, h3, rfl⟩ := make_some hm
      rw [hc] at e1
      cases e1
      rw [tool_foot hf h3] at hx
      exact hx
  inputs ds f b code fs r fs1 hds hc hr x hx hw := by
    cases hf : T.group f with
    | true =>
      have hcs := group_parts h hf b
      obtain ⟨h1, hm, rfl⟩ := group_call (n := 0) hf hcs hr
      obtain ⟨dsts, htr⟩ := group_foot (n := 1) (code := code) hf hcs hm
      simp only [Tools.layout] at hx hw
      rw [htr] at hx hw
      obtain ⟨c, hc', he⟩ := List.mem_map.1 hw
      exact group_inputs h hf hx c hc' he.symm
    | false =>
      obtain ⟨rfl, hm⟩ := tools_done (n := 1) hf hr
      obtain ⟨code1, all, o, e1, h2, h3, rfl⟩ := make_some hm
      rw [hc] at e1
      cases e1
      rw [tool_foot hf h3] at hx hw
      simp only [List.mem_singleton] at hw
      subst hw
      rcases List.mem_append.1 hx with hx | hx
      · exact tool_self h hf b hx
      · split at hx
        · obtain ⟨q, hq, he⟩ := List.mem_map.1 hx
          rcases tool_reads h hf h3 q hq with h' | h'
          · exact tool_self h hf b (he ▸ h')
          · exact h.outputs f b hf (he ▸ h')
        · cases hx
  exist ds f b code fs o fs1 hds hc hsrc hr ho x hx := by
    cases hf : T.group f with
    | true =>
      rcases ho with ho | ho
      · obtain ⟨r, rfl⟩ := Option.isSome_iff_exists.1 ho
        have hcs := group_parts h hf b
        obtain ⟨h1, hm, rfl⟩ := group_call (n := 0) hf hcs hr
        obtain ⟨dsts, htr⟩ := group_foot (n := 1) (code := code) hf hcs hm
        simp only [Tools.layout] at hx
        rw [htr] at hx
        exact sources_exist h hcs hx (group_inputs h hf (List.mem_append_right _ hx))
      · simp [Tools.layout, hf] at ho
    | false =>
      rw [footprint, Tools.script, hf] at hx
      simp only [Bool.false_eq_true, if_false] at hx
      rw [tool_trail] at hx
      split at hx
      · cases hx
      · rename_i all o' hrun
        simp only at hx
        split at hx
        · obtain ⟨q, hq, rfl⟩ := List.mem_map.1 hx
          rcases toolRun_seen hrun q hq with h' | ⟨h', _⟩
          · cases h'
          · rw [h']; rfl
        · cases hx
  atomic ds f b fs fs1 hds hr x hx := by
    have hf := owner_tool hx
    simp only [Tools.layout] at hr
    rw [tools_call hf] at hr
    split at hr
    · cases hr; rfl
    · cases hr

end wb

/-! ## C84 -/

theorem makeAll_main {ρ : Layout B} (cs : List (Step B)) (rs : List (List FileName)) : ρ.Main (makeAll cs rs) := by
  induction cs generalizing rs with
  | nil => trivial
  | cons c cs ih =>
    intro o
    cases o with
    | none => trivial
    | some _ => exact ih _

/-- **C84**, first form: whatever was built before, and whatever sources and functions were edited since, a build of a project
gives the same answer and the same files as running all tools. -/
theorem C84_incremental_partial {T : Tools B} {header : FileName → Prop} (h : T.Ok header)
    {vers : FileName → Nat → Option Content} {m : Mach B (List FileName)} (hm : Life T.sig T.script (T.layout header) vers m)
    (cs : List (Step B)) (clk : Nat → Nat) {limit : Nat} (hl : 2 ≤ limit)
    (he : EditsOk vers (build T.sig T.script clk limit (makeAll cs []) m).2.trace) :
    ((build T.sig T.script clk limit (makeAll cs []) m).1, (build T.sig T.script clk limit (makeAll cs []) m).2.files) =
      cleanProg (cleanCall T.sig T.script m.sys.env.funDigest 2) (makeAll cs []) m.files :=
  C59_partial (tools_wellBehaved h) hm (makeAll_main cs []) clk hl he

/-- The output of a call is what its tool makes of the files that are there. -/
def UpToDate (T : Tools B) (ds : FunName → Option Digest) (fs : Files) (c : FunName × B) : Prop :=
  ∃ code all o, ds c.1 = some code ∧ toolRun (T.next c.1 code c.2) fs (T.most c.1 c.2) [] = some (all, o) ∧
    fs (T.out c.1 c.2) = some o

theorem upToDate_write {T : Tools B} {header : FileName → Prop} (h : T.Ok header) {ds : FunName → Option Digest} {fs : Files}
    {c c' : FunName × B} (hg : T.group c.1 = false) (hg' : T.group c'.1 = false) (hu : UpToDate T ds fs c) (hne : c' ≠ c)
    (hr : T.out c'.1 c'.2 ∉ T.srcs c.1 c.2) (o : Content) :
    UpToDate T ds (setFile (T.out c'.1 c'.2) (some o) fs) c := by
  obtain ⟨code, all, o', h1, h2, h3⟩ := hu
  refine ⟨code, all, o', h1, toolRun_congr h2 (fun q hq => ?_), ?_⟩
  · rw [setFile, if_neg]
    intro he
    rcases tool_reads h hg h2 q hq with h' | h'
    · exact hr (he ▸ h')
    · exact h.outputs _ _ hg' (he ▸ h')
  · rw [setFile, if_neg, h3]
    intro he
    have := h.distinct _ _ _ _ hg hg' he
    exact hne (Prod.ext this.1.symm this.2.symm)

/-- Files are made before they are used: no tool that runs later writes a declared source of one that runs earlier. -/
def InOrder (T : Tools B) (jobs : List (FunName × B)) : Prop :=
  ∀ pre c post, jobs = pre ++ c :: post → ∀ c' ∈ post, T.out c'.1 c'.2 ∉ T.srcs c.1 c.2

theorem makeMany_upToDate {T : Tools B} {header : FileName → Prop} (h : T.Ok header) {ds : FunName → Option Digest}
    (cs : List (FunName × B)) (hcs : ∀ c ∈ cs, T.group c.1 = false) (hord : InOrder T cs)
    (fs fs' : Files) (hrun : T.makeMany ds cs fs = some fs') :
    (∀ c ∈ cs, UpToDate T ds fs' c) ∧
    ∀ c, T.group c.1 = false → UpToDate T ds fs c → (∀ c' ∈ cs, T.out c'.1 c'.2 ∉ T.srcs c.1 c.2) → UpToDate T ds fs' c := by
  induction cs generalizing fs with
  | nil =>
    cases hrun
    exact ⟨by simp, fun c _ hc _ => hc⟩
  | cons c cs ih =>
    simp only [Tools.makeMany, Option.bind_eq_some_iff] at hrun
    obtain ⟨fs1, hm, hrun⟩ := hrun
    have hf := hcs c (.head _)
    obtain ⟨i1, i2⟩ := ih (fun c hc => hcs c (.tail _ hc)) (fun pre c' post he => hord (c :: pre) c' post (by rw [he]; rfl)) fs1 hrun
    obtain ⟨code, all, o, hc, h1, h2, rfl⟩ := make_some (f := c.1) (b := c.2) hm
    have hu : UpToDate T ds (setFile (T.out c.1 c.2) (some o) fs) c := by
      refine ⟨code, all, o, hc, toolRun_congr h2 (fun q hq => ?_), by simp [setFile]⟩
      rw [setFile, if_neg]
      intro he
      rcases tool_reads h hf h2 q hq with h' | h'
      · exact tool_self h hf _ (he ▸ h')
      · exact h.outputs _ _ hf (he ▸ h')
    refine ⟨fun c' hc' => ?_, fun c' hg' hc' hs => ?_⟩
    · rcases List.mem_cons.1 hc' with rfl | hc'
      · exact i2 c' hf hu (hord [] c' cs rfl)
      · exact i1 c' hc'
    · by_cases hcc : c = c'
      · subst hcc
        exact i2 c hf hu (fun c' hc' => hs c' (.tail _ hc'))
      · exact i2 c' hg' (upToDate_write h hg' hf hc' hcc (hs c (.head _)) o) (fun c'' hc'' => hs c'' (.tail _ hc''))

theorem makeMany_append {T : Tools B} {ds : FunName → Option Digest} (cs cs' : List (FunName × B)) (fs : Files) :
    T.makeMany ds (cs ++ cs') fs = (T.makeMany ds cs fs).bind (T.makeMany ds cs') := by
  induction cs generalizing fs with
  | nil => rfl
  | cons c cs ih =>
    simp only [List.cons_append, Tools.makeMany]
    cases T.make ds c fs with
    | none => rfl
    | some fs1 => exact ih fs1

theorem jobs_tools {T : Tools B} {header : FileName → Prop} (h : T.Ok header) (c : FunName × B) :
    ∀ c' ∈ T.jobs c, T.group c'.1 = false := by
  intro c' hc'
  unfold Tools.jobs at hc'
  split at hc'
  · rename_i hf
    exact (h.parts _ _ hf c' hc').1
  · rename_i hf
    simp only [List.mem_singleton] at hc'
    subst hc'
    exact Bool.eq_false_iff.2 hf

/-- a call that succeeds runs its tools -/
theorem call_jobs {T : Tools B} {header : FileName → Prop} (h : T.Ok header) {ds : FunName → Option Digest} {f : FunName} {b : B}
    {fs fs1 : Files} {r : List FileName} (hr : cleanCall T.sig T.script ds 2 f b fs = (some r, fs1)) :
    T.makeMany ds (T.jobs (f, b)) fs = some fs1 ∧ r = T.result (f, b) := by
  cases hf : T.group f with
  | true =>
    obtain ⟨_, h2, h3⟩ := group_call (n := 0) hf (group_parts h hf b) hr
    simp only [Tools.result, Tools.jobs, hf, if_true]
    exact ⟨h2, h3⟩
  | false =>
    obtain ⟨h2, h3⟩ := tools_done (n := 1) hf hr
    simp only [Tools.result, Tools.jobs, hf, Bool.false_eq_true, if_false]
    exact ⟨by simp [Tools.makeMany, h3], h2⟩

theorem makeAll_jobs {T : Tools B} {header : FileName → Prop} (h : T.Ok header) {ds : FunName → Option Digest}
    (cs : List (Step B)) (rs : List (List FileName)) (fs fs' : Files) (r : List FileName)
    (hrun : cleanProg (cleanCall T.sig T.script ds 2) (makeAll cs rs) fs = (some r, fs')) :
    T.makeMany ds ((T.plan cs rs).flatMap T.jobs) fs = some fs' := by
  induction cs generalizing rs fs with
  | nil => cases hrun; rfl
  | cons c cs ih =>
    simp only [makeAll, cleanProg] at hrun
    generalize hcall : cleanCall T.sig T.script ds 2 c.1 (c.2 rs) fs = q at hrun
    obtain ⟨o, fs1⟩ := q
    cases o with
    | none => cases hrun
    | some r1 =>
      obtain ⟨h1, rfl⟩ := call_jobs h hcall
      simp only [Tools.plan, List.flatMap_cons]
      rw [makeMany_append, h1]
      exact ih _ _ hrun

/-- **C84**: after a build that succeeds, every output is what its tool makes of the files that are there now: nothing is out of
date, whatever was built before and whatever was edited since.  The calls are in an order in which files are made before they
are used.  Partial: see `Tools.Ok`; in particular a linker reads declared files only. -/
theorem C84_uptodate_partial {T : Tools B} {header : FileName → Prop} (h : T.Ok header)
    {vers : FileName → Nat → Option Content} {m : Mach B (List FileName)} (hm : Life T.sig T.script (T.layout header) vers m)
    (cs : List (Step B)) (hord : InOrder T ((T.plan cs []).flatMap T.jobs))
    (clk : Nat → Nat) {limit : Nat} (hl : 2 ≤ limit)
    (he : EditsOk vers (build T.sig T.script clk limit (makeAll cs []) m).2.trace)
    (hok : (build T.sig T.script clk limit (makeAll cs []) m).1.isSome) (call : FunName × B) (hcall : call ∈ T.plan cs [])
    (c : FunName × B) (hc : c ∈ T.jobs call) :
    UpToDate T m.sys.env.funDigest (build T.sig T.script clk limit (makeAll cs []) m).2.files c := by
  have h1 := C84_incremental_partial h hm cs clk hl he
  obtain ⟨r, hr⟩ := Option.isSome_iff_exists.1 hok
  rw [hr] at h1
  refine (makeMany_upToDate h _ (fun c hc => ?_) hord _ _ (makeAll_jobs h _ _ _ _ _ h1.symm)).1 c
    (List.mem_flatMap.2 ⟨call, hcall, hc⟩)
  obtain ⟨c', _, h2⟩ := List.mem_flatMap.1 hc
  exact jobs_tools h c' c h2

/-- the tools that `build_exe` and `build_lib` run -/
theorem build_inOrder {T : Tools B} {header : FileName → Prop} (h : T.Ok header) (objects link : FunName) (b : B)
    (arg : List FileName → B) (hobj : T.group objects = true) (hlink : T.group link = false)
    (hsrc : ∀ x ∈ T.srcs objects b, x ≠ T.out link (arg (T.result (objects, b)))) :
    InOrder T ((T.plan (buildSteps objects b link arg) []).flatMap T.jobs) ∧
      T.plan (buildSteps objects b link arg) [] = [(objects, b), (link, arg (T.result (objects, b)))] := by
  have hres : T.result (objects, b) = (T.parts objects b).map fun c => T.out c.1 c.2 := by simp [Tools.result, Tools.jobs, hobj]
  have hplan : T.plan (buildSteps objects b link arg) [] = [(objects, b), (link, arg (T.result (objects, b)))] := by
    simp [buildSteps, Tools.plan]
  refine ⟨?_, hplan⟩
  · rw [hplan]
    have hj : [(objects, b), (link, arg (T.result (objects, b)))].flatMap T.jobs =
        T.parts objects b ++ [(link, arg (T.result (objects, b)))] := by simp [Tools.jobs, hobj, hlink]
    rw [hj]
    intro pre c post heq c' hc' hin
    have hc'mem : c' ∈ T.parts objects b ∨ c' = (link, arg (T.result (objects, b))) := by
      have : c' ∈ T.parts objects b ++ [(link, arg (T.result (objects, b)))] := by
        rw [heq]; exact List.mem_append_right _ (.tail _ hc')
      simpa using this
    have hcmem : c ∈ T.parts objects b := by
      rcases List.eq_nil_or_concat post with rfl | ⟨post', y, rfl⟩
      · cases hc'
      · rw [List.concat_eq_append, show pre ++ c :: (post' ++ [y]) = (pre ++ c :: post') ++ [y] by simp] at heq
        rw [(List.append_inj' heq rfl).1]
        simp
    have hin' := (h.parts objects b hobj c hcmem).2.2 _ hin
    rcases hc'mem with hc'mem | rfl
    · exact h.self objects b _ (by rw [hres]; exact List.mem_map.2 ⟨c', hc'mem, rfl⟩) hin'
    · exact hsrc _ hin' rfl

/-- **C84** for `build_exe` and `build_lib`: after a build that succeeds, every object file is what the compiler makes of the
sources and headers that are there now, and the file that the linker writes is what it makes of these object files and of the
other files that it is given. -/
theorem C84_build_partial {T : Tools B} {header : FileName → Prop} (h : T.Ok header)
    {vers : FileName → Nat → Option Content} {m : Mach B (List FileName)} (hm : Life T.sig T.script (T.layout header) vers m)
    (objects link : FunName) (b : B) (arg : List FileName → B) (hobj : T.group objects = true) (hlink : T.group link = false)
    (hsrc : ∀ x ∈ T.srcs objects b, x ≠ T.out link (arg (T.result (objects, b))))
    (clk : Nat → Nat) {limit : Nat} (hl : 2 ≤ limit)
    (he : EditsOk vers (build T.sig T.script clk limit (makeAll (buildSteps objects b link arg) []) m).2.trace)
    (hok : (build T.sig T.script clk limit (makeAll (buildSteps objects b link arg) []) m).1.isSome) :
    let fs := (build T.sig T.script clk limit (makeAll (buildSteps objects b link arg) []) m).2.files
    (∀ c ∈ T.parts objects b, UpToDate T m.sys.env.funDigest fs c) ∧
      UpToDate T m.sys.env.funDigest fs (link, arg ((T.parts objects b).map fun c => T.out c.1 c.2)) := by
  obtain ⟨hord, hplan⟩ := build_inOrder h objects link b arg hobj hlink hsrc
  have hres : T.result (objects, b) = (T.parts objects b).map fun c => T.out c.1 c.2 := by simp [Tools.result, Tools.jobs, hobj]
  have key := C84_uptodate_partial h hm (buildSteps objects b link arg) hord clk hl he hok
  rw [hplan] at key
  refine ⟨fun c hc => key (objects, b) (by simp) c (by simp [Tools.jobs, hobj, hc]), ?_⟩
  rw [← hres]
  exact key (link, arg (T.result (objects, b))) (by simp) _ (by simp [Tools.jobs, hlink])

end Verif.Calls
