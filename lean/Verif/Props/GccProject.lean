import Verif.Gcc.Project
import Verif.Props.Group
import Verif.Props.Gcc
import Verif.Props.GccFiles
import Verif.Props.GccFactory
/-!
# C132: C projects built with gcc
-/
namespace Verif.Gcc.Project
open Verif.DB Verif.Calls Verif.Gcc.Factory

/-! ## Specification -/

/-- What is asked of a project, of the programs and of the files.  `header x`: `x` is a file of the project that sources may
include. -/
structure Project.Ok (P : Project) (run : Programs) (header : FileName → Prop) : Prop where
  /-- the sources are relative paths with the same extension, not below the build directory -/
  relative : ∀ t ∈ P.targets, ∀ s ∈ t.srcs, Posix.isabs s = false ∧ P.root.isPrefixOf s = false
  extension : ∀ t ∈ P.targets, ∀ s ∈ t.srcs, ∀ t' ∈ P.targets, ∀ s' ∈ t'.srcs, (Posix.splitext s).2 = (Posix.splitext s').2
  root : P.root.getLast? ≠ some '/'
  /-- no source is given twice for a target -/
  once : ∀ t ∈ P.targets, t.srcs.Nodup
  /-- names need no quoting in the dependency file; no name has a null character -/
  plain : ∀ t ∈ P.targets, ∀ s ∈ t.srcs, PlainName s ∧ PlainName (P.object s)
  plainHeader : ∀ x, header x → PlainName x.toList
  null : ∀ t ∈ P.targets, (∀ s ∈ t.srcs, '\x00' ∉ P.object s) ∧ '\x00' ∉ P.file t.dst
  nullHeader : ∀ x, header x → '\x00' ∉ x.toList
  /-- different targets are different files, which are not objects, sources or libraries that they are linked with -/
  targets : ∀ t ∈ P.targets, ∀ t' ∈ P.targets, P.file t.dst = P.file t'.dst → t = t'
  notObject : ∀ t ∈ P.targets, ∀ t' ∈ P.targets, ∀ s ∈ t'.srcs, P.file t.dst ≠ P.object s
  notSource : ∀ t ∈ P.targets, P.file t.dst ∉ t.srcs
  notLibrary : ∀ t ∈ P.targets, ∀ l ∈ t.libs, P.file t.dst ≠ P.libs.path l
  /-- headers are not made by the project -/
  notHeader : ∀ t ∈ P.targets, (∀ s ∈ t.srcs, ¬ header (String.ofList (P.object s))) ∧ ¬ header (String.ofList (P.file t.dst))
  /-- the compiler reads the source and headers -/
  compiler : ∀ t ∈ P.targets, ∀ s ∈ t.srcs, ∀ cmd, P.compileCommand s = some cmd → ∀ seen x, run cmd seen = .more x →
    x = String.ofList s ∨ header x
  /-- the linker reads the objects and the libraries -/
  linker : ∀ t ∈ P.targets, ∀ cmd, P.linkCommand t.dst (t.srcs.map P.object) t.libs = some cmd → ∀ seen x, run cmd seen = .more x →
    (∃ s ∈ t.srcs, x = String.ofList (P.object s)) ∨ ∃ l ∈ t.libs, x = String.ofList (P.libs.path l)

/-- the file is what the program, run with this command, makes of the files that are there -/
def Made (run : Programs) (most : Nat) (fs : Files) (cmd : Option (List Text)) (file : Text) : Prop :=
  ∃ words read out, cmd = some words ∧ toolRun (run words) fs most [] = some (read, out) ∧ fs (String.ofList file) = some out

/-- one command is run, which writes the file -/
def runOne (run : Programs) (most : Nat) (cmd : Option (List Text)) (file : Text) (fs : Files) : Option Files :=
  cmd.bind fun words => (toolRun (run words) fs most []).map fun q => setFile (String.ofList file) (some q.2) fs

/-- all commands for a target are run, one after the other; `none` if one fails -/
def Project.fromScratch (P : Project) (run : Programs) (most : Nat) (t : Target) (fs : Files) : Option Files :=
  (t.srcs.foldlM (fun fs s => runOne run most (P.compileCommand s) (P.object s) fs) fs).bind fun fs =>
    runOne run most (P.linkCommand t.dst (t.srcs.map P.object) t.libs) (P.file t.dst) fs

/-- the objects and the file of a target are up to date -/
def Project.UpToDate (P : Project) (run : Programs) (most : Nat) (fs : Files) (t : Target) : Prop :=
  (∀ s ∈ t.srcs, Made run most fs (P.compileCommand s) (P.object s)) ∧
    Made run most fs (P.linkCommand t.dst (t.srcs.map P.object) t.libs) (P.file t.dst)

/-- `a` may be built before `b`: the file of `b` is not needed for `a`, nor are objects of `b` libraries of `a` -/
def Project.Before (P : Project) (a b : Target) : Prop :=
  P.file b.dst ∉ a.srcs ∧ ∀ l ∈ a.libs, P.libs.path l ≠ P.file b.dst ∧ ∀ s ∈ b.srcs, P.libs.path l ≠ P.object s

/-- the compiler writes dependency files as gcc does -/
def WritesDeps (depText : Text → List Text → Text) : Prop :=
  ∀ target deps, ∃ breaks : List Bool, breaks.length = deps.length ∧ depText target deps = depFile target (breaks.zip deps)

/-! ## Proofs -/
section
variable {P : Project} {run : Programs} {header : FileName → Prop} {most : Nat} {text : Digest}

theorem mem_calls {c : Call} (h : c ∈ P.calls) :
    ∃ t ∈ P.targets, c = .objects t.srcs ∨ c = .link t.dst (t.srcs.map P.object) t.libs ∨ ∃ s ∈ t.srcs, c = .compile s := by
  unfold Project.calls at h
  obtain ⟨t, ht, h⟩ := List.mem_flatMap.1 h
  refine ⟨t, ht, ?_⟩
  simp only [List.mem_cons, List.mem_map] at h
  rcases h with h | h | ⟨s, hs, h⟩
  · exact .inl h
  · exact .inr (.inl h)
  · exact .inr (.inr ⟨s, hs, h.symm⟩)

theorem compile_mem {s : Text} (h : .compile s ∈ P.calls) : ∃ t ∈ P.targets, s ∈ t.srcs := by
  obtain ⟨t, ht, h | h | ⟨s', hs, h⟩⟩ := mem_calls h
  · cases h
  · cases h
  · cases h; exact ⟨t, ht, hs⟩

theorem objects_mem {ss : List Text} (h : .objects ss ∈ P.calls) : ∃ t ∈ P.targets, ss = t.srcs := by
  obtain ⟨t, ht, h | h | ⟨s', hs, h⟩⟩ := mem_calls h
  · cases h; exact ⟨t, ht, rfl⟩
  · cases h
  · cases h

theorem link_mem {dst : Output} {objs : List Text} {libs : List Nat} (h : .link dst objs libs ∈ P.calls) :
    ∃ t ∈ P.targets, dst = t.dst ∧ objs = t.srcs.map P.object ∧ libs = t.libs := by
  obtain ⟨t, ht, h | h | ⟨s', hs, h⟩⟩ := mem_calls h
  · cases h
  · cases h; exact ⟨t, ht, rfl, rfl, rfl⟩
  · cases h

theorem mem_compile {t : Target} (ht : t ∈ P.targets) {s : Text} (hs : s ∈ t.srcs) : .compile s ∈ P.calls :=
  List.mem_flatMap.2 ⟨t, ht, by simp [hs]⟩
theorem mem_objects {t : Target} (ht : t ∈ P.targets) : .objects t.srcs ∈ P.calls :=
  List.mem_flatMap.2 ⟨t, ht, by simp⟩
theorem mem_link {t : Target} (ht : t ∈ P.targets) : .link t.dst (t.srcs.map P.object) t.libs ∈ P.calls :=
  List.mem_flatMap.2 ⟨t, ht, by simp⟩

theorem null_ne {x : Text} (h : '\x00' ∉ x) (n : Nat) : String.ofList x ≠ String.ofList (List.replicate (n + 1) '\x00') := by
  intro he
  have := congrArg String.toList he
  simp only [String.toList_ofList] at this
  exact h (by rw [this]; simp)

theorem replicate_inj {i j : Nat} (h : String.ofList (List.replicate i '\x00') = String.ofList (List.replicate j '\x00')) : i = j := by
  have := congrArg (fun s => s.toList.length) h
  simpa using this

theorem ofList_inj {x y : Text} (h : String.ofList x = String.ofList y) : x = y := by
  simpa using congrArg String.toList h

theorem idx_inj {a b : Call} (h : a ∈ P.calls) (h' : P.calls.idxOf a = P.calls.idxOf b) : a = b := by
  have h1 := List.idxOf_lt_length_of_mem h
  have h2 : P.calls[P.calls.idxOf a]? = some a := by
    rw [List.getElem?_eq_getElem h1, List.getElem_idxOf]
  by_cases hb : b ∈ P.calls
  · have h3 := List.idxOf_lt_length_of_mem hb
    have h4 : P.calls[P.calls.idxOf b]? = some b := by
      rw [List.getElem?_eq_getElem h3, List.getElem_idxOf]
    rw [h', h4] at h2
    exact (Option.some.inj h2).symm
  · rw [h', List.idxOf_eq_length hb] at h1
    exact absurd h1 (Nat.lt_irrefl _)

/-- what a call of a tool writes: the object, the file that is linked, or a name that no file has -/
theorem out_cases (f : FunName) (hf : (P.tools run most text).group f = false) (b : P.Arg) :
    (∃ s, f = "compile" ∧ b.1 = .compile s ∧ (P.tools run most text).out f b = String.ofList (P.object s)) ∨
    (∃ d o l, f = d.method ∧ b.1 = .link d o l ∧ (P.tools run most text).out f b = String.ofList (P.file d)) ∨
    ((∃ k < 3, f = (if k = 0 then "compile" else if k = 1 then "link_exe" else "link_lib") ∧
        (P.tools run most text).out f b = String.ofList (List.replicate (3 * P.calls.idxOf b.1 + k + 1) '\x00')) ∧
      (P.tools run most text).srcs f b = [] ∧ ∀ code seen, (P.tools run most text).next f code b seen = .error) := by
  have hf' : f = "compile" ∨ f = "link_exe" ∨ f = "link_lib" := by
    simp only [Project.tools, decide_eq_false_iff_not] at hf
    by_cases h : f = "compile"
    · exact .inl h
    · by_cases h' : f = "link_exe"
      · exact .inr (.inl h')
      · exact .inr (.inr (Classical.byContradiction fun h'' => hf ⟨h, h', h''⟩))
  obtain ⟨c, hc⟩ := b
  have hno : ∃ k < 3, f = (if k = 0 then "compile" else if k = 1 then "link_exe" else "link_lib") ∧
      P.nowhere f c = String.ofList (List.replicate (3 * P.calls.idxOf c + k + 1) '\x00') := by
    rcases hf' with rfl | rfl | rfl
    · exact ⟨0, by omega, rfl, rfl⟩
    · exact ⟨1, by omega, rfl, rfl⟩
    · exact ⟨2, by omega, rfl, rfl⟩
  cases c with
  | compile s =>
    by_cases h : f = "compile"
    · exact .inl ⟨s, h, rfl, by simp [Project.tools, h]⟩
    · exact .inr (.inr ⟨by simpa [Project.tools, h] using hno, by simp [Project.tools, h], by simp [Project.tools, h]⟩)
  | objects ss =>
    have h : f ≠ "build_objects" := by rcases hf' with rfl | rfl | rfl <;> decide
    exact .inr (.inr ⟨by simpa [Project.tools] using hno, by simp [Project.tools, h], by simp [Project.tools]⟩)
  | link d o l =>
    by_cases h : f = d.method
    · exact .inr (.inl ⟨d, o, l, h, rfl, by simp [Project.tools, h]⟩)
    · exact .inr (.inr ⟨by simpa [Project.tools, h] using hno, by simp [Project.tools, h], by simp [Project.tools, h]⟩)

theorem object_root (h : P.Ok run header) {t : Target} (ht : t ∈ P.targets) {s : Text} (hs : s ∈ t.srcs) :
    P.root.isPrefixOf (P.object s) = true := by
  obtain ⟨h1, h2⟩ := h.relative t ht s hs
  obtain ⟨d, hd, hd'⟩ := addroot_rel s P.root h1 h2
  obtain rfl := hd' h.root
  unfold Project.object objectFile Path.replaceext
  simp only [hd s h1 h2, splitext_below]
  simp [List.isPrefixOf_iff_prefix]

theorem arg?_mem {c : Call} (h : c ∈ P.calls) : P.arg? c = some ⟨c, h⟩ := by simp [Project.arg?, h]

theorem arg?_some {c : Call} {b : P.Arg} (h : P.arg? c = some b) : b.1 = c := by
  unfold Project.arg? at h
  split at h
  · cases h; rfl
  · cases h

/-- the arguments of the calls of `compile` -/
theorem compile_args (ss : List Text) (h : ∀ s ∈ ss, .compile s ∈ P.calls) :
    ((ss.filterMap fun s => P.arg? (.compile s)).map (·.1)) = ss.map .compile := by
  induction ss with
  | nil => rfl
  | cons s ss ih =>
    rw [List.filterMap_cons, arg?_mem (h s (.head _))]
    simp only [List.map_cons, ih fun s hs => h s (.tail _ hs)]

theorem tools_ok (h : P.Ok run header) : (P.tools run most text).Ok header where
  distinct f b f' b' hf hf' he := by
    have key : ∀ {x y : P.Arg}, P.calls.idxOf x.1 = P.calls.idxOf y.1 → x = y := fun {x y} hi => Subtype.ext (idx_inj x.2 hi)
    rcases out_cases (run := run) (most := most) (text := text) f hf b with
      ⟨s, rfl, h1, h2⟩ | ⟨d, o, l, rfl, h1, h2⟩ | ⟨h2, _⟩ <;>
    rcases out_cases (run := run) (most := most) (text := text) f' hf' b' with
      ⟨s', rfl, h1', h2'⟩ | ⟨d', o', l', rfl, h1', h2'⟩ | ⟨h2', _⟩
    · rw [h2, h2'] at he
      obtain ⟨t, ht, hs⟩ := compile_mem (h1 ▸ b.2)
      obtain ⟨t', ht', hs'⟩ := compile_mem (h1' ▸ b'.2)
      obtain ⟨r1, r2⟩ := h.relative t ht s hs
      obtain ⟨r1', r2'⟩ := h.relative t' ht' s' hs'
      have := C83_objects_partial P.root P.compiler.suffix s s' r1 r1' r2 r2' (h.extension t ht s hs t' ht' s' hs') (ofList_inj he)
      subst this
      exact ⟨rfl, Subtype.ext (h1.trans h1'.symm)⟩
    · rw [h2, h2'] at he
      obtain ⟨t, ht, hs⟩ := compile_mem (h1 ▸ b.2)
      obtain ⟨t', ht', rfl, rfl, rfl⟩ := link_mem (h1' ▸ b'.2)
      exact absurd (ofList_inj he).symm (h.notObject t' ht' t ht s hs)
    · rw [h2] at he
      obtain ⟨t, ht, hs⟩ := compile_mem (h1 ▸ b.2)
      obtain ⟨k, _, _, h2'⟩ := h2'
      rw [h2'] at he
      exact absurd he (null_ne ((h.null t ht).1 s hs) _)
    · rw [h2, h2'] at he
      obtain ⟨t, ht, hs⟩ := compile_mem (h1' ▸ b'.2)
      obtain ⟨t', ht', rfl, rfl, rfl⟩ := link_mem (h1 ▸ b.2)
      exact absurd (ofList_inj he) (h.notObject t' ht' t ht s' hs)
    · rw [h2, h2'] at he
      obtain ⟨t, ht, rfl, rfl, rfl⟩ := link_mem (h1 ▸ b.2)
      obtain ⟨t', ht', rfl, rfl, rfl⟩ := link_mem (h1' ▸ b'.2)
      obtain rfl := h.targets t ht t' ht' (ofList_inj he)
      exact ⟨rfl, Subtype.ext (h1.trans h1'.symm)⟩
    · rw [h2] at he
      obtain ⟨t, ht, rfl, rfl, rfl⟩ := link_mem (h1 ▸ b.2)
      obtain ⟨k, _, _, h2'⟩ := h2'
      rw [h2'] at he
      exact absurd he (null_ne (h.null t ht).2 _)
    · rw [h2'] at he
      obtain ⟨t, ht, hs⟩ := compile_mem (h1' ▸ b'.2)
      obtain ⟨k, _, _, h2⟩ := h2
      rw [h2] at he
      exact absurd he.symm (null_ne ((h.null t ht).1 s' hs) _)
    · rw [h2'] at he
      obtain ⟨t, ht, rfl, rfl, rfl⟩ := link_mem (h1' ▸ b'.2)
      obtain ⟨k, _, _, h2⟩ := h2
      rw [h2] at he
      exact absurd he.symm (null_ne (h.null t ht).2 _)
    · obtain ⟨k, hk, hfk, h2⟩ := h2
      obtain ⟨k', hk', hfk', h2'⟩ := h2'
      rw [h2, h2'] at he
      have := replicate_inj he
      obtain rfl : k = k' := by omega
      exact ⟨hfk.trans hfk'.symm, key (by omega)⟩
  outputs f b hf := by
    rcases out_cases (run := run) (most := most) (text := text) f hf b with
      ⟨s, rfl, h1, h2⟩ | ⟨d, o, l, rfl, h1, h2⟩ | ⟨⟨k, _, _, h2⟩, _⟩
    · obtain ⟨t, ht, hs⟩ := compile_mem (h1 ▸ b.2)
      rw [h2]; exact (h.notHeader t ht).1 s hs
    · obtain ⟨t, ht, rfl, rfl, rfl⟩ := link_mem (h1 ▸ b.2)
      rw [h2]; exact (h.notHeader t ht).2
    · rw [h2]; intro hh; exact h.nullHeader _ hh (by simp)
  reads f code b seen x hf hx := by
    rcases out_cases (run := run) (most := most) (text := text) f hf b with
      ⟨s, rfl, h1, _⟩ | ⟨d, o, l, rfl, h1, _⟩ | ⟨_, _, h3⟩
    · obtain ⟨t, ht, hs⟩ := compile_mem (h1 ▸ b.2)
      simp only [Project.tools, h1, if_true] at hx ⊢
      cases hc : P.compileCommand s with
      | none => rw [hc] at hx; cases hx
      | some cmd =>
        rw [hc] at hx
        rcases h.compiler t ht s hs cmd hc seen x hx with h' | h'
        · exact .inl (by simp [h'])
        · exact .inr ⟨by simp, h'⟩
    · obtain ⟨t, ht, rfl, rfl, rfl⟩ := link_mem (h1 ▸ b.2)
      simp only [Project.tools, h1, if_true] at hx ⊢
      cases hc : P.linkCommand t.dst (t.srcs.map P.object) t.libs with
      | none => rw [hc] at hx; cases hx
      | some cmd =>
        rw [hc] at hx
        refine .inl ?_
        rcases h.linker t ht cmd hc seen x hx with ⟨s, hs, rfl⟩ | ⟨l, hl, rfl⟩
        · simp only [List.map_append, List.map_map, List.mem_append, List.mem_map]
          exact .inl ⟨s, hs, rfl⟩
        · simp only [List.map_append, List.map_map, List.mem_append, List.mem_map]
          exact .inr ⟨l, hl, rfl⟩
    · rw [h3] at hx; cases hx
  self f b x hx := by
    by_cases hf : (P.tools run most text).group f = true
    · simp only [Tools.result, Tools.jobs, hf, if_true, List.mem_map] at hx
      obtain ⟨c, hc, rfl⟩ := hx
      have hcs : f = "build_objects" ∧ ∃ ss, b.1 = .objects ss ∧ ∃ s ∈ ss, c.1 = "compile" ∧ c.2.1 = .compile s := by
        simp only [Project.tools] at hc
        split at hc
        · rename_i ss hb
          split at hc
          · rename_i hfb
            obtain ⟨a, ha, rfl⟩ := List.mem_map.1 hc
            obtain ⟨s, hs, hsa⟩ := List.mem_filterMap.1 ha
            exact ⟨hfb, ss, hb, s, hs, rfl, arg?_some hsa⟩
          · cases hc
        · cases hc
      obtain ⟨rfl, ss, hb, s, hs, hc1, hc2⟩ := hcs
      obtain ⟨t, ht, rfl⟩ := objects_mem (hb ▸ b.2)
      have ho : (P.tools run most text).out c.1 c.2 = String.ofList (P.object s) := by
        simp only [Project.tools, hc2, hc1, if_true]
      have hsr : (P.tools run most text).srcs "build_objects" b = t.srcs.map String.ofList := by simp only [Project.tools, hb, if_true]
      rw [ho, hsr]
      intro hm
      obtain ⟨s', hs', he⟩ := List.mem_map.1 hm
      have := ofList_inj he
      subst this
      have h1 := object_root h ht hs
      rw [(h.relative t ht _ hs').2] at h1
      cases h1
    · have hf : (P.tools run most text).group f = false := by simpa using hf
      simp only [Tools.result, Tools.jobs, hf, Bool.false_eq_true, if_false, List.map_cons, List.map_nil, List.mem_singleton] at hx
      subst hx
      rcases out_cases (run := run) (most := most) (text := text) f hf b with
        ⟨s, rfl, h1, h2⟩ | ⟨d, o, l, rfl, h1, h2⟩ | ⟨h2, h3, _⟩
      · obtain ⟨t, ht, hs⟩ := compile_mem (h1 ▸ b.2)
        rw [h2]
        have hsr : (P.tools run most text).srcs "compile" b = [String.ofList s] := by simp only [Project.tools, h1, if_true]
        rw [hsr]
        intro hm
        have h3 := ofList_inj (List.mem_singleton.1 hm)
        have h4 := object_root h ht hs
        rw [h3, (h.relative t ht s hs).2] at h4
        cases h4
      · obtain ⟨t, ht, rfl, rfl, rfl⟩ := link_mem (h1 ▸ b.2)
        rw [h2]
        have hsr : (P.tools run most text).srcs t.dst.method b =
            (t.srcs.map P.object ++ t.libs.map P.libs.path).map String.ofList := by simp only [Project.tools, h1, if_true]
        rw [hsr]
        intro hm
        obtain ⟨y, hy, he⟩ := List.mem_map.1 hm
        have := ofList_inj he
        subst this
        rcases List.mem_append.1 hy with hy | hy
        · obtain ⟨s, hs, he⟩ := List.mem_map.1 hy
          exact h.notObject t ht t ht s hs he.symm
        · obtain ⟨l, hl, he⟩ := List.mem_map.1 hy
          exact h.notLibrary t ht l hl he.symm
      · rw [h3]; simp
  parts f b hf c hc := by
    simp only [Project.tools] at hc
    split at hc
    · rename_i ss hb
      split at hc
      · rename_i hfb
        obtain ⟨a, ha, rfl⟩ := List.mem_map.1 hc
        obtain ⟨s, hs, hsa⟩ := List.mem_filterMap.1 ha
        refine ⟨by simp [Project.tools], by simp [Project.tools], fun x hx => ?_⟩
        simp only [Project.tools, arg?_some hsa, hb, hfb, if_true, List.mem_singleton] at hx ⊢
        subst hx
        exact List.mem_map.2 ⟨s, hs, rfl⟩
      · cases hc
    · cases hc

/-- the files that are read from the dependency file are those that the compiler read -/
theorem compileProg_eq {B : Type} {depText : Text → List Text → Text} (hw : WritesDeps depText) {next : List (FileName × Content) → Next}
    {obj : Text} (hobj : PlainName obj) (hnext : ∀ seen x, next seen = .more x → PlainName x.toList) :
    ∀ n (seen : List (FileName × Content)), (∀ q ∈ seen, PlainName q.1.toList) →
      (compileProg depText next obj n seen : Prog B (List FileName)) = toolProg next true (String.ofList obj) n seen := by
  intro n
  induction n with
  | zero => intros; rfl
  | succ n ih =>
    intro seen hs
    rw [compileProg, toolProg]
    cases hn : next seen with
    | error => rfl
    | more x =>
      simp only
      congr 1
      funext o
      cases o with
      | none => rfl
      | some c =>
        refine ih _ (fun q hq => ?_)
        rcases List.mem_append.1 hq with hq | hq
        · exact hs q hq
        · rw [List.mem_singleton] at hq
          subst hq
          exact hnext seen x hn
    | done o =>
      obtain ⟨breaks, hl, hd⟩ := hw obj (seen.map fun q => q.1.toList)
      have hz : ((breaks.zip (seen.map fun q => q.1.toList)).map (·.2)) = seen.map fun q => q.1.toList :=
        List.map_snd_zip (by rw [hl]; exact Nat.le_refl _)
      have hr : readDeps (depText obj (seen.map fun q => q.1.toList)) = some (seen.map fun q => q.1.toList) := by
        rw [hd, C56_partial obj _ hobj, hz]
        intro d hd
        have := List.mem_map_of_mem (f := (·.2)) hd
        rw [hz] at this
        obtain ⟨q, hq, he⟩ := List.mem_map.1 this
        exact he ▸ hs q hq
      simp only [hr, if_true, List.map_map]
      congr 1
      exact List.map_congr_left fun q _ => by simp

theorem script_eq (h : P.Ok run header) {depText : Text → List Text → Text} (hw : WritesDeps depText) :
    P.script run depText most text = (P.tools run most text).script := by
  funext f code b
  obtain ⟨c, hc⟩ := b
  cases c with
  | objects ss => rfl
  | link d o l => rfl
  | compile s =>
    obtain ⟨t, ht, hs⟩ := compile_mem hc
    by_cases hf : f = "compile"
    · subst hf
      simp only [Project.script, if_true]
      rw [compileProg_eq hw (h.plain t ht s hs).2 (fun seen x hx => ?_) most [] (by simp)]
      · rfl
      · cases hcmd : P.compileCommand s with
        | none => rw [hcmd] at hx; cases hx
        | some cmd =>
          rw [hcmd] at hx
          rcases h.compiler t ht s hs cmd hcmd seen x hx with rfl | h'
          · simpa using (h.plain t ht s hs).1
          · exact h.plainHeader x h'
    · simp only [Project.script, if_neg hf]

theorem parts_objects {t : Target} (ht : t ∈ P.targets) :
    (P.tools run most text).parts "build_objects" ⟨_, mem_objects ht⟩ =
      (t.srcs.filterMap fun s => P.arg? (.compile s)).map fun b => ("compile", b) := by
  simp [Project.tools]

theorem compile_nodup {t : Target} (ht : t ∈ P.targets) (hn : t.srcs.Nodup) :
    (t.srcs.filterMap fun s => P.arg? (.compile s)).Nodup := by
  have h1 := compile_args t.srcs (fun s hs => mem_compile ht hs)
  have h2 : ((t.srcs.filterMap fun s => P.arg? (.compile s)).map (·.1)).Nodup := by
    rw [h1]
    exact List.pairwise_map.2 (hn.imp fun h h' => h (by cases h'; rfl))
  exact List.Pairwise.imp (fun {a b} (h : a.1 ≠ b.1) (h' : a = b) => h (congrArg _ h')) (List.pairwise_map.1 h2)

theorem buildTarget_eq (h : P.Ok run header) {depText : Text → List Text → Text} (hw : WritesDeps depText) {t : Target}
    (ht : t ∈ P.targets) (clk : Nat → Nat) (limit : Nat) (mine : Nat → Bool) (order : List Nat) (m : Mach P.Arg (List FileName)) :
    P.buildTarget run depText most text clk limit mine order t m =
      (P.tools run most text).buildThreads clk limit mine order "build_objects" ⟨_, mem_objects ht⟩ "compile"
        (t.srcs.filterMap fun s => P.arg? (.compile s)) t.dst.method
        (fun objs => (P.arg? (.link t.dst (objs.map String.toList) t.libs)).getD ⟨_, mem_objects ht⟩) m := by
  unfold Project.buildTarget Tools.buildThreads
  rw [script_eq h hw, arg?_mem (mem_objects ht)]
  simp only
  split <;> simp_all

/-- the objects that are linked -/
theorem outs_eq {t : Target} (ht : t ∈ P.targets) :
    ((t.srcs.filterMap fun s => P.arg? (.compile s)).map ((P.tools run most text).out "compile")) =
      t.srcs.map fun s => String.ofList (P.object s) := by
  have : ∀ ss : List Text, (∀ s ∈ ss, Call.compile s ∈ P.calls) →
      ((ss.filterMap fun s => P.arg? (.compile s)).map ((P.tools run most text).out "compile")) =
        ss.map fun s => String.ofList (P.object s) := by
    intro ss
    induction ss with
    | nil => intro _; rfl
    | cons s ss ih =>
      intro h
      rw [List.filterMap_cons, arg?_mem (h s (.head _))]
      simp only [List.map_cons, ih fun s hs => h s (.tail _ hs)]
      congr 1
  exact this _ fun s hs => mem_compile ht hs

theorem group_objects : (P.tools run most text).group "build_objects" = true := by simp [Project.tools]
theorem group_compile : (P.tools run most text).group "compile" = false := by simp [Project.tools]
theorem group_link (d : Output) : (P.tools run most text).group d.method = false := by
  cases h : d.lib <;> simp [Project.tools, Output.method, h]
theorem text_compile : ((P.tools run most text).text "compile").isSome := by simp [Project.tools]

/-- the argument of `link_exe` -/
def linkArg {t : Target} (ht : t ∈ P.targets) (objs : List FileName) : P.Arg :=
  (P.arg? (.link t.dst (objs.map String.toList) t.libs)).getD ⟨_, mem_objects ht⟩

theorem linkArg_eq {t : Target} (ht : t ∈ P.targets) :
    linkArg ht (t.srcs.map fun s => String.ofList (P.object s)) = (⟨_, mem_link ht⟩ : P.Arg) := by
  have : (t.srcs.map fun s => String.ofList (P.object s)).map String.toList = t.srcs.map P.object := by
    rw [List.map_map]
    exact List.map_congr_left fun s _ => by simp
  rw [linkArg, this, arg?_mem (mem_link ht)]
  rfl

theorem result_objects {t : Target} (ht : t ∈ P.targets) : (P.tools run most text).result ("build_objects", ⟨_, mem_objects ht⟩) =
    t.srcs.map fun s => String.ofList (P.object s) := by
  simp only [Tools.result, Tools.jobs, group_objects, if_true, parts_objects ht, List.map_map]
  exact outs_eq ht

theorem link_src (h : P.Ok run header) {t : Target} (ht : t ∈ P.targets) :
    ∀ x ∈ (P.tools run most text).srcs "build_objects" ⟨_, mem_objects ht⟩, x ≠ (P.tools run most text).out t.dst.method
      (linkArg ht ((P.tools run most text).result ("build_objects", ⟨_, mem_objects ht⟩))) := by
  intro x hx
  rw [result_objects ht, linkArg_eq ht]
  simp only [Project.tools, if_true, List.mem_map] at hx ⊢
  obtain ⟨s, hs, rfl⟩ := hx
  intro he
  have := ofList_inj he
  subst this
  exact h.notSource t ht hs

theorem next_made {code : Digest} {f : FunName} {b : P.Arg} {cmd : Option (List Text)} {file : Text} {fs : Files} {all o}
    (hn : ∀ seen, (P.tools run most text).next f code b seen = runCommand run cmd seen)
    (h : toolRun ((P.tools run most text).next f code b) fs ((P.tools run most text).most f b) [] = some (all, o)) :
    ∃ words, cmd = some words ∧ toolRun (run words) fs most [] = some (all, o) := by
  rw [show (P.tools run most text).next f code b = runCommand run cmd from funext hn] at h
  change toolRun _ fs most [] = _ at h
  cases cmd with
  | none =>
    cases most with
    | zero => simp [toolRun] at h
    | succ n => simp [toolRun, runCommand] at h
  | some words => exact ⟨words, rfl, h⟩

theorem next_compile {t : Target} (ht : t ∈ P.targets) {s : Text} (hs : s ∈ t.srcs) (code : Digest) (seen : List (FileName × Content)) :
    (P.tools run most text).next "compile" code ⟨.compile s, mem_compile ht hs⟩ seen = runCommand run (P.compileCommand s) seen := by
  simp [Project.tools]

theorem next_link {t : Target} (ht : t ∈ P.targets) (code : Digest) (seen : List (FileName × Content)) :
    (P.tools run most text).next t.dst.method code ⟨_, mem_link ht⟩ seen =
      runCommand run (P.linkCommand t.dst (t.srcs.map P.object) t.libs) seen := by
  simp [Project.tools]

theorem out_compile {t : Target} (ht : t ∈ P.targets) {s : Text} (hs : s ∈ t.srcs) :
    (P.tools run most text).out "compile" ⟨.compile s, mem_compile ht hs⟩ = String.ofList (P.object s) := by simp [Project.tools]

theorem out_link {t : Target} (ht : t ∈ P.targets) :
    (P.tools run most text).out t.dst.method ⟨_, mem_link ht⟩ = String.ofList (P.file t.dst) := by simp [Project.tools]

/-- **C132**: whatever was built before and whatever sources and headers were edited since, in whatever order the threads work: after a
`build_exe` or `build_lib` that succeeds each object file of the target is what the compiler makes, with the command for its source, of the sources and
headers that are there, and the executable is what the linker makes of these objects and of the libraries. -/
theorem C132_partial (h : P.Ok run header) {depText : Text → List Text → Text} (hw : WritesDeps depText)
    {vers : FileName → Nat → Option Content} {m : Mach P.Arg (List FileName)}
    (hm : Life (P.tools run most text).sig (P.script run depText most text) ((P.tools run most text).layout header) vers m)
    {t : Target} (ht : t ∈ P.targets) (clk : Nat → Nat) {limit : Nat} (hl : 2 ≤ limit) (mine : Nat → Bool) (order : List Nat)
    {q : Option (List FileName) × Mach P.Arg (List FileName)}
    (hq : P.buildTarget run depText most text clk limit mine order t m = q) (he : EditsOk vers q.2.trace) (hok : q.1.isSome) :
    (∀ s ∈ t.srcs, Made run most q.2.files (P.compileCommand s) (P.object s)) ∧
      Made run most q.2.files (P.linkCommand t.dst (t.srcs.map P.object) t.libs) (P.file t.dst) ∧
      Life (P.tools run most text).sig (P.script run depText most text) ((P.tools run most text).layout header) vers q.2 := by
  have hT := tools_ok (most := most) (text := text) h
  rw [script_eq h hw] at hm ⊢
  rw [buildTarget_eq h hw ht] at hq
  obtain ⟨k1, k2⟩ := C114_uptodate_partial hT hm (linkArg ht) group_objects (parts_objects ht) (compile_nodup ht (h.once t ht))
    group_compile text_compile (group_link _) (link_src h ht) clk hl mine order hq he hok
  refine ⟨fun s hs => ?_, ?_, (C114_partial hT hm _ group_objects (parts_objects ht) (compile_nodup ht (h.once t ht))
    group_compile text_compile clk hl mine order hq he hok).2⟩
  · obtain ⟨code, all, o, _, h2, h3⟩ := k1 ⟨.compile s, mem_compile ht hs⟩ (List.mem_filterMap.2 ⟨s, hs, arg?_mem _⟩)
    obtain ⟨words, hc, h4⟩ := next_made (file := P.object s) (next_compile ht hs code) h2
    exact ⟨words, all, o, hc, h4, (out_compile (run := run) (most := most) (text := text) ht hs) ▸ h3⟩
  · rw [outs_eq ht, linkArg_eq ht] at k2
    obtain ⟨code, all, o, _, h2, h3⟩ := k2
    obtain ⟨words, hc, h4⟩ := next_made (file := P.file t.dst) (next_link ht code) h2
    exact ⟨words, all, o, hc, h4, (out_link (run := run) (most := most) (text := text) ht) ▸ h3⟩

theorem make_runOne {ds : FunName → Option Digest} {f : FunName} {b : P.Arg} {cmd : Option (List Text)} {file : Text} {fs fs1 : Files}
    (hn : ∀ code seen, (P.tools run most text).next f code b seen = runCommand run cmd seen)
    (ho : (P.tools run most text).out f b = String.ofList file) (h : (P.tools run most text).make ds (f, b) fs = some fs1) :
    runOne run most cmd file fs = some fs1 := by
  obtain ⟨code, all, o, _, _, h2, rfl⟩ := make_some h
  obtain ⟨words, rfl, h3⟩ := next_made (file := file) (hn code) h2
  simp [runOne, h3, ho]

theorem runOne_make {ds : FunName → Option Digest} {f : FunName} {b : P.Arg} {cmd : Option (List Text)} {file : Text} {fs fs1 : Files}
    (hn : ∀ code seen, (P.tools run most text).next f code b seen = runCommand run cmd seen)
    (ho : (P.tools run most text).out f b = String.ofList file) (hd : (ds f).isSome)
    (hs : ∀ x ∈ (P.tools run most text).srcs f b, (fs x).isSome)
    (h : runOne run most cmd file fs = some fs1) : (P.tools run most text).make ds (f, b) fs = some fs1 := by
  obtain ⟨code, hd⟩ := Option.isSome_iff_exists.1 hd
  simp only [runOne, Option.bind_eq_some_iff, Option.map_eq_some_iff] at h
  obtain ⟨words, rfl, q, h1, rfl⟩ := h
  rw [← ho]
  refine make_of (all := q.1) hd hs ?_
  rw [show (P.tools run most text).next f code b = run words from funext (hn code)]
  exact h1

theorem makeMany_scratch {ds : FunName → Option Digest} {t : Target} (ht : t ∈ P.targets) (ss : List Text) (hss : ∀ s ∈ ss, s ∈ t.srcs)
    {fs fs1 : Files}
    (h : (P.tools run most text).makeMany ds ((ss.filterMap fun s => P.arg? (.compile s)).map fun b => ("compile", b)) fs = some fs1) :
    ss.foldlM (fun fs s => runOne run most (P.compileCommand s) (P.object s) fs) fs = some fs1 := by
  induction ss generalizing fs with
  | nil => exact h
  | cons s ss ih =>
    have hs := hss s (.head _)
    rw [List.filterMap_cons, arg?_mem (mem_compile ht hs)] at h
    simp only [List.map_cons, Tools.makeMany, Option.bind_eq_some_iff] at h
    obtain ⟨fs2, h1, h2⟩ := h
    rw [List.foldlM_cons, make_runOne (next_compile ht hs) (out_compile ht hs) h1]
    exact ih (fun s hs => hss s (.tail _ hs)) h2

/-- **C132**, from scratch: after a `build_exe` or `build_lib` that succeeds all files are as if all commands for the target had been run, one after the
other. -/
theorem C132_scratch_partial (h : P.Ok run header) {depText : Text → List Text → Text} (hw : WritesDeps depText)
    {vers : FileName → Nat → Option Content} {m : Mach P.Arg (List FileName)}
    (hm : Life (P.tools run most text).sig (P.script run depText most text) ((P.tools run most text).layout header) vers m)
    {t : Target} (ht : t ∈ P.targets) (clk : Nat → Nat) {limit : Nat} (hl : 2 ≤ limit) (mine : Nat → Bool) (order : List Nat)
    {q : Option (List FileName) × Mach P.Arg (List FileName)}
    (hq : P.buildTarget run depText most text clk limit mine order t m = q) (he : EditsOk vers q.2.trace) (hok : q.1.isSome) :
    P.fromScratch run most t m.files = some q.2.files := by
  have hT := tools_ok (most := most) (text := text) h
  rw [script_eq h hw] at hm
  rw [buildTarget_eq h hw ht] at hq
  have h1 := (C114_partial hT hm (linkArg ht) group_objects (parts_objects ht) (compile_nodup ht (h.once t ht))
    group_compile text_compile clk hl mine order hq he hok).1
  obtain ⟨r, hr⟩ := Option.isSome_iff_exists.1 hok
  rw [hr] at h1
  have h2 := makeAll_jobs hT _ _ _ _ _ h1.symm
  rw [(build_inOrder hT "build_objects" t.dst.method _ (linkArg ht) group_objects (group_link _) (link_src h ht)).2] at h2
  simp only [List.flatMap_cons, List.flatMap_nil, List.append_nil] at h2
  rw [makeMany_append, Option.bind_eq_some_iff] at h2
  obtain ⟨fs1, h2, h3⟩ := h2
  simp only [Tools.jobs, group_objects, if_true, parts_objects ht] at h2
  have h4 := makeMany_scratch ht t.srcs (fun _ hs => hs) h2
  rw [result_objects ht, linkArg_eq ht] at h3
  simp only [Tools.jobs, group_link, Bool.false_eq_true, if_false, Tools.makeMany, Option.bind_eq_some_iff] at h3
  obtain ⟨fs2, h3, h5⟩ := h3
  cases h5
  rw [Project.fromScratch, h4]
  exact make_runOne (next_link ht) (out_link ht) h3

theorem setFile_isSome {x y : FileName} {o : Content} {fs : Files} (h : (fs x).isSome) : (setFile y (some o) fs x).isSome := by
  unfold setFile
  split
  · rfl
  · exact h

theorem runOne_isSome {cmd : Option (List Text)} {file : Text} {fs fs1 : Files} (h : runOne run most cmd file fs = some fs1) :
    (fs1 (String.ofList file)).isSome ∧ ∀ x, (fs x).isSome → (fs1 x).isSome := by
  simp only [runOne, Option.bind_eq_some_iff, Option.map_eq_some_iff] at h
  obtain ⟨words, _, q, _, rfl⟩ := h
  exact ⟨by simp [setFile], fun x hx => setFile_isSome hx⟩

theorem scratch_makeMany {ds : FunName → Option Digest} (hd : (ds "compile").isSome) {t : Target} (ht : t ∈ P.targets) (ss : List Text)
    (hss : ∀ s ∈ ss, s ∈ t.srcs) {fs fs1 : Files} (hfs : ∀ s ∈ ss, (fs (String.ofList s)).isSome)
    (h : ss.foldlM (fun fs s => runOne run most (P.compileCommand s) (P.object s) fs) fs = some fs1) :
    (P.tools run most text).makeMany ds ((ss.filterMap fun s => P.arg? (.compile s)).map fun b => ("compile", b)) fs = some fs1 ∧
      (∀ x, (fs x).isSome → (fs1 x).isSome) ∧ ∀ s ∈ ss, (fs1 (String.ofList (P.object s))).isSome := by
  induction ss generalizing fs with
  | nil => cases h; exact ⟨rfl, fun _ h => h, by simp⟩
  | cons s ss ih =>
    have hs := hss s (.head _)
    rw [List.foldlM_cons] at h
    obtain ⟨fs2, h1, h2⟩ := Option.bind_eq_some_iff.1 h
    obtain ⟨k1, k2⟩ := runOne_isSome h1
    obtain ⟨i1, i2, i3⟩ := ih (fun s hs => hss s (.tail _ hs)) (fun s hs => k2 _ (hfs s (.tail _ hs))) h2
    refine ⟨?_, fun x hx => i2 x (k2 x hx), ?_⟩
    · rw [List.filterMap_cons, arg?_mem (mem_compile ht hs)]
      simp only [List.map_cons, Tools.makeMany]
      rw [runOne_make (next_compile ht hs) (out_compile ht hs) hd ?_ h1]
      · exact i1
      · intro x hx
        simp only [Project.tools, if_true, List.mem_singleton] at hx
        subst hx
        exact hfs s (.head _)
    · intro s' hs'
      rcases List.mem_cons.1 hs' with rfl | hs'
      · exact i2 _ k1
      · exact i3 s' hs'

/-- **C132**, success: if the sources and libraries are there, and running all commands for the target one after the other succeeds,
then `build_exe` succeeds, provided that the threads get enough steps. -/
theorem C132_succeeds_partial (h : P.Ok run header) {depText : Text → List Text → Text} (hw : WritesDeps depText)
    {vers : FileName → Nat → Option Content} {m : Mach P.Arg (List FileName)}
    (hm : Life (P.tools run most text).sig (P.script run depText most text) ((P.tools run most text).layout header) vers m)
    {t : Target} (ht : t ∈ P.targets) (clk : Nat → Nat) {limit : Nat} (hl : 2 ≤ limit) (mine : Nat → Bool) (order : List Nat)
    (hfair : ∀ i, i < t.srcs.length → most + 4 ≤ order.count i)
    {q : Option (List FileName) × Mach P.Arg (List FileName)}
    (hq : P.buildTarget run depText most text clk limit mine order t m = q) (he : EditsOk vers q.2.trace)
    (hds : ∀ f, f = "compile" ∨ f = "build_objects" ∨ f = t.dst.method → (m.sys.env.funDigest f).isSome)
    (hsrcs : ∀ s ∈ t.srcs, (m.files (String.ofList s)).isSome) (hlibs : ∀ l ∈ t.libs, (m.files (String.ofList (P.libs.path l))).isSome)
    (hall : (P.fromScratch run most t m.files).isSome) : q.1.isSome := by
  have hT := tools_ok (most := most) (text := text) h
  rw [script_eq h hw] at hm
  rw [buildTarget_eq h hw ht] at hq
  have hlen : (t.srcs.filterMap fun s => P.arg? (.compile s)).length = t.srcs.length := by
    have := congrArg List.length (compile_args t.srcs fun s hs => mem_compile (P := P) ht hs)
    simpa using this
  rw [C114_succeeds_partial hT hm (linkArg ht) group_objects (parts_objects ht) (compile_nodup ht (h.once t ht))
    group_compile text_compile clk hl mine order (fun i s hi => by
      refine hfair i ?_
      rw [← hlen]
      exact (List.getElem?_eq_some_iff.1 hi).1) hq he]
  obtain ⟨fs2, hall⟩ := Option.isSome_iff_exists.1 hall
  obtain ⟨fs1, h1, h2⟩ := Option.bind_eq_some_iff.1 hall
  obtain ⟨k1, k2, k3⟩ := scratch_makeMany (text := text) (hds "compile" (.inl rfl)) ht t.srcs (fun _ hs => hs) hsrcs h1
  obtain ⟨code, hc⟩ := Option.isSome_iff_exists.1 (hds "build_objects" (.inr (.inl rfl)))
  have h3 := group_call_of (T := P.tools run most text) (n := 0) (b := ⟨_, mem_objects ht⟩) group_objects
    (fun c hc => (hT.parts _ _ group_objects c hc).1) hc (by
      intro x hx
      simp only [Project.tools, if_true, List.mem_map] at hx
      obtain ⟨s, hs, rfl⟩ := hx
      exact hsrcs s hs) (by rw [parts_objects ht]; exact k1)
  have h4 : (P.tools run most text).make m.sys.env.funDigest (t.dst.method, ⟨_, mem_link ht⟩) fs1 = some fs2 := by
    refine runOne_make (next_link ht) (out_link ht) (hds _ (.inr (.inr rfl))) ?_ h2
    intro x hx
    simp only [Project.tools, if_true, List.mem_map, List.mem_append] at hx
    obtain ⟨y, ⟨s, hs, rfl⟩ | ⟨l, hl, rfl⟩, rfl⟩ := hx
    · exact k3 s hs
    · exact k2 _ (hlibs l hl)
  have hres : ((P.tools run most text).parts "build_objects" ⟨_, mem_objects ht⟩).map (fun c => (P.tools run most text).out c.1 c.2) =
      t.srcs.map fun s => String.ofList (P.object s) := by
    rw [parts_objects ht, List.map_map]
    exact outs_eq ht
  simp only [buildSteps, makeAll, cleanProg]
  rw [h3]
  simp only [List.nil_append, List.getLast?_singleton, Option.getD_some, hres, linkArg_eq ht, cleanProg]
  rw [tools_call (group_link _), h4]
  simp [cleanProg]

/-- **C132**, afterwards: also a `build_exe` or `build_lib` that fails leaves a state to which all this applies, provided that the threads get enough
steps. -/
theorem C132_after_partial (h : P.Ok run header) {depText : Text → List Text → Text} (hw : WritesDeps depText)
    {vers : FileName → Nat → Option Content} {m : Mach P.Arg (List FileName)}
    (hm : Life (P.tools run most text).sig (P.script run depText most text) ((P.tools run most text).layout header) vers m)
    {t : Target} (ht : t ∈ P.targets) (clk : Nat → Nat) {limit : Nat} (hl : 2 ≤ limit) (mine : Nat → Bool) (order : List Nat)
    (hfair : ∀ i, i < t.srcs.length → most + 4 ≤ order.count i)
    {q : Option (List FileName) × Mach P.Arg (List FileName)}
    (hq : P.buildTarget run depText most text clk limit mine order t m = q) (he : EditsOk vers q.2.trace) :
    Life (P.tools run most text).sig (P.script run depText most text) ((P.tools run most text).layout header) vers q.2 := by
  have hT := tools_ok (most := most) (text := text) h
  rw [script_eq h hw] at hm ⊢
  rw [buildTarget_eq h hw ht] at hq
  have hlen : (t.srcs.filterMap fun s => P.arg? (.compile s)).length = t.srcs.length := by
    have := congrArg List.length (compile_args t.srcs fun s hs => mem_compile (P := P) ht hs)
    simpa using this
  exact C114_after_partial hT hm (linkArg ht) group_objects (parts_objects ht) (compile_nodup ht (h.once t ht))
    group_compile text_compile clk hl mine order (fun i s hi => by
      refine hfair i ?_
      rw [← hlen]
      exact (List.getElem?_eq_some_iff.1 hi).1) hq he

/-- the function returns, for some contents of files and some results of the calls that it makes -/
inductive Returns {B R : Type} : Prog B R → Prop
  | ret (r : R) : Returns (.ret r)
  | callD {deep : Bool} {f : FunName} {b : B} {k : Option R → Prog B R} (r : Option R) (h : Returns (k r)) : Returns (.callD deep f b k)
  | report {srcs dsts : List FileName} {k : Prog B R} (h : Returns k) : Returns (.report srcs dsts k)
  | read {x : FileName} {k : Option Content → Prog B R} (c : Option Content) (h : Returns (k c)) : Returns (.read x k)
  | write {x : FileName} {c : Option Content} {k : Prog B R} (h : Returns k) : Returns (.write x c k)

/-- **C132**, the dependency file: if what the compiler writes for an object cannot be read as a dependency file, `compile` does not
return, whatever the compiler reads and writes. -/
theorem C132_unreadable (depText : Text → List Text → Text) (run : Programs) (most : Nat) (text code : Digest) (b : P.Arg) (src : Text)
    (hb : b.1 = .compile src) (hd : ∀ names, readDeps (depText (P.object src) names) = none) :
    ¬ Returns (P.script run depText most text "compile" code b) := by
  simp only [Project.script, hb, if_true]
  generalize runCommand run (P.compileCommand src) = next
  generalize ([] : List (FileName × Content)) = seen
  induction most generalizing seen with
  | zero => intro h; cases h
  | succ n ih =>
    intro h
    unfold compileProg at h
    cases hn : next seen with
    | error => rw [hn] at h; cases h
    | done o => rw [hn] at h; simp only [hd] at h; cases h
    | more x =>
      rw [hn] at h
      simp only at h
      cases h with
      | read c h =>
        cases c with
        | none => cases h
        | some c => exact ih _ h

theorem dedup_prefix (xs new : List Text) : ∃ back, dedup xs new = new ++ back := by
  induction xs generalizing new with
  | nil => exact ⟨[], by simp [dedup]⟩
  | cons x xs ih =>
    obtain ⟨back, h⟩ := ih (if x ∈ new then new else new ++ [x])
    rw [dedup, h]
    split
    · exact ⟨back, rfl⟩
    · exact ⟨x :: back, by simp⟩

/-- **C132**, the commands: the command for a source compiles this source to its object file, and has the compiler write the
dependencies to the file that is read afterwards; the command for a target links all its objects to its file. -/
theorem C132_commands (P : Project) (hd : P.dep ≠ "-MMD".toList ∧ P.dep ≠ "-MF".toList) (hf : P.compiler.cc.flags = []) :
    (∀ s cmd, P.compileCommand s = some cmd → ∃ front back,
      cmd = [P.compiler.cc.exe] ++ front ++ ["-o".toList, P.object s, "-MMD".toList, "-MF".toList, P.dep] ++ back ++ [s] ∧
      "-c".toList ∈ front) ∧
    ∀ dst objs libs cmd, P.linkCommand dst objs libs = some cmd → ∃ front flags back,
      cmd = [(P.linker dst).cc.exe] ++ front ++ ["-o".toList, P.file dst] ++ flags ++ objs ++ back ∧
      ∀ w ∈ flags, w ∈ (P.linker dst).cc.flags ∨ w ∈ P.lkwargs.flags := by
  constructor
  · intro s cmd h
    have hfl : ∃ back, dedup (P.compiler.cc.flags ++ (["-MMD".toList, "-MF".toList, P.dep] ++ P.ckwargs.flags)) [] =
        ["-MMD".toList, "-MF".toList, P.dep] ++ back := by
      have h1 : ∀ a b c (xs : List Text), a ≠ b → c ≠ a → c ≠ b → dedup ([a, b, c] ++ xs) [] = dedup xs [a, b, c] := by
        intro a b c xs hab hca hcb
        simp [dedup, hab.symm, hca, hcb]
      rw [hf, List.nil_append, h1 _ _ _ _ (by decide) hd.1 hd.2]
      exact dedup_prefix _ _
    unfold Project.compileCommand Compiler.command at h
    obtain ⟨back, hfl⟩ := hfl
    obtain ⟨l, _, ⟨hc, rfl⟩ | ⟨hc, _⟩⟩ := command_parts h
    · rw [before_eq]
      simp only [dstWords]
      rw [hfl]
      generalize middle P.compiler.cc _ l.libpaths = mid
      exact ⟨P.compiler.cc.preFlags ++ "-c".toList :: P.compiler.flags ++ mid, back, by simp [Project.object, orElse], by simp⟩
    · exact absurd (by simp [wordsBefore]) hc
  · intro dst objs libs cmd h
    obtain ⟨mid, fl, back, rfl, _, h2⟩ := linker_words _ _ _ _ _ _ _ _ _ h
    exact ⟨(P.linker dst).cc.preFlags ++ (P.linker dst).flags ++ mid, fl, back, by simp [Project.file, orElse], fun w hw => (h2 w).1 hw⟩


/-! ### Several targets -/

theorem askCall_trace {B R : Type} [DecidableEq B] {sg : Sig B R} {clk : Nat → Nat} {body : Mach B R → Outcome B R} {f : FunName} {b : B}
    (hr : ∀ m, ∃ new, (body m).2.2.trace = new ++ m.trace) (m : Mach B R) :
    ∃ new, (askCall sg clk body f b m).2.2.trace = new ++ m.trace := by
  unfold askCall
  simp only
  generalize hm1 : (({ m with stack := noteCall f m.stack, next := m.next + 1 } : Mach B R).event sg
    (.tick (clk m.next))).2 = m1
  have e1 : m1.trace = (m.sys, .tick (clk m.next)) :: m.trace := by rw [← hm1]; rfl
  generalize hm2 : m1.event sg (.prepare m.next f b) = X
  obtain ⟨o, m2⟩ := X
  have e3 : m2.trace = (m1.sys, .prepare m.next f b) :: m1.trace := by
    have := congrArg (fun x => x.2.trace) hm2; exact this.symm
  have base : m2.trace = [(m1.sys, .prepare m.next f b), (m.sys, .tick (clk m.next))] ++ m.trace := by rw [e3, e1]; rfl
  cases o with
  | hit r => exact ⟨_, base⟩
  | raised e => exact ⟨_, base⟩
  | done => exact ⟨_, base⟩
  | deleted e => exact ⟨_, base⟩
  | run =>
    simp only [runCall]
    obtain ⟨new, w⟩ := hr { m2 with stack := [] :: m2.stack }
    revert w
    generalize body { m2 with stack := [] :: m2.stack } = Y
    obtain ⟨o, rep, m3⟩ := Y
    intro w
    have key : ∀ (ev : Event B R) (m4 : Mach B R), m4.trace = (m3.sys, ev) :: m3.trace →
        ∃ new, m4.trace = new ++ m.trace := by
      intro ev m4 h
      refine ⟨(m3.sys, ev) :: new ++ [(m1.sys, .prepare m.next f b), (m.sys, .tick (clk m.next))], ?_⟩
      rw [h, show m3.trace = new ++ m2.trace from w, base]
      simp
    cases o with
    | none => exact key (.fail m.next) _ rfl
    | some r =>
      simp only
      cases hst : m3.stack with
      | nil => exact key (.fail m.next) _ rfl
      | cons deps rest =>
        simp only
        generalize hE : ({ m3 with stack := rest } : Mach B R).event sg (.complete m.next r deps rep.srcs rep.dsts) = E
        obtain ⟨oE, m4⟩ := E
        have t : m4.trace = (m3.sys, .complete m.next r deps rep.srcs rep.dsts) :: m3.trace := by
          have := congrArg (fun x => x.2.trace) hE; exact this.symm
        cases oE <;> exact key _ m4 t

theorem groupCall_trace {B R : Type} [DecidableEq B] {sg : Sig B R} {script : Script B R} (clk : Nat → Nat) (limit : Nat)
    (after : Nat → List Nat) (mine : Nat → Bool) (f : FunName) (bs : List B) (fin : List R → R) (order : List Nat) (g : FunName) (c : B)
    (m : Mach B R) : ∃ new, (groupCall sg script clk limit after mine f bs fin order g c m).2.2.trace = new ++ m.trace := by
  refine askCall_trace (fun m => ?_) m
  have h : (mapRun sg script clk limit after mine f bs fin order m).2.2 =
      ((Pool.start m (bs.map (callTask f))).run sg script clk limit after order).mach := by
    unfold mapRun
    simp only
    split <;> simp only [crew_pool]
  rw [h]
  exact poolRun_trace clk limit after order (Pool.start m (bs.map (callTask f)))

theorem buildTarget_trace {depText : Text → List Text → Text} (clk : Nat → Nat) (limit : Nat) (mine : Nat → Bool) (order : List Nat)
    (t : Target) (m : Mach P.Arg (List FileName)) :
    ∃ new, (P.buildTarget run depText most text clk limit mine order t m).2.trace = new ++ m.trace := by
  unfold Project.buildTarget
  simp only
  cases P.arg? (.objects t.srcs) with
  | none => exact ⟨[], rfl⟩
  | some b =>
    simp only
    obtain ⟨n1, h1⟩ := groupCall_trace (sg := (P.tools run most text).sig) (script := P.script run depText most text) clk limit
      (fun _ => []) mine "compile" (t.srcs.filterMap fun s => P.arg? (.compile s)) List.flatten order "build_objects" b m
    revert h1
    generalize groupCall (P.tools run most text).sig (P.script run depText most text) clk limit (fun _ => []) mine "compile"
      (t.srcs.filterMap fun s => P.arg? (.compile s)) List.flatten order "build_objects" b m = g
    obtain ⟨o, rep, m1⟩ := g
    intro h1
    cases o with
    | none => exact ⟨n1, h1⟩
    | some objs =>
      simp only at h1 ⊢
      obtain ⟨n2, w⟩ := runProg_within (sg := (P.tools run most text).sig) (clk := clk)
        (callFn_within (P.tools run most text).sig (P.script run depText most text) clk limit)
        (makeAll [(t.dst.method, fun _ => (P.arg? (.link t.dst (objs.map String.toList) t.libs)).getD b)] [objs]) m1
      refine ⟨n2 ++ n1, ?_⟩
      rw [build, w.trace, h1, List.append_assoc]

theorem buildAll_trace {depText : Text → List Text → Text} (limit : Nat) (ts : List (Target × Threads)) (m : Mach P.Arg (List FileName)) :
    ∃ new, (P.buildAll run depText most text limit ts m).2.trace = new ++ m.trace := by
  induction ts generalizing m with
  | nil => exact ⟨[], rfl⟩
  | cons q ts ih =>
    obtain ⟨t, w⟩ := q
    obtain ⟨n1, h1⟩ := buildTarget_trace (P := P) (run := run) (most := most) (text := text) (depText := depText) w.clk limit w.mine
      w.order t m
    rw [Project.buildAll]
    revert h1
    generalize P.buildTarget run depText most text w.clk limit w.mine w.order t m = g
    obtain ⟨o, m1⟩ := g
    intro h1
    cases o with
    | none => exact ⟨n1, h1⟩
    | some r =>
      obtain ⟨n2, h2⟩ := ih m1
      exact ⟨n2 ++ n1, by simp only; rw [h2, show m1.trace = _ from h1, List.append_assoc]⟩

/-- a file that is up to date is not changed by its command -/
theorem runOne_made {cmd : Option (List Text)} {file : Text} {fs fs1 : Files} (h : Made run most fs cmd file)
    (h1 : runOne run most cmd file fs = some fs1) : fs1 = fs := by
  obtain ⟨words, read, out, rfl, h2, h3⟩ := h
  simp only [runOne, Option.bind_some, h2, Option.map_some, Option.some.injEq] at h1
  subst h1
  funext x
  unfold setFile
  split
  · rename_i h; rw [h, h3]
  · rfl

/-- a command changes its file only -/
theorem Made.keep {cmd cmd1 : Option (List Text)} {file file1 : Text} {fs fs1 : Files} (h : Made run most fs cmd file)
    (h1 : runOne run most cmd1 file1 fs = some fs1) (hf : file ≠ file1)
    (hr : ∀ words seen x, cmd = some words → run words seen = .more x → x ≠ String.ofList file1) : Made run most fs1 cmd file := by
  obtain ⟨words, read, out, rfl, h2, h3⟩ := h
  simp only [runOne, Option.bind_eq_some_iff, Option.map_eq_some_iff] at h1
  obtain ⟨words1, _, q, _, rfl⟩ := h1
  refine ⟨words, read, out, rfl, toolRun_congr h2 ?_, ?_⟩
  · intro y hy
    rcases toolRun_seen h2 y hy with h' | ⟨_, s, hn⟩
    · cases h'
    · simp [setFile, hr words s y.1 rfl hn]
  · rw [← h3]
    simp only [setFile]
    rw [if_neg fun he => hf (ofList_inj he)]

theorem object_inj (h : P.Ok run header) {t t' : Target} (ht : t ∈ P.targets) (ht' : t' ∈ P.targets) {s s' : Text} (hs : s ∈ t.srcs)
    (hs' : s' ∈ t'.srcs) (he : P.object s = P.object s') : s = s' := by
  obtain ⟨r1, r2⟩ := h.relative t ht s hs
  obtain ⟨r1', r2'⟩ := h.relative t' ht' s' hs'
  exact C83_objects_partial P.root P.compiler.suffix s s' r1 r1' r2 r2' (h.extension t ht s hs t' ht' s' hs') he

theorem source_object (h : P.Ok run header) {t t' : Target} (ht : t ∈ P.targets) (ht' : t' ∈ P.targets) {s s' : Text} (hs : s ∈ t.srcs)
    (hs' : s' ∈ t'.srcs) : s ≠ P.object s' := by
  rintro rfl
  have := object_root h ht' hs'
  rw [(h.relative t ht _ hs).2] at this
  cases this

/-- a target stays up to date while sources are compiled -/
theorem UpToDate.compile (h : P.Ok run header) {a b : Target} (ha : a ∈ P.targets) (hb : b ∈ P.targets) (hab : P.Before a b) (ss : List Text)
    (hss : ∀ s ∈ ss, s ∈ b.srcs) {fs fs1 : Files} (hu : P.UpToDate run most fs a)
    (h1 : ss.foldlM (fun fs s => runOne run most (P.compileCommand s) (P.object s) fs) fs = some fs1) : P.UpToDate run most fs1 a := by
  induction ss generalizing fs with
  | nil => cases h1; exact hu
  | cons s ss ih =>
    rw [List.foldlM_cons] at h1
    obtain ⟨fs2, h1, h2⟩ := Option.bind_eq_some_iff.1 h1
    refine ih (fun s hs => hss s (.tail _ hs)) ?_ h2
    have hs := hss s (.head _)
    by_cases hsa : s ∈ a.srcs
    · rw [runOne_made (hu.1 s hsa) h1]
      exact hu
    · refine ⟨fun s' hs' => (hu.1 s' hs').keep h1 (fun he => hsa (object_inj h ha hb hs' hs he ▸ hs')) ?_,
        hu.2.keep h1 (h.notObject a ha b hb s hs) ?_⟩
      · intro words seen x hc hx
        rcases h.compiler a ha s' hs' words hc seen x hx with rfl | hx
        · exact fun he => source_object h ha hb hs' hs (ofList_inj he)
        · rintro rfl
          exact (h.notHeader b hb).1 s hs hx
      · intro words seen x hc hx
        rcases h.linker a ha words hc seen x hx with ⟨s', hs', rfl⟩ | ⟨l, hl, rfl⟩
        · exact fun he => hsa (object_inj h ha hb hs' hs (ofList_inj he) ▸ hs')
        · exact fun he => (hab.2 l hl).2 s hs (ofList_inj he)

/-- a target stays up to date while another is built -/
theorem UpToDate.build (h : P.Ok run header) {a b : Target} (ha : a ∈ P.targets) (hb : b ∈ P.targets) (hab : P.Before a b)
    {fs fs1 : Files} (hu : P.UpToDate run most fs a) (h1 : P.fromScratch run most b fs = some fs1) : P.UpToDate run most fs1 a := by
  obtain ⟨fs2, h1, h2⟩ := Option.bind_eq_some_iff.1 h1
  have hu := UpToDate.compile h ha hb hab b.srcs (fun _ hs => hs) hu h1
  by_cases hf : P.file a.dst = P.file b.dst
  · obtain rfl := h.targets a ha b hb hf
    rw [runOne_made hu.2 h2]
    exact hu
  · refine ⟨fun s hs => (hu.1 s hs).keep h2 (fun he => h.notObject b hb a ha s hs he.symm) ?_, hu.2.keep h2 hf ?_⟩
    · intro words seen x hc hx
      rcases h.compiler a ha s hs words hc seen x hx with rfl | hx
      · exact fun he => hab.1 (ofList_inj he ▸ hs)
      · rintro rfl
        exact (h.notHeader b hb).2 hx
    · intro words seen x hc hx
      rcases h.linker a ha words hc seen x hx with ⟨s, hs, rfl⟩ | ⟨l, hl, rfl⟩
      · exact fun he => h.notObject b hb a ha s hs (ofList_inj he).symm
      · exact fun he => (hab.2 l hl).1 (ofList_inj he)

/-- **C132**, several targets: if a script builds targets one after the other, so that nothing is built after a target that needs it,
and none fails, then in the end the objects and files of *all* targets are up to date, although they share sources, and all files are
as if all commands had been run one after the other. -/
theorem C132_all_partial (h : P.Ok run header) {depText : Text → List Text → Text} (hw : WritesDeps depText)
    {vers : FileName → Nat → Option Content} {m : Mach P.Arg (List FileName)}
    (hm : Life (P.tools run most text).sig (P.script run depText most text) ((P.tools run most text).layout header) vers m)
    {limit : Nat} (hl : 2 ≤ limit) (ts : List (Target × Threads)) (hts : ∀ q ∈ ts, q.1 ∈ P.targets)
    (hord : ts.Pairwise fun q q' => P.Before q.1 q'.1) {m' : Mach P.Arg (List FileName)}
    (hq : P.buildAll run depText most text limit ts m = (true, m')) (he : EditsOk vers m'.trace) :
    (∀ q ∈ ts, P.UpToDate run most m'.files q.1) ∧
      (ts.map (·.1)).foldlM (fun fs t => P.fromScratch run most t fs) m.files = some m'.files ∧
      Life (P.tools run most text).sig (P.script run depText most text) ((P.tools run most text).layout header) vers m' := by
  have key : ∀ (ts : List (Target × Threads)) (m : Mach P.Arg (List FileName)), (∀ q ∈ ts, q.1 ∈ P.targets) →
      (ts.Pairwise fun q q' => P.Before q.1 q'.1) →
      Life (P.tools run most text).sig (P.script run depText most text) ((P.tools run most text).layout header) vers m →
      P.buildAll run depText most text limit ts m = (true, m') →
      (∀ q ∈ ts, P.UpToDate run most m'.files q.1) ∧
      (ts.map (·.1)).foldlM (fun fs t => P.fromScratch run most t fs) m.files = some m'.files ∧
      (∀ a ∈ P.targets, (∀ q ∈ ts, P.Before a q.1) → P.UpToDate run most m.files a → P.UpToDate run most m'.files a) ∧
      Life (P.tools run most text).sig (P.script run depText most text) ((P.tools run most text).layout header) vers m' := by
    intro ts
    induction ts with
    | nil =>
      intro m _ _ hm hq
      simp only [Project.buildAll, Prod.mk.injEq, true_and] at hq
      subst hq
      exact ⟨by simp, rfl, fun _ _ _ hu => hu, hm⟩
    | cons q ts ih =>
      obtain ⟨t, w⟩ := q
      intro m hts hord hm hq
      obtain ⟨hord1, hord2⟩ := List.pairwise_cons.1 hord
      have ht := hts _ (.head _)
      rw [Project.buildAll] at hq
      generalize hg : P.buildTarget run depText most text w.clk limit w.mine w.order t m = g at hq
      obtain ⟨o, m1⟩ := g
      cases o with
      | none => cases hq
      | some r =>
        simp only at hq
        obtain ⟨new, h1⟩ := buildAll_trace (P := P) (run := run) (most := most) (text := text) (depText := depText) limit ts m1
        rw [hq] at h1
        have he1 : EditsOk vers m1.trace := EditsOk.sub he h1
        obtain ⟨k1, k2, k3⟩ := C132_partial h hw hm ht w.clk hl w.mine w.order hg he1 rfl
        have k4 := C132_scratch_partial h hw hm ht w.clk hl w.mine w.order hg he1 rfl
        obtain ⟨i1, i2, i3, i4⟩ := ih m1 (fun q hq => hts q (.tail _ hq)) hord2 k3 hq
        refine ⟨fun q hq => ?_, ?_, fun a ha hb hu => ?_, i4⟩
        · rcases List.mem_cons.1 hq with rfl | hq
          · exact i3 t ht hord1 ⟨k1, k2⟩
          · exact i1 q hq
        · rw [List.map_cons, List.foldlM_cons, k4]
          exact i2
        · exact i3 a ha (fun q hq => hb q (.tail _ hq)) (UpToDate.build h ha ht (hb _ (.head _)) hu k4)
  obtain ⟨k1, k2, _, k4⟩ := key ts m hts hord hm hq
  exact ⟨k1, k2, k4⟩

end
end Verif.Gcc.Project
