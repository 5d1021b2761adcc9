import Verif.Ocaml.Command
import Verif.Props.Reader
import Verif.Props.GccCommand
/-!
# OCaml: the command lines

C116: the compilers and ocamldep get what the builder and the call ask for.
-/
namespace Verif.Ocaml
open Verif.Reader
open Verif.Gcc (sortedSet sortedSet_spec)

/-- the options with an argument that fbuild uses -/
def ours : List Text :=
  ["-I".toList, "-cc".toList, "-cclib".toList, "-pp".toList, "-for-pack".toList, "-o".toList, "-package".toList, "-syntax".toList,
    "-ppopt".toList]

/-- `takes` can be the options of the compiler that have an argument. -/
structure Options (takes : List Text) : Prop where
  dash : ∀ o ∈ takes, o.head? = some '-'
  known : ∀ o ∈ ours, o ∈ takes
  switches : ∀ o ∈ ["-custom".toList, "-c".toList, "-a".toList, "-linkpkg".toList, "-modules".toList], o ∉ takes

/-- the lists of words that the user gives as they are -/
def groups (b : Caml) (a : RunArgs) : List (List Text) :=
  [b.preFlags, a.preFlags, b.debugFlags, b.optimizeFlags, b.flags, a.flags, b.profileFlags, a.profileFlags.getD []]

/-- The lists of flags have no files, and no argument is missing in them. -/
def Orderly (takes : List Text) (b : Caml) (a : RunArgs) : Prop :=
  ∀ g ∈ groups b a, whole takes g = true ∧ filesOf (read takes g) = []

/-- The option is not among the flags that the user gives. -/
def Unused (takes : List Text) (b : Caml) (a : RunArgs) (o : Text) : Prop := ∀ g ∈ groups b a, argsOf o (read takes g) = []

/-- the name of a library on the command line: as it is if there is such a file, otherwise with the suffix -/
def libFile (ex : Text → Bool) (b : Caml) (l : Text) : Text := if ex l then l else l ++ b.libSuffix

/-- No source and no library looks like an option. -/
def Plain (ex : Text → Bool) (b : Caml) (a : RunArgs) : Prop :=
  ∀ w ∈ (b.libs ++ a.external ++ a.libs).map (libFile ex b) ++ a.srcs, w.head? ≠ some '-'

/-- the flags for profiling in the command -/
def profFlags (b : Caml) (a : RunArgs) : List Text :=
  match b.tool with
  | .ocamlc => []
  | .ocamlcp => a.profileFlags.getD b.profileFlags
  | .ocamlopt => if wanted b.profile a.profile then b.profileFlags else []

theorem profiled_flags (b : Caml) (a : RunArgs) : profiled b a = { a with flags := a.flags ++ profFlags b a } := by
  unfold profiled profFlags
  cases b.tool
  · simp
  · rfl
  · by_cases h : wanted b.profile a.profile = true <;> simp [h]

/-- the parts of the command -/
theorem run_parts {ex : Text → Bool} {root : Text} {b : Caml} {a : RunArgs} {cmd : List Text} (h : run ex root b a = some cmd) :
    (a.srcs ≠ [] ∨ b.libs ++ a.external ++ a.libs ≠ []) ∧
    cmd = b.exe :: (b.preFlags ++ (a.preFlags ++ ((if wanted b.debug a.debug then b.debugFlags else [])
      ++ ((if wanted b.optimize a.optimize then b.optimizeFlags else [])
      ++ (pairs "-I".toList ((sortedSet (a.includes ++ b.includes) [(Posix.split (Path.addroot a.dst root)).1]).filter ex)
      ++ ((if a.custom then ["-custom".toList] else [])
      ++ (optional "-cc".toList (chosenCc b.cc a.cc)
      ++ (pairs "-cclib".toList ((b.cLibs ++ a.cLibs).map fun l => if ex l then l else "-l".toList ++ l)
      ++ (optional "-pp".toList a.preprocessor
      ++ (optional "-for-pack".toList a.forPack
      ++ (b.flags ++ (a.flags ++ (pairs "-package".toList (b.packages ++ a.packages)
      ++ (pairs "-syntax".toList (b.syntaxes ++ a.syntaxes) ++ (pairs "-ppopt".toList (b.ppopts ++ a.ppopts)
      ++ (profFlags b a ++ (["-o".toList, Path.addroot a.dst root]
      ++ ((b.libs ++ a.external ++ a.libs).map (libFile ex b) ++ a.srcs)))))))))))))))))) := by
  unfold run at h
  rw [profiled_flags] at h
  unfold baseRun at h
  split at h
  · cases h
  · rename_i hne
    cases h
    refine ⟨?_, ?_⟩
    · by_cases hs : a.srcs = []
      · exact .inr fun hl => hne ⟨hs, hl⟩
      · exact .inl hs
    · have e : libFile ex b = fun l => if ex l then l else l ++ b.libSuffix := rfl
      simp only [runWords, found, List.append_assoc, List.cons_append, List.nil_append, e, profFlags]

theorem read_if {takes : List Text} {c : Bool} {g : List Text} (h : whole takes g = true) :
    whole takes (if c then g else []) = true ∧ read takes (if c then g else []) = if c then read takes g else [] := by
  cases c
  · exact ⟨rfl, rfl⟩
  · exact ⟨h, rfl⟩

theorem read_optional {takes : List Text} {o : Text} (ho : o ∈ takes) (x : Option Text) :
    whole takes (optional o x) = true ∧ read takes (optional o x) = x.toList.map (Word.option o) := by
  cases x with
  | none => exact ⟨rfl, rfl⟩
  | some x => exact read_option ho x

theorem read_pairs' {takes : List Text} {o : Text} (ho : o ∈ takes) (xs : List Text) :
    whole takes (pairs o xs) = true ∧ read takes (pairs o xs) = xs.map (Word.option o) := read_pairs ho xs

/-- how the compiler reads the command -/
theorem run_read {ex : Text → Bool} {root : Text} {b : Caml} {a : RunArgs} {cmd : List Text} (h : run ex root b a = some cmd)
    {takes : List Text} (ht : Options takes) (ho : Orderly takes b a) (hp : Plain ex b a) :
    read takes cmd.tail = read takes b.preFlags ++ (read takes a.preFlags
      ++ ((if wanted b.debug a.debug then read takes b.debugFlags else [])
      ++ ((if wanted b.optimize a.optimize then read takes b.optimizeFlags else [])
      ++ (((sortedSet (a.includes ++ b.includes) [(Posix.split (Path.addroot a.dst root)).1]).filter ex).map (Word.option "-I".toList)
      ++ ((if a.custom then [Word.switch "-custom".toList] else [])
      ++ ((chosenCc b.cc a.cc).toList.map (Word.option "-cc".toList)
      ++ (((b.cLibs ++ a.cLibs).map fun l => if ex l then l else "-l".toList ++ l).map (Word.option "-cclib".toList)
      ++ (a.preprocessor.toList.map (Word.option "-pp".toList)
      ++ (a.forPack.toList.map (Word.option "-for-pack".toList)
      ++ (read takes b.flags ++ (read takes a.flags ++ ((b.packages ++ a.packages).map (Word.option "-package".toList)
      ++ ((b.syntaxes ++ a.syntaxes).map (Word.option "-syntax".toList) ++ ((b.ppopts ++ a.ppopts).map (Word.option "-ppopt".toList)
      ++ (read takes (profFlags b a) ++ ([Word.option "-o".toList (Path.addroot a.dst root)]
      ++ ((b.libs ++ a.external ++ a.libs).map (libFile ex b) ++ a.srcs).map Word.file)))))))))))))))) := by
  obtain ⟨_, rfl⟩ := run_parts h
  simp only [List.tail_cons]
  have g (x) (hx : x ∈ groups b a) := (ho x hx).1
  have k (o) (hx : o ∈ ours) := ht.known o hx
  rw [read_append _ _ _ (g _ (by simp [groups])), read_append _ _ _ (g _ (by simp [groups])),
    read_append _ _ _ (read_if (g b.debugFlags (by simp [groups]))).1, (read_if (g b.debugFlags (by simp [groups]))).2,
    read_append _ _ _ (read_if (g b.optimizeFlags (by simp [groups]))).1, (read_if (g b.optimizeFlags (by simp [groups]))).2,
    read_append _ _ _ (read_pairs' (k _ (by simp [ours])) _).1]
  have hc : ∀ w ∈ ["-custom".toList], Switch takes w := by
    intro w hw
    rw [List.mem_singleton] at hw
    subst hw
    exact ⟨by decide +kernel, ht.switches _ (by simp)⟩
  rw [read_append _ _ _ (read_if (read_switches _ hc).1).1, (read_if (read_switches _ hc).1).2, (read_switches _ hc).2,
    read_append _ _ _ (read_optional (k _ (by simp [ours])) _).1,
    read_append _ _ _ (read_pairs' (k _ (by simp [ours])) _).1,
    read_append _ _ _ (read_optional (k _ (by simp [ours])) _).1,
    read_append _ _ _ (read_optional (k _ (by simp [ours])) _).1,
    read_append _ _ _ (g _ (by simp [groups])), read_append _ _ _ (g _ (by simp [groups])),
    read_append _ _ _ (read_pairs' (k _ (by simp [ours])) _).1,
    read_append _ _ _ (read_pairs' (k _ (by simp [ours])) _).1,
    read_append _ _ _ (read_pairs' (k _ (by simp [ours])) _).1]
  have hprof : whole takes (profFlags b a) = true := by
    unfold profFlags
    split
    · rfl
    · cases hpf : a.profileFlags with
      | none => exact g _ (by simp [groups])
      | some p => exact g _ (by simp [groups, hpf])
    · exact (read_if (g _ (by simp [groups]))).1
  rw [read_append _ _ _ hprof, read_append _ _ _ (read_option (k _ (by simp [ours])) _).1]
  have hfile : ∀ w ∈ (b.libs ++ a.external ++ a.libs).map (libFile ex b) ++ a.srcs, File takes w :=
    fun w hw => ⟨hp w hw, fun hm => hp w hw (ht.dash w hm)⟩
  rw [(read_files _ hfile).2]
  rw [(read_pairs' (k "-I".toList (by simp [ours])) _).2, (read_pairs' (k "-cclib".toList (by simp [ours])) _).2,
    (read_pairs' (k "-package".toList (by simp [ours])) _).2, (read_pairs' (k "-syntax".toList (by simp [ours])) _).2,
    (read_pairs' (k "-ppopt".toList (by simp [ours])) _).2, (read_optional (k "-cc".toList (by simp [ours])) _).2,
    (read_optional (k "-pp".toList (by simp [ours])) _).2, (read_optional (k "-for-pack".toList (by simp [ours])) _).2,
    (read_option (k "-o".toList (by simp [ours])) _).2]
  rfl

theorem filesOf_if (c : Bool) (x : List Word) : filesOf (if c then x else []) = if c then filesOf x else [] := by cases c <;> rfl
theorem argsOf_if (o : Text) (c : Bool) (x : List Word) : argsOf o (if c then x else []) = if c then argsOf o x else [] := by
  cases c <;> rfl
theorem switchesOf_if (c : Bool) (x : List Word) : switchesOf (if c then x else []) = if c then switchesOf x else [] := by
  cases c <;> rfl

theorem prof_group (b : Caml) (a : RunArgs) : profFlags b a = [] ∨ profFlags b a ∈ groups b a := by
  unfold profFlags
  split
  · exact .inl rfl
  · cases hpf : a.profileFlags with
    | none => exact .inr (by simp [groups])
    | some p => exact .inr (by simp [groups, hpf])
  · split
    · exact .inr (by simp [groups])
    · exact .inl rfl

/-- **C116**: the files on the command line are the libraries of the builder, the external ones and those of the call, and then the
sources, all in the order given. -/
theorem C116_files (ex : Text → Bool) (root : Text) (b : Caml) (a : RunArgs) (cmd : List Text) (h : run ex root b a = some cmd)
    (takes : List Text) (ht : Options takes) (ho : Orderly takes b a) (hp : Plain ex b a) :
    filesOf (read takes cmd.tail) = (b.libs ++ a.external ++ a.libs).map (libFile ex b) ++ a.srcs := by
  rw [run_read h ht ho hp]
  have g (x) (hx : x ∈ groups b a) := (ho x hx).2
  have hprof : filesOf (read takes (profFlags b a)) = [] := by
    rcases prof_group b a with h | h
    · rw [h]; rfl
    · exact g _ h
  have hc : filesOf (if a.custom then [Word.switch "-custom".toList] else []) = [] := by cases a.custom <;> rfl
  have ho' (o v : Text) : filesOf [Word.option o v] = [] := rfl
  simp only [filesOf_append, filesOf_if, g b.preFlags (by simp [groups]), g a.preFlags (by simp [groups]),
    g b.debugFlags (by simp [groups]), g b.optimizeFlags (by simp [groups]), g b.flags (by simp [groups]),
    g a.flags (by simp [groups]), hprof, hc, ho', filesOf_options, filesOf_files, ite_self, List.nil_append]

/-- the arguments of the options -/
theorem run_args {ex : Text → Bool} {root : Text} {b : Caml} {a : RunArgs} {cmd : List Text} (h : run ex root b a = some cmd)
    {takes : List Text} (ht : Options takes) (ho : Orderly takes b a) (hp : Plain ex b a) {o : Text} (hu : Unused takes b a o) :
    argsOf o (read takes cmd.tail) =
      (if "-I".toList = o then
        (sortedSet (a.includes ++ b.includes) [(Posix.split (Path.addroot a.dst root)).1]).filter ex else []) ++
      (if "-cc".toList = o then (chosenCc b.cc a.cc).toList else []) ++
      (if "-cclib".toList = o then (b.cLibs ++ a.cLibs).map (fun l => if ex l then l else "-l".toList ++ l) else []) ++
      (if "-pp".toList = o then a.preprocessor.toList else []) ++
      (if "-for-pack".toList = o then a.forPack.toList else []) ++
      (if "-package".toList = o then b.packages ++ a.packages else []) ++
      (if "-syntax".toList = o then b.syntaxes ++ a.syntaxes else []) ++
      (if "-ppopt".toList = o then b.ppopts ++ a.ppopts else []) ++
      (if "-o".toList = o then [Path.addroot a.dst root] else []) := by
  rw [run_read h ht ho hp]
  have g (x) (hx : x ∈ groups b a) := hu x hx
  have hprof : argsOf o (read takes (profFlags b a)) = [] := by
    rcases prof_group b a with h | h
    · rw [h]; rfl
    · exact g _ h
  have hc : argsOf o (if a.custom then [Word.switch "-custom".toList] else []) = [] := by cases a.custom <;> rfl
  have ho' (n v : Text) : argsOf o [Word.option n v] = if n = o then [v] else [] := argsOf_options o n [v]
  simp only [argsOf_append, argsOf_if, g b.preFlags (by simp [groups]), g a.preFlags (by simp [groups]),
    g b.debugFlags (by simp [groups]), g b.optimizeFlags (by simp [groups]), g b.flags (by simp [groups]),
    g a.flags (by simp [groups]), hprof, hc, ho', argsOf_options, argsOf_files, ite_self, List.nil_append, List.append_nil,
    List.append_assoc]

/-- **C116**, ocamlfind: the packages, syntaxes and options of the preprocessor are those of the builder and then those of the
call, in the order given. -/
theorem C116_packages (ex : Text → Bool) (root : Text) (b : Caml) (a : RunArgs) (cmd : List Text) (h : run ex root b a = some cmd)
    (takes : List Text) (ht : Options takes) (ho : Orderly takes b a) (hp : Plain ex b a) :
    (Unused takes b a "-package".toList → argsOf "-package".toList (read takes cmd.tail) = b.packages ++ a.packages) ∧
    (Unused takes b a "-syntax".toList → argsOf "-syntax".toList (read takes cmd.tail) = b.syntaxes ++ a.syntaxes) ∧
    (Unused takes b a "-ppopt".toList → argsOf "-ppopt".toList (read takes cmd.tail) = b.ppopts ++ a.ppopts) := by
  refine ⟨fun hu => ?_, fun hu => ?_, fun hu => ?_⟩
  all_goals
    rw [run_args h ht ho hp hu]
    simp

/-- **C116**: the destination is in the build root; the C compiler is that of the call, or else that of the builder; the C libraries
are those of the builder and then those of the call, with `-l` unless there is such a file; preprocessor and pack are those of the
call. -/
theorem C116_options (ex : Text → Bool) (root : Text) (b : Caml) (a : RunArgs) (cmd : List Text) (h : run ex root b a = some cmd)
    (takes : List Text) (ht : Options takes) (ho : Orderly takes b a) (hp : Plain ex b a) :
    (Unused takes b a "-o".toList → argsOf "-o".toList (read takes cmd.tail) = [Path.addroot a.dst root]) ∧
    (Unused takes b a "-cc".toList → ∀ cc, cc ∈ argsOf "-cc".toList (read takes cmd.tail) ↔
      cc ≠ [] ∧ (a.cc = some cc ∨ ((a.cc = none ∨ a.cc = some []) ∧ b.cc = some cc))) ∧
    (Unused takes b a "-cclib".toList → argsOf "-cclib".toList (read takes cmd.tail) =
      (b.cLibs ++ a.cLibs).map fun l => if ex l then l else "-l".toList ++ l) ∧
    (Unused takes b a "-pp".toList → argsOf "-pp".toList (read takes cmd.tail) = a.preprocessor.toList) ∧
    (Unused takes b a "-for-pack".toList → argsOf "-for-pack".toList (read takes cmd.tail) = a.forPack.toList) := by
  refine ⟨fun hu => ?_, fun hu cc => ?_, fun hu => ?_, fun hu => ?_, fun hu => ?_⟩
  · rw [run_args h ht ho hp hu]; simp
  · rw [run_args h ht ho hp hu]
    have e : (chosenCc b.cc a.cc = some cc) ↔
        cc ≠ [] ∧ (a.cc = some cc ∨ ((a.cc = none ∨ a.cc = some []) ∧ b.cc = some cc)) := by
      unfold chosenCc
      rcases hac : a.cc with _ | (_ | ⟨x, r⟩) <;> rcases hbc : b.cc with _ | (_ | ⟨y, t⟩) <;> cases cc <;> simp
    simpa using e
  · rw [run_args h ht ho hp hu]; simp
  · rw [run_args h ht ho hp hu]; simp
  · rw [run_args h ht ho hp hu]; simp

/-- **C116** (partial): the compiler gets each include directory of the builder and of the call, and that of the destination, once,
if it exists.  Missing (and false): their order. -/
theorem C116_includes_partial (ex : Text → Bool) (root : Text) (b : Caml) (a : RunArgs) (cmd : List Text)
    (h : run ex root b a = some cmd) (takes : List Text) (ht : Options takes) (ho : Orderly takes b a) (hp : Plain ex b a)
    (hu : Unused takes b a "-I".toList) :
    (argsOf "-I".toList (read takes cmd.tail)).Nodup ∧ ∀ d, d ∈ argsOf "-I".toList (read takes cmd.tail) ↔
      ex d = true ∧ (d ∈ b.includes ∨ d ∈ a.includes ∨ d = (Posix.split (Path.addroot a.dst root)).1) := by
  have e : argsOf "-I".toList (read takes cmd.tail) =
      (sortedSet (a.includes ++ b.includes) [(Posix.split (Path.addroot a.dst root)).1]).filter ex := by
    rw [run_args h ht ho hp hu]; simp
  rw [e]
  obtain ⟨h1, h2⟩ := sortedSet_spec (a.includes ++ b.includes) [(Posix.split (Path.addroot a.dst root)).1]
  refine ⟨h1.filter _, fun d => ?_⟩
  rw [List.mem_filter, h2]
  simp only [List.mem_append, List.mem_singleton]
  constructor
  · rintro ⟨(h | h) | h, he⟩
    · exact ⟨he, .inr (.inl h)⟩
    · exact ⟨he, .inl h⟩
    · exact ⟨he, .inr (.inr h)⟩
  · rintro ⟨he, h | h | h⟩
    · exact ⟨.inl (.inr h), he⟩
    · exact ⟨.inl (.inl h), he⟩
    · exact ⟨.inr h, he⟩

/-- **C116** (partial): if the flags are switches, the switches are those of the builder and of the call, in this order; those for
debugging and optimizing are there just if that is wanted.  Missing (and false): the flags for profiling that the call gives to
`Ocamlopt`. -/
theorem C116_switches_partial (ex : Text → Bool) (root : Text) (b : Caml) (a : RunArgs) (cmd : List Text)
    (h : run ex root b a = some cmd) (takes : List Text) (ht : Options takes) (hp : Plain ex b a)
    (hs : ∀ g ∈ groups b a, ∀ w ∈ g, Switch takes w) (hn : b.tool = .ocamlopt → a.profileFlags = none) :
    switchesOf (read takes cmd.tail) =
      b.preFlags ++ a.preFlags ++ (if a.debug.getD b.debug then b.debugFlags else []) ++
      (if a.optimize.getD b.optimize then b.optimizeFlags else []) ++ (if a.custom then ["-custom".toList] else []) ++
      b.flags ++ a.flags ++
      (if b.tool = .ocamlcp ∨ (b.tool = .ocamlopt ∧ a.profile.getD b.profile = true) then a.profileFlags.getD b.profileFlags
        else []) := by
  have ho : Orderly takes b a := fun g hg => by
    obtain ⟨h1, h2⟩ := read_switches g (hs g hg)
    exact ⟨h1, by rw [h2, filesOf_switches]⟩
  rw [run_read h ht ho hp]
  have g (x) (hx : x ∈ groups b a) : switchesOf (read takes x) = x := by
    rw [(read_switches x (hs x hx)).2, switchesOf_switches]
  have hprof : switchesOf (read takes (profFlags b a)) = profFlags b a := by
    rcases prof_group b a with h | h
    · rw [h]; rfl
    · exact g _ h
  have hc : switchesOf (if a.custom then [Word.switch "-custom".toList] else []) = if a.custom then ["-custom".toList] else [] := by
    cases a.custom <;> rfl
  have ho' (o v : Text) : switchesOf [Word.option o v] = [] := rfl
  have hw (own : Bool) (x : Option Bool) : wanted own x = x.getD own := by cases x <;> rfl
  have hpf : profFlags b a = if b.tool = .ocamlcp ∨ (b.tool = .ocamlopt ∧ a.profile.getD b.profile = true) then
      a.profileFlags.getD b.profileFlags else [] := by
    unfold profFlags
    cases hb : b.tool with
    | ocamlc => simp
    | ocamlcp => simp
    | ocamlopt => simp [hn hb, hw]
  simp only [switchesOf_append, switchesOf_if, g b.preFlags (by simp [groups]), g a.preFlags (by simp [groups]),
    g b.debugFlags (by simp [groups]), g b.optimizeFlags (by simp [groups]), g b.flags (by simp [groups]),
    g a.flags (by simp [groups]), hprof, hc, ho', hw, switchesOf_options, switchesOf_files, List.nil_append, List.append_nil,
    List.append_assoc, ← hpf]

/-- **C116**: there is no command just if there is nothing to compile or link. -/
theorem C116_nothing (ex : Text → Bool) (root : Text) (b : Caml) (a : RunArgs) :
    run ex root b a = none ↔ a.srcs = [] ∧ b.libs = [] ∧ a.external = [] ∧ a.libs = [] := by
  unfold run
  rw [profiled_flags]
  unfold baseRun
  simp [found]

/-- **C116**, linking: a program is linked with the libraries and then the objects, in the order given, without the interfaces; for a
library, the libraries are left out. -/
theorem C116_link (ex : Text → Bool) (root : Text) (b : Caml) (a : RunArgs) (find : Bool) (linkpkg : Option Bool) (dst : Text)
    (objs : List Text) (cmd : List Text) (takes : List Text) (ht : Options takes) (hl : b.libs = []) :
    (run ex root b (linkExeArgs b find linkpkg a dst objs) = some cmd →
      Orderly takes b (linkExeArgs b find linkpkg a dst objs) → Plain ex b (linkExeArgs b find linkpkg a dst objs) →
      filesOf (read takes cmd.tail) =
        (a.external ++ a.libs).map (libFile ex b) ++ objs.filter (fun o => ¬ ".cmi".toList <:+ o) ∧
      (Unused takes b (linkExeArgs b find linkpkg a dst objs) "-o".toList →
        argsOf "-o".toList (read takes cmd.tail) = [Path.addroot (dst ++ b.exeSuffix) root])) ∧
    (run ex root b (linkLibArgs b a dst objs) = some cmd →
      Orderly takes b (linkLibArgs b a dst objs) → Plain ex b (linkLibArgs b a dst objs) →
      filesOf (read takes cmd.tail) = objs.filter (fun o => ¬ ".cmi".toList <:+ o) ∧
      (Unused takes b (linkLibArgs b a dst objs) "-o".toList →
        argsOf "-o".toList (read takes cmd.tail) = [Path.addroot (dst ++ b.libSuffix) root])) := by
  have e : linked objs = objs.filter (fun o => ¬ ".cmi".toList <:+ o) := by
    unfold linked endsWith
    congr 1
    funext o
    rw [Bool.eq_iff_iff]
    simp only [Bool.not_eq_true', decide_not, Bool.not_eq_eq_eq_not, ← Bool.not_eq_true, List.isSuffixOf_iff_suffix, decide_eq_true_eq, Bool.not_true, decide_eq_false_iff_not]
  refine ⟨fun h ho hp => ⟨?_, fun hu => ?_⟩, fun h ho hp => ⟨?_, fun hu => ?_⟩⟩
  · rw [C116_files _ _ _ _ _ h _ ht ho hp, hl, ← e]; rfl
  · rw [(C116_options _ _ _ _ _ h _ ht ho hp).1 hu]; rfl
  · rw [C116_files _ _ _ _ _ h _ ht ho hp, hl, ← e]; rfl
  · rw [(C116_options _ _ _ _ _ h _ ht ho hp).1 hu]; rfl

/-- the switches that say what the compiler does -/
def isMode (w : Text) : Bool := decide (w ∈ ["-c".toList, "-a".toList, "-linkpkg".toList])

theorem isMode_switch {takes : List Text} (ht : Options takes) {w : Text} (hw : isMode w = true) : Switch takes w := by
  have hw := of_decide_eq_true hw
  refine ⟨?_, ht.switches w ?_⟩
  · have key : ∀ w ∈ ["-c".toList, "-a".toList, "-linkpkg".toList], w.head? = some '-' := by decide +kernel
    exact key w hw
  · simp only [List.mem_cons, List.not_mem_nil, or_false] at hw ⊢
    rcases hw with h | h | h <;> simp only [h, true_or, or_true]

theorem modes_filter (b : Caml) (a a' : RunArgs) (hs : ∀ g ∈ groups b a, ∀ w ∈ g, isMode w = false)
    (hpf : a'.profileFlags = a.profileFlags) :
    (b.preFlags ++ a'.preFlags ++ (if a'.debug.getD b.debug then b.debugFlags else []) ++
      (if a'.optimize.getD b.optimize then b.optimizeFlags else []) ++ (if a'.custom then ["-custom".toList] else []) ++
      b.flags ++ a'.flags ++
      (if b.tool = .ocamlcp ∨ (b.tool = .ocamlopt ∧ a'.profile.getD b.profile = true) then a'.profileFlags.getD b.profileFlags
        else [])).filter isMode = a'.preFlags.filter isMode ++ a'.flags.filter isMode := by
  have nil (g : List Text) (hg : g ∈ groups b a) : g.filter isMode = [] := by
    rw [List.filter_eq_nil_iff]
    intro w hw
    rw [hs g hg w hw]
    exact Bool.false_ne_true
  have h1 : (if a'.debug.getD b.debug = true then b.debugFlags else []).filter isMode = [] := by
    split
    · exact nil _ (by simp [groups])
    · rfl
  have h2 : (if a'.optimize.getD b.optimize = true then b.optimizeFlags else []).filter isMode = [] := by
    split
    · exact nil _ (by simp [groups])
    · rfl
  have h3 : (if a'.custom = true then ["-custom".toList] else []).filter isMode = [] := by
    split
    · decide +kernel
    · rfl
  have h4 : (if b.tool = .ocamlcp ∨ (b.tool = .ocamlopt ∧ a'.profile.getD b.profile = true) then a'.profileFlags.getD b.profileFlags
        else []).filter isMode = [] := by
    split
    · rw [hpf]
      cases hp : a.profileFlags with
      | none => exact nil _ (by simp [groups])
      | some p => exact nil _ (by simp [groups, hp])
    · rfl
  rw [List.filter_append, List.filter_append, List.filter_append, List.filter_append, List.filter_append, List.filter_append,
    List.filter_append, h1, h2, h3, h4, nil b.preFlags (by simp [groups]), nil b.flags (by simp [groups])]
  simp only [List.nil_append, List.append_nil]

/-- **C116**, what the command does: if the flags are switches, other than these, `-c` is there just if a file is compiled, `-a` just
if a library is linked, and `-linkpkg` just if ocamlfind links a program, unless the call (or, if it does not say, the builder) says
no. -/
theorem C116_modes (ex : Text → Bool) (root : Text) (b : Caml) (a : RunArgs) (find : Bool) (linkpkg : Option Bool) (src dst : Text)
    (objs cmd : List Text) (takes : List Text) (ht : Options takes)
    (hs : ∀ g ∈ groups b a, ∀ w ∈ g, Switch takes w ∧ isMode w = false) (hn : b.tool = .ocamlopt → a.profileFlags = none) :
    (run ex root b (compileArgs a src dst) = some cmd → Plain ex b (compileArgs a src dst) →
      (switchesOf (read takes cmd.tail)).filter isMode = ["-c".toList]) ∧
    (run ex root b (linkLibArgs b a dst objs) = some cmd → Plain ex b (linkLibArgs b a dst objs) →
      (switchesOf (read takes cmd.tail)).filter isMode = ["-a".toList]) ∧
    (run ex root b (linkExeArgs b find linkpkg a dst objs) = some cmd → Plain ex b (linkExeArgs b find linkpkg a dst objs) →
      (switchesOf (read takes cmd.tail)).filter isMode =
        if find = true ∧ linkpkg.getD b.linkpkg = true then ["-linkpkg".toList] else []) := by
  have nil (g : List Text) (hg : g ∈ groups b a) : g.filter isMode = [] := by
    rw [List.filter_eq_nil_iff]
    intro w hw
    rw [(hs g hg w hw).2]
    exact Bool.false_ne_true
  have hs' : ∀ g ∈ groups b a, ∀ w ∈ g, isMode w = false := fun g hg w hw => (hs g hg w hw).2
  refine ⟨fun h hp => ?_, fun h hp => ?_, fun h hp => ?_⟩
  · rw [C116_switches_partial ex root b _ cmd h takes ht hp ?_ hn, modes_filter b a (compileArgs a src dst) hs' rfl]
    · show (a.preFlags ++ ["-c".toList]).filter isMode ++ a.flags.filter isMode = _
      rw [List.filter_append, nil a.preFlags (by simp [groups]), nil a.flags (by simp [groups])]
      decide +kernel
    · intro g hg w hw
      have : g ∈ groups b a ∨ g = a.preFlags ++ ["-c".toList] := by
        simp only [groups, compileArgs, List.mem_cons, List.not_mem_nil, or_false] at hg ⊢
        rcases hg with h | h | h | h | h | h | h | h <;> simp only [h, true_or, or_true]
      rcases this with h | rfl
      · exact (hs g h w hw).1
      · rcases List.mem_append.1 hw with h | h
        · exact (hs a.preFlags (by simp [groups]) w h).1
        · exact isMode_switch ht (by rw [List.mem_singleton.1 h]; decide +kernel)
  · rw [C116_switches_partial ex root b _ cmd h takes ht hp ?_ hn, modes_filter b a (linkLibArgs b a dst objs) hs' rfl]
    · show (["-a".toList] ++ a.preFlags).filter isMode ++ a.flags.filter isMode = _
      rw [List.filter_append, nil a.preFlags (by simp [groups]), nil a.flags (by simp [groups])]
      decide +kernel
    · intro g hg w hw
      have : g ∈ groups b a ∨ g = "-a".toList :: a.preFlags := by
        simp only [groups, linkLibArgs, List.mem_cons, List.not_mem_nil, or_false] at hg ⊢
        rcases hg with h | h | h | h | h | h | h | h <;> simp only [h, true_or, or_true]
      rcases this with h | rfl
      · exact (hs g h w hw).1
      · rcases List.mem_cons.1 hw with h | h
        · exact isMode_switch ht (by rw [h]; decide +kernel)
        · exact (hs a.preFlags (by simp [groups]) w h).1
  · rw [C116_switches_partial ex root b _ cmd h takes ht hp ?_ hn, modes_filter b a (linkExeArgs b find linkpkg a dst objs) hs' rfl]
    · show a.preFlags.filter isMode ++
        (a.flags ++ (if find && wanted b.linkpkg linkpkg then ["-linkpkg".toList] else [])).filter isMode = _
      rw [List.filter_append, nil a.preFlags (by simp [groups]), nil a.flags (by simp [groups])]
      have hw' : wanted b.linkpkg linkpkg = linkpkg.getD b.linkpkg := by cases linkpkg <;> rfl
      rw [hw']
      cases find <;> cases linkpkg.getD b.linkpkg <;> decide +kernel
    · intro g hg w hw
      have : g ∈ groups b a ∨ g = a.flags ++ (if find && wanted b.linkpkg linkpkg then ["-linkpkg".toList] else []) := by
        simp only [groups, linkExeArgs, List.mem_cons, List.not_mem_nil, or_false] at hg ⊢
        rcases hg with h | h | h | h | h | h | h | h <;> simp only [h, true_or, or_true]
      rcases this with h | rfl
      · exact (hs g h w hw).1
      · rcases List.mem_append.1 hw with h | h
        · exact (hs a.flags (by simp [groups]) w h).1
        · split at h
          · exact isMode_switch ht (by rw [List.mem_singleton.1 h]; decide +kernel)
          · cases h

/-- **C116**, ocamldep: it reads the source with the packages, syntaxes and options of its builder and of the call; with the flags
that `build_objects` passes, all those of the compiler's builder and of the call are among them. -/
theorem C116_modules (d : Dep) (b : Caml) (pp : Option Text) (flags packages syntaxes ppopts : List Text) (src : Text)
    (takes : List Text) (ht : Options takes) (hs : src.head? ≠ some '-')
    (ho : ∀ g ∈ [d.preFlags, d.flags, flags], whole takes g = true ∧ filesOf (read takes g) = []) :
    let cmd := depCommand d pp (depFlags b flags packages syntaxes ppopts) [] [] [] src
    filesOf (read takes cmd.tail) = [src] ∧
    (∀ p ∈ b.packages ++ packages ++ d.packages, p ∈ argsOf "-package".toList (read takes cmd.tail)) ∧
    (∀ p ∈ b.syntaxes ++ syntaxes ++ d.syntaxes, p ∈ argsOf "-syntax".toList (read takes cmd.tail)) ∧
    (∀ p ∈ b.ppopts ++ ppopts ++ d.ppopts, p ∈ argsOf "-ppopt".toList (read takes cmd.tail)) := by
  intro cmd
  have k (o) (hx : o ∈ ours) := ht.known o hx
  have hm : ∀ w ∈ ["-modules".toList], Switch takes w := by
    intro w hw
    rw [List.mem_singleton] at hw
    subst hw
    exact ⟨by decide +kernel, ht.switches _ (by simp)⟩
  have hf : ∀ w ∈ [src], File takes w := by
    intro w hw
    rw [List.mem_singleton] at hw
    subst hw
    exact ⟨hs, fun hm => hs (ht.dash _ hm)⟩
  have e : read takes cmd.tail = read takes d.preFlags ++ (["-modules".toList].map Word.switch ++ (pp.toList.map (Word.option "-pp".toList)
      ++ (read takes d.flags ++ (read takes flags
      ++ ((b.packages ++ packages).map (Word.option "-package".toList) ++ ((b.syntaxes ++ syntaxes).map (Word.option "-syntax".toList)
      ++ ((b.ppopts ++ ppopts).map (Word.option "-ppopt".toList) ++ ((d.packages ++ []).map (Word.option "-package".toList)
      ++ ((d.syntaxes ++ []).map (Word.option "-syntax".toList) ++ ((d.ppopts ++ []).map (Word.option "-ppopt".toList)
      ++ [src].map Word.file)))))))))) := by
    simp only [cmd, depCommand, depFlags, List.append_assoc, List.cons_append, List.nil_append, List.tail_cons]
    rw [read_append _ _ _ (ho _ (by simp)).1]
    have hcons : ∀ rest, read takes ("-modules".toList :: rest) = ["-modules".toList].map Word.switch ++ read takes rest := by
      intro rest
      rw [← (read_switches _ hm).2, ← read_append _ _ _ (read_switches _ hm).1]
      rfl
    rw [hcons, read_append _ _ _ (read_optional (k _ (by simp [ours])) _).1,
      read_append _ _ _ (ho _ (by simp)).1, read_append _ _ _ (ho _ (by simp)).1,
      read_append _ _ _ (read_pairs' (k _ (by simp [ours])) _).1, read_append _ _ _ (read_pairs' (k _ (by simp [ours])) _).1,
      read_append _ _ _ (read_pairs' (k _ (by simp [ours])) _).1, read_append _ _ _ (read_pairs' (k _ (by simp [ours])) _).1,
      read_append _ _ _ (read_pairs' (k _ (by simp [ours])) _).1, read_append _ _ _ (read_pairs' (k _ (by simp [ours])) _).1,
      (read_files _ hf).2, (read_optional (k "-pp".toList (by simp [ours])) _).2,
      (read_pairs' (k "-package".toList (by simp [ours])) _).2, (read_pairs' (k "-package".toList (by simp [ours])) _).2,
      (read_pairs' (k "-syntax".toList (by simp [ours])) _).2, (read_pairs' (k "-syntax".toList (by simp [ours])) _).2,
      (read_pairs' (k "-ppopt".toList (by simp [ours])) _).2, (read_pairs' (k "-ppopt".toList (by simp [ours])) _).2]
  rw [e]
  refine ⟨?_, fun p hp => ?_, fun p hp => ?_, fun p hp => ?_⟩
  · simp only [filesOf_append, filesOf_options, filesOf_switches, filesOf_files, (ho d.preFlags (by simp)).2,
      (ho d.flags (by simp)).2, (ho flags (by simp)).2, List.nil_append]
  all_goals
    simp only [argsOf_append, argsOf_options, List.mem_append, if_true]
    simp only [List.mem_append] at hp
    rcases hp with (hp | hp) | hp <;> simp [hp]

/-! ## What does not hold, and examples -/

/-- **C116** is false for the flags for profiling that are given to a call of `Ocamlopt`: they make no difference, whatever they
are; and for the example the command has the flags of the builder instead. -/
theorem C116_profile_violated :
    (∀ (ex : Text → Bool) (root : Text) (b : Caml) (a : RunArgs) (x : Option (List Text)), b.tool = .ocamlopt →
      run ex root b { a with profileFlags := x } = run ex root b a) ∧
    (let b : Caml := { tool := .ocamlopt, exe := "ocamlopt".toList, libSuffix := ".cmxa".toList, profileFlags := ["-p".toList] }
     let a : RunArgs := { dst := "x.cmx".toList, srcs := ["x.ml".toList], profile := some true, profileFlags := some ["-pg".toList] }
     run (fun _ => false) "build".toList b a =
       some ["ocamlopt".toList, "-p".toList, "-o".toList, "build/x.cmx".toList, "x.ml".toList]) := by
  refine ⟨fun ex root b a x hb => ?_, by decide +kernel⟩
  unfold run
  rw [profiled_flags, profiled_flags]
  simp only [profFlags, hb, found]
  rfl

/-- **C116** is false for the interfaces that an `Ocamlopt` with its own `Ocamlc` compiles: includes, flags, debugging, the C
compiler and all the rest of what the builder was given, except for the packages and so on, make no difference. -/
theorem C116_interface_violated (ex : Text → Bool) (root exe suffix src dst : Text) (b b' : Caml) (a : RunArgs)
    (hs : ".mli".toList <:+ src) (hp : b.packages = b'.packages) (hy : b.syntaxes = b'.syntaxes) (ho : b.ppopts = b'.ppopts)
    (hl : b.linkpkg = b'.linkpkg) :
    nativeCompile ex root b (ownOcamlc exe suffix b) a src dst = nativeCompile ex root b' (ownOcamlc exe suffix b') a src dst := by
  have h : endsWith src mli = true := by
    unfold endsWith mli
    exact List.isSuffixOf_iff_suffix.mpr hs
  unfold nativeCompile
  simp only [h, if_true]
  have : ownOcamlc exe suffix b = ownOcamlc exe suffix b' := by simp [ownOcamlc, hp, hy, ho, hl]
  rw [this]

/-- **C116** is false for the order of the include directories: they are sorted. -/
theorem C116_order_violated :
    let b : Caml := { exe := "ocamlc".toList, libSuffix := ".cma".toList, includes := ["z".toList] }
    let a : RunArgs := { dst := "x.cmo".toList, srcs := ["x.ml".toList], includes := ["b".toList, "a".toList] }
    (run (fun _ => true) "build".toList b a).map (fun cmd => argsOf "-I".toList (read ours cmd.tail)) =
      some ["a".toList, "b".toList, "build".toList, "z".toList] := by
  decide +kernel

namespace CommandEx
/-- the options with an argument: those of fbuild, and `-w` -/
def takes : List Text := "-w".toList :: ours
/-- a builder for ocamlfind -/
def b : Caml :=
  { tool := .ocamlcp, exe := "ocamlfind".toList, libSuffix := ".cma".toList, exeSuffix := ".exe".toList, includes := ["src".toList],
    cc := some "gcc".toList, cLibs := ["m".toList], preFlags := ["ocamlcp".toList.cons '-'], flags := ["-w".toList, "A".toList],
    debug := true, profileFlags := ["-P".toList], packages := ["unix".toList], syntaxes := ["camlp4o".toList] }
def a : RunArgs :=
  { dst := "x.cmo".toList, srcs := ["x.ml".toList, "y.ml".toList], includes := ["lib".toList, "none".toList],
    libs := ["str".toList, "lib/z.cma".toList], external := ["nums".toList], custom := true, cLibs := ["lib/a.o".toList],
    packages := ["str".toList, "unix".toList], preprocessor := some "camlp4".toList }
def ex (p : Text) : Bool := p ∈ ["src".toList, "lib".toList, "build".toList, "lib/z.cma".toList, "lib/a.o".toList]
theorem takes_ok : Options takes := ⟨by decide +kernel, by decide +kernel, by decide +kernel⟩
theorem orderly : Orderly takes b a := by unfold Orderly; decide +kernel
theorem plain : Plain ex b a := by unfold Plain; decide +kernel
theorem unused : ∀ o ∈ ours, Unused takes b a o := by unfold Unused; decide +kernel
end CommandEx

/-- the command of the example: `-ocamlcp -g -I build -I lib -I src -custom -cc gcc …` -/
example : run CommandEx.ex "build".toList CommandEx.b CommandEx.a =
    some (["ocamlfind", "-ocamlcp", "-g", "-I", "build", "-I", "lib", "-I", "src", "-custom", "-cc", "gcc", "-cclib", "-lm",
      "-cclib", "lib/a.o", "-pp", "camlp4", "-w", "A", "-package", "unix", "-package", "str", "-package", "unix", "-syntax", "camlp4o",
      "-P", "-o", "build/x.cmo", "nums.cma", "str.cma", "lib/z.cma", "x.ml", "y.ml"].map String.toList) := by decide +kernel

/-- all flags are switches -/
example :
    let b := { CommandEx.b with flags := ["-thread".toList] }
    (run CommandEx.ex "build".toList b CommandEx.a).isSome ∧ (∀ g ∈ groups b CommandEx.a, ∀ w ∈ g, Switch CommandEx.takes w) ∧
    Plain CommandEx.ex b CommandEx.a ∧ b.tool ≠ .ocamlopt := by
  unfold Switch Plain
  decide +kernel

/-- linking: a library without the libraries of the call, and a program with them -/
example :
    let b := { CommandEx.b with packages := [], syntaxes := [], debug := false, includes := [], cc := none, cLibs := [], profileFlags := [] }
    let a : RunArgs := { dst := [], srcs := [], libs := ["str".toList] }
    run CommandEx.ex "build".toList b (linkLibArgs b a "p".toList ["x.cmo".toList, "y.cmi".toList]) =
      some (["ocamlfind", "-ocamlcp", "-a", "-I", "build", "-w", "A", "-o", "build/p.cma", "x.cmo"].map String.toList) ∧
    run CommandEx.ex "build".toList b (linkExeArgs b true none a "p".toList ["x.cmo".toList, "y.cmi".toList]) =
      some (["ocamlfind", "-ocamlcp", "-I", "build", "-w", "A", "-linkpkg", "-o", "build/p.exe", "str.cma", "x.cmo"].map String.toList) := by
  decide +kernel

/-- the call says no -/
example :
    let b := { CommandEx.b with packages := [], syntaxes := [], debug := false, includes := [], cc := none, cLibs := [], profileFlags := [],
                                flags := ["-thread".toList] }
    let a : RunArgs := { dst := [], srcs := [], flags := ["-g".toList] }
    (∀ g ∈ groups b a, ∀ w ∈ g, Switch CommandEx.takes w ∧ isMode w = false) ∧
    run CommandEx.ex "build".toList b (linkExeArgs b true (some false) a "p".toList ["x.cmo".toList]) =
      some (["ocamlfind", "-ocamlcp", "-I", "build", "-thread", "-g", "-o", "build/p.exe", "x.cmo"].map String.toList) := by
  unfold Switch
  decide +kernel

/-- ocamldep -/
example : depCommand { exe := "ocamlfind".toList, preFlags := ["ocamldep".toList.cons '-'], packages := ["unix".toList] } none
      (depFlags CommandEx.b ["-v".toList] ["str".toList] [] []) [] [] [] "x.ml".toList =
    ["ocamlfind", "-ocamldep", "-modules", "-v", "-package", "unix", "-package", "str", "-syntax", "camlp4o", "-package", "unix",
      "x.ml"].map String.toList := by decide +kernel

/-- an interface is compiled without the includes and flags of the builder -/
example :
    let b : Caml := { tool := .ocamlopt, exe := "ocamlopt".toList, libSuffix := ".cmxa".toList, includes := ["src".toList],
                      flags := ["-g".toList] }
    nativeCompile (fun _ => true) "build".toList b (ownOcamlc "ocamlc".toList ".cma".toList b) { dst := [], srcs := [] }
      "build/x.mli".toList "build/x.cmi".toList =
      some (["ocamlc", "-c", "-I", "build", "-o", "build/x.cmi", "build/x.mli"].map String.toList) := by decide +kernel

end Verif.Ocaml
