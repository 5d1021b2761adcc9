import Verif.Builders.Small
import Verif.Props.Reader
import Verif.Props.Gcc
/-!
# Properties of the command lines of the small builders (C117-C121)

How a program reads its command line is specified in `Props/Reader.lean`.
-/
namespace Verif.Small
open Verif.Reader

/-- `takes`, the options that have an argument, are those in `known` and others; all begin with a dash, none is in `switches`. -/
structure Knows (known switches takes : List Text) : Prop where
  known : ∀ o ∈ known, o ∈ takes
  dash : ∀ o ∈ takes, o.head? = some '-'
  switches : ∀ o ∈ switches, o ∉ takes

/-- an option with its argument, if there is one -/
def given (o : Text) (x : Option Text) : List Word := x.toList.map (Word.option o)

theorem read_optional {takes : List Text} {o : Text} (ho : o ∈ takes) (x : Option Text) :
    whole takes (optional o x) = true ∧ read takes (optional o x) = given o x := by
  cases x with
  | none => exact ⟨rfl, rfl⟩
  | some x => exact read_option ho x

/-! ## ghc -/

/-- the options of ghc that fbuild uses -/
def ghcOptions : List Text := ["-o".toList, "-odir".toList, "-hidir".toList]

theorem newFlags_nodup (fs : List Text) : ∀ new, (new ++ fs).Nodup → newFlags fs new = new ++ fs := by
  induction fs with
  | nil => intro new _; simp [newFlags]
  | cons f fs ih =>
    intro new h
    have hf : f ∉ new := fun hm => by
      rw [List.nodup_append] at h
      exact h.2.2 f hm f (.head _) rfl
    simp only [newFlags, hf, if_false]
    rw [ih _ (by simpa using h)]
    simp

theorem newFlags_mem (fs : List Text) : ∀ new x, x ∈ newFlags fs new ↔ x ∈ new ∨ x ∈ fs := by
  induction fs with
  | nil => intro new x; simp [newFlags]
  | cons f fs ih =>
    intro new x
    simp only [newFlags]
    rw [ih]
    by_cases hf : f ∈ new
    · simp only [hf, if_true, List.mem_cons]
      constructor
      · rintro (h | h)
        · exact .inl h
        · exact .inr (.inr h)
      · rintro (h | rfl | h)
        · exact .inl h
        · exact .inl hf
        · exact .inr h
    · simp [hf, or_assoc]

theorem newFlags_distinct (fs : List Text) : ∀ new, new.Nodup → (newFlags fs new).Nodup := by
  induction fs with
  | nil => intro new h; exact h
  | cons f fs ih =>
    intro new h
    simp only [newFlags]
    apply ih
    by_cases hf : f ∈ new
    · simpa only [hf, if_true] using h
    · simp only [hf, if_false]
      rw [List.nodup_append]
      refine ⟨h, by simp, ?_⟩
      intro a ha b hb e
      rw [List.mem_singleton] at hb
      subst hb; subst e
      exact hf ha

/-- how ghc reads a command, if the flags after the loop are whole -/
theorem ghc_read {exe : Text} {own preFlags flags : List Text} {odir hidir : Option Text} {dst : Text} {srcs takes : List Text}
    (ht : Knows ghcOptions [] takes) (hp : whole takes preFlags = true) (hf : whole takes (newFlags (own ++ flags) []) = true)
    (hs : ∀ s ∈ srcs, s.head? ≠ some '-') :
    read takes (ghc exe own preFlags flags odir hidir dst srcs).tail =
      read takes preFlags ++ [.option "-o".toList dst] ++ given "-odir".toList odir ++ given "-hidir".toList hidir
        ++ read takes (newFlags (own ++ flags) []) ++ srcs.map Word.file := by
  have k (o) (hx : o ∈ ghcOptions) := ht.known o hx
  have e : (ghc exe own preFlags flags odir hidir dst srcs).tail = preFlags ++ (["-o".toList, dst] ++ (optional "-odir".toList odir
      ++ (optional "-hidir".toList hidir ++ (newFlags (own ++ flags) [] ++ srcs)))) := by
    simp only [ghc, List.append_assoc, List.cons_append, List.nil_append, List.tail_cons]
  have hfile : ∀ w ∈ srcs, File takes w := fun w hw => ⟨hs w hw, fun hm => hs w hw (ht.dash w hm)⟩
  rw [e, read_append _ _ _ hp, read_append _ _ _ (read_option (k _ (by simp [ghcOptions])) _).1,
    read_append _ _ _ (read_optional (k _ (by simp [ghcOptions])) _).1,
    read_append _ _ _ (read_optional (k _ (by simp [ghcOptions])) _).1, read_append _ _ _ hf,
    (read_option (k _ (by simp [ghcOptions])) _).2, (read_optional (k _ (by simp [ghcOptions])) _).2,
    (read_optional (k _ (by simp [ghcOptions])) _).2, (read_files _ hfile).2]
  simp only [List.append_assoc]

/-- **C117**, if no word occurs twice in the flags: ghc reads the options of the builder and of the call, in this order, the
destination, the directories for objects and interfaces, and the sources. -/
theorem C117_partial (exe : Text) (own preFlags flags : List Text) (odir hidir : Option Text) (dst : Text) (srcs takes : List Text)
    (ht : Knows ghcOptions [] takes) (hp : whole takes preFlags = true) (hf : whole takes (own ++ flags) = true)
    (hn : (own ++ flags).Nodup) (hs : ∀ s ∈ srcs, s.head? ≠ some '-') :
    read takes (ghc exe own preFlags flags odir hidir dst srcs).tail =
      read takes preFlags ++ [.option "-o".toList dst] ++ given "-odir".toList odir ++ given "-hidir".toList hidir
        ++ read takes (own ++ flags) ++ srcs.map Word.file := by
  have e : newFlags (own ++ flags) [] = own ++ flags := by rw [newFlags_nodup _ _ (by simpa using hn)]; rfl
  rw [ghc_read ht hp (by rw [e]; exact hf) hs, e]

/-- **C117**, if all flags are switches, which may be repeated: ghc reads those of the builder and of the call, each once. -/
theorem C117_switches_partial (exe : Text) (own flags : List Text) (odir hidir : Option Text) (dst : Text) (srcs takes : List Text)
    (ht : Knows ghcOptions [] takes) (hf : ∀ f ∈ own ++ flags, Switch takes f) (hs : ∀ s ∈ srcs, s.head? ≠ some '-') :
    let ws := read takes (ghc exe own [] flags odir hidir dst srcs).tail
    (∀ f, f ∈ switchesOf ws ↔ f ∈ own ∨ f ∈ flags) ∧ (switchesOf ws).Nodup ∧ filesOf ws = srcs := by
  have hw := read_switches (takes := takes) (newFlags (own ++ flags) [])
    (fun w hw => hf w (by simpa using (newFlags_mem _ _ _).mp hw))
  simp only
  rw [ghc_read ht rfl hw.1 hs, hw.2]
  have s1 (o x) : switchesOf (given o x) = [] := switchesOf_options _ _
  have f1 (o x) : filesOf (given o x) = [] := filesOf_options _ _
  have e : switchesOf (read takes [] ++ [Word.option "-o".toList dst] ++ given "-odir".toList odir ++ given "-hidir".toList hidir ++
      List.map Word.switch (newFlags (own ++ flags) []) ++ List.map Word.file srcs) = newFlags (own ++ flags) [] := by
    simp only [switchesOf_append, s1, switchesOf_switches, switchesOf_files, List.append_nil]
    rfl
  have e' : filesOf (read takes [] ++ [Word.option "-o".toList dst] ++ given "-odir".toList odir ++ given "-hidir".toList hidir ++
      List.map Word.switch (newFlags (own ++ flags) []) ++ List.map Word.file srcs) = srcs := by
    simp only [filesOf_append, f1, filesOf_switches, filesOf_files, List.append_nil]
    rfl
  rw [e, e']
  refine ⟨fun f => ?_, newFlags_distinct _ _ .nil, rfl⟩
  rw [newFlags_mem]
  simp

/-- **C117**: compiling a file: the object is what `-o` names, and objects and interfaces of other modules go beside it unless
directories are given. -/
theorem C117_compile (exe root objSuffix : Text) (own preFlags flags : List Text) (odir hidir : Option Text) (src : Text)
    (dst : Option Text) (takes : List Text) (ht : Knows ghcOptions ["-c".toList] takes) (hp : whole takes preFlags = true)
    (hf : whole takes (own ++ flags) = true) (hn : (own ++ flags).Nodup) (hs : src.head? ≠ some '-') :
    let obj := ghcObject root objSuffix src dst
    read takes (ghcCompile exe root objSuffix own preFlags flags odir hidir src dst).tail =
      read takes preFlags ++ [.switch "-c".toList, .option "-o".toList obj, .option "-odir".toList (orText odir (Posix.split obj).1),
        .option "-hidir".toList (orText hidir (Posix.split obj).1)] ++ read takes (own ++ flags) ++ [.file src] := by
  intro obj
  unfold ghcCompile
  have hc := read_switches (takes := takes) ["-c".toList] (by
    intro w hw
    rw [List.mem_singleton] at hw
    subst hw
    exact ⟨by decide +kernel, ht.switches _ (by simp)⟩)
  have h := C117_partial exe own (preFlags ++ ["-c".toList]) flags (some (orText odir (Posix.split obj).1))
    (some (orText hidir (Posix.split obj).1)) obj [src] takes ⟨ht.known, ht.dash, by simp⟩ (whole_append _ _ _ hp hc.1) hf hn
    (by simpa using hs)
  rw [h, read_append _ _ _ hp, hc.2]
  simp [given]

/-- **C117** is false if an option with an argument is repeated: the second `-package` is left out, and its argument is read as a file. -/
theorem C117_argument_violated :
    let flags := ["-package".toList, "a".toList, "-package".toList, "b".toList]
    let takes := "-package".toList :: ghcOptions
    let ws := read takes (ghc "ghc".toList [] [] flags none none "x".toList ["x.hs".toList]).tail
    argsOf "-package".toList (read takes flags) = ["a".toList, "b".toList] ∧
    argsOf "-package".toList ws = ["a".toList] ∧ filesOf ws = ["b".toList, "x.hs".toList] := by
  decide +kernel

/-- **C117** is false if the last of several switches counts: the builder has `-O0`, the call asks for `-O2` and then for `-O0`. -/
theorem C117_last_violated :
    let ws := read ghcOptions (ghc "ghc".toList ["-O0".toList] [] ["-O2".toList, "-O0".toList] none none "x".toList ["x.hs".toList]).tail
    (switchesOf ws).getLast? = some "-O2".toList := by
  decide +kernel

/-! ## bison -/

/-- the options of bison that fbuild uses -/
def bisonOptions : List Text := ["-o".toList, "-p".toList]

/-- **C118**: bison reads what was asked for, the flags of the object and those of the call, the file to write, which is the one
returned, and the source. -/
theorem C118_command (exe root ownSuffix : Text) (own : List Text) (src : Text) (dst suffix : Option Text) (verbose : Bool)
    (namePrefix : Option Text) (defines : Bool) (flags takes : List Text) (ht : Knows bisonOptions ["-v".toList, "-d".toList] takes)
    (ho : whole takes own = true) (hf : whole takes flags = true) (hs : src.head? ≠ some '-') :
    read takes (bison exe root ownSuffix own src dst suffix verbose namePrefix defines flags).tail =
      (if verbose then [.switch "-v".toList] else []) ++ given "-p".toList namePrefix ++
      (if defines then [.switch "-d".toList] else []) ++ read takes own ++ read takes flags ++
      [.option "-o".toList (bisonDst root ownSuffix src suffix dst), .file src] := by
  have k (o) (hx : o ∈ bisonOptions) := ht.known o hx
  have e : (bison exe root ownSuffix own src dst suffix verbose namePrefix defines flags).tail =
      (if verbose then ["-v".toList] else []) ++ (optional "-p".toList namePrefix ++ ((if defines then ["-d".toList] else []) ++ (own ++
        (flags ++ (["-o".toList, bisonDst root ownSuffix src suffix dst] ++ [src]))))) := by
    simp only [bison, List.append_assoc, List.cons_append, List.nil_append, List.tail_cons]
  have hsw (c : Bool) (w : Text) (hw : Switch takes w) : whole takes (if c then [w] else []) = true ∧
      read takes (if c then [w] else []) = if c then [.switch w] else [] := by
    cases c
    · exact ⟨rfl, rfl⟩
    · exact read_switches [w] (by simpa using hw)
  have hv := hsw verbose "-v".toList ⟨by decide +kernel, ht.switches _ (by simp)⟩
  have hd := hsw defines "-d".toList ⟨by decide +kernel, ht.switches _ (by simp)⟩
  have hfile := read_files (takes := takes) [src] (by
    intro w hw
    rw [List.mem_singleton] at hw
    subst hw
    exact ⟨hs, fun hm => hs (ht.dash _ hm)⟩)
  rw [e, read_append _ _ _ hv.1, hv.2, read_append _ _ _ (read_optional (k _ (by simp [bisonOptions])) _).1,
    (read_optional (k _ (by simp [bisonOptions])) _).2, read_append _ _ _ hd.1, hd.2, read_append _ _ _ ho, read_append _ _ _ hf,
    read_append _ _ _ (read_option (k _ (by simp [bisonOptions])) _).1, (read_option (k _ (by simp [bisonOptions])) _).2, hfile.2]
  simp only [List.append_assoc, List.map_cons, List.map_nil, List.cons_append, List.nil_append]

/-! ## llvm -/

/-- one switch, if there is something to say -/
def said (o : Text) (x : Option Text) : List Word := x.toList.map fun v => Word.switch (o ++ v)

/-- **C119**, for objects without flags: llc reads the flags of the call, the destination, the architecture, the relocation model, the
type of file and the files. -/
theorem C119_llc_partial (exe : Text) (own preFlags flags : List Text) (dst arch relocation filetype : Option Text)
    (args takes : List Text) (ht : Knows ["-o".toList] [] takes) (hq : ∀ o ∈ takes, '=' ∉ o) (hp : whole takes preFlags = true)
    (hf : whole takes flags = true) (hs : ∀ s ∈ args, s.head? ≠ some '-') (hown : own = []) :
    read takes (llc exe own preFlags flags dst arch relocation filetype args).tail =
      read takes preFlags ++ given "-o".toList dst ++ said "-march=".toList arch ++ said "-relocation-model=".toList relocation ++
        said "-filetype=".toList filetype ++ read takes (own ++ flags) ++ args.map Word.file := by
  subst hown
  have hfile : ∀ w ∈ args, File takes w := fun w hw => ⟨hs w hw, fun hm => hs w hw (ht.dash w hm)⟩
  have e : (llc exe [] preFlags flags dst arch relocation filetype args).tail = preFlags ++ (optional "-o".toList dst ++
      (joined "-march=".toList arch ++ (joined "-relocation-model=".toList relocation ++ (joined "-filetype=".toList filetype ++
        (flags ++ args))))) := by
    simp only [llc, List.append_assoc, List.cons_append, List.nil_append, List.tail_cons]
  have hj (o : Text) (hd : o.head? = some '-') (he : '=' ∈ o) (x : Option Text) : whole takes (joined o x) = true ∧
      read takes (joined o x) = said o x := by
    cases x with
    | none => exact ⟨rfl, rfl⟩
    | some v =>
      refine read_switches [o ++ v] (fun w hw => ?_)
      rw [List.mem_singleton] at hw
      subst hw
      refine ⟨?_, fun hm => hq _ hm (List.mem_append_left _ he)⟩
      cases o with
      | nil => cases hd
      | cons c r => exact hd
  have h1 := hj "-march=".toList (by decide +kernel) (by decide +kernel) arch
  have h2 := hj "-relocation-model=".toList (by decide +kernel) (by decide +kernel) relocation
  have h3 := hj "-filetype=".toList (by decide +kernel) (by decide +kernel) filetype
  rw [e, read_append _ _ _ hp, read_append _ _ _ (read_optional (ht.known _ (by simp)) _).1, read_append _ _ _ h1.1,
    read_append _ _ _ h2.1, read_append _ _ _ h3.1, read_append _ _ _ hf,
    (read_optional (ht.known _ (by simp)) _).2, h1.2, h2.2, h3.2, (read_files _ hfile).2]
  simp only [List.append_assoc, List.nil_append]

/-- **C119**, for objects without flags: llvm-as reads the flags of the call, the file that is returned, and the source. -/
theorem C119_as_partial (exe : Text) (own preFlags flags : List Text) (src : Text) (dst : Option Text) (takes : List Text)
    (ht : Knows ["-o".toList] [] takes) (hp : whole takes preFlags = true) (hf : whole takes flags = true)
    (hs : src.head? ≠ some '-') (hown : own = []) :
    read takes (llvmAs exe own preFlags flags src dst).tail =
      read takes preFlags ++ [.option "-o".toList (Path.replaceext (orText dst src) ".bc".toList)] ++ read takes (own ++ flags) ++
        [.file src] := by
  subst hown
  have hfile := read_files (takes := takes) [src] (by
    intro w hw
    rw [List.mem_singleton] at hw
    subst hw
    exact ⟨hs, fun hm => hs (ht.dash _ hm)⟩)
  have e : (llvmAs exe [] preFlags flags src dst).tail =
      preFlags ++ (["-o".toList, Path.replaceext (orText dst src) ".bc".toList] ++ (flags ++ [src])) := by
    simp [llvmAs]
  rw [e, read_append _ _ _ hp, read_append _ _ _ (read_option (ht.known _ (by simp)) _).1, read_append _ _ _ hf,
    (read_option (ht.known _ (by simp)) _).2, hfile.2]
  simp

/-- **C119** is false for the flags an object is made with: whatever they are, the commands are the same. -/
theorem C119_violated (exe : Text) (own own' preFlags flags : List Text) (dst arch relocation filetype : Option Text) (src : Text)
    (args : List Text) :
    llc exe own preFlags flags dst arch relocation filetype args = llc exe own' preFlags flags dst arch relocation filetype args ∧
    llvmAs exe own preFlags flags src dst = llvmAs exe own' preFlags flags src dst := ⟨rfl, rfl⟩

/-! ## felix -/

theorem dedup_mem (fs : List Text) : ∀ new x, x ∈ Gcc.dedup fs new ↔ x ∈ new ∨ x ∈ fs := by
  have e : ∀ fs new, Gcc.dedup fs new = newFlags fs new := by
    intro fs
    induction fs with
    | nil => intro _; rfl
    | cons f fs ih => intro new; simp only [Gcc.dedup, newFlags, ih]
  intro new x
  rw [e, newFlags_mem]

/-- **C120**: a file is compiled with the include directories of the builder, of the call and that of the file, if they exist. -/
theorem C120_includes (ex : Text → Bool) (root : Text) (f : Felix) (src : Text) (static : Option Bool) (includes flags : List Text)
    (debug : Option Bool) (hf : ∀ w ∈ f.flags ++ flags, ¬ "-I".toList <+: w) (hs : ¬ "-I".toList <+: Path.addroot src root)
    (d : Text) :
    "-I".toList ++ d ∈ (felixCompile ex root f src static includes flags debug).1.tail ↔
      ex d = true ∧ (d ∈ includes ∨ d ∈ f.includes ∨ d = (Posix.split (Path.addroot src root)).1) := by
  have hI (w : Text) (hw : ¬ "-I".toList <+: w) : "-I".toList ++ d ≠ w := fun e => hw (e ▸ ⟨d, rfl⟩)
  have n1 : "-I".toList ++ d ≠ "--debug".toList := hI _ (by decide +kernel)
  have n2 : "-I".toList ++ d ≠ "--static".toList := hI _ (by decide +kernel)
  have n3 : "-I".toList ++ d ≠ "-c".toList := hI _ (by decide +kernel)
  have n4 : "-I".toList ++ d ∉ f.flags := fun h => hI _ (hf _ (List.mem_append_left _ h)) rfl
  have n5 : "-I".toList ++ d ∉ flags := fun h => hI _ (hf _ (List.mem_append_right _ h)) rfl
  have n6 : "-I".toList ++ d ≠ Path.addroot src root := hI _ hs
  have m : ∀ c : Bool, ∀ w : Text, "-I".toList ++ d ≠ w → ("-I".toList ++ d ∈ if c then [w] else []) = False := by
    intro c w hw
    cases c
    · exact eq_false (fun h => nomatch h)
    · exact eq_false (fun h => hw (List.mem_singleton.mp h))
  have e : ∀ l : List Text, ("-I".toList ++ d ∈ l.map fun i => "-I".toList ++ i) ↔ d ∈ l := by
    intro l
    rw [List.mem_map]
    constructor
    · rintro ⟨x, hx, he⟩
      rwa [← List.append_cancel_left he]
    · intro h
      exact ⟨d, h, rfl⟩
  unfold felixCompile Small.flx Felix.flx stdoutWords
  simp only [List.append_assoc, List.cons_append, List.nil_append, List.tail_cons, List.mem_append, m _ _ n1, m _ _ n2, e,
    List.mem_filter, (Gcc.sorted_perm _ _).mem_iff, dedup_mem, List.mem_cons, List.not_mem_nil, n3, n4, n5, n6, false_or, or_false]
  constructor
  · rintro ⟨h, hx⟩
    exact ⟨hx, h⟩
  · rintro ⟨hx, h⟩
    exact ⟨h, hx⟩

/-- **C120**: a file is compiled with debugging or statically if the call asks for it, or else if the builder was made so; all flags of
the builder and of the call are given, and only the source comes after them. -/
theorem C120_switches (ex : Text → Bool) (root : Text) (f : Felix) (src : Text) (static : Option Bool) (includes flags : List Text)
    (debug : Option Bool) (hf : ∀ w ∈ f.flags ++ flags, w ≠ "--debug".toList ∧ w ≠ "--static".toList)
    (hs : (Path.addroot src root).head? ≠ some '-') :
    let cmd := (felixCompile ex root f src static includes flags debug).1.tail
    ("--debug".toList ∈ cmd ↔ debug = some true ∨ (debug = none ∧ f.debug = true)) ∧
    ("--static".toList ∈ cmd ↔ static = some true ∨ (static = none ∧ f.static = true)) ∧
    "-c".toList ∈ cmd ∧ (f.flags ++ flags).Sublist cmd ∧ flags ++ [Path.addroot src root] <:+ cmd := by
  intro cmd
  have d1 : "--debug".toList ∉ f.flags := fun h => (hf _ (List.mem_append_left _ h)).1 rfl
  have d2 : "--debug".toList ∉ flags := fun h => (hf _ (List.mem_append_right _ h)).1 rfl
  have s1 : "--static".toList ∉ f.flags := fun h => (hf _ (List.mem_append_left _ h)).2 rfl
  have s2 : "--static".toList ∉ flags := fun h => (hf _ (List.mem_append_right _ h)).2 rfl
  have hsrc (w : Text) (hw : w.head? = some '-') : w ≠ Path.addroot src root := fun e => hs (e ▸ hw)
  have hI (w : Text) (hw : ¬ "-I".toList <+: w) (l : List Text) : w ∉ l.map fun i => "-I".toList ++ i := by
    intro h
    obtain ⟨x, _, rfl⟩ := List.mem_map.mp h
    exact hw ⟨x, rfl⟩
  have hif (w v : Text) (c : Bool) : (w ∈ if c = true then [v] else []) ↔ c = true ∧ w = v := by
    cases c
    · simp only [Bool.false_eq_true, if_false, false_and, iff_false]; exact fun h => nomatch h
    · simp only [if_true, true_and]; exact List.mem_singleton
  have hget (o : Option Bool) (b : Bool) : o.getD b = true ↔ o = some true ∨ (o = none ∧ b = true) := by
    cases o with
    | none => simp
    | some x => simp
  have hcmd : cmd = (if debug.getD f.debug = true then ["--debug".toList] else []) ++
      ((if static.getD f.static = true then ["--static".toList] else []) ++
      ((((Gcc.sorted Gcc.leText (Gcc.dedup (includes ++ f.includes ++ [(Posix.split (Path.addroot src root)).1]) [])).filter ex).map
        (fun i => "-I".toList ++ i)) ++ (f.flags ++ (["-c".toList] ++ (f.flags ++ (flags ++ [Path.addroot src root])))))) := by
    simp only [cmd, felixCompile, Small.flx, Felix.flx, stdoutWords, List.append_assoc, List.cons_append, List.nil_append, List.tail_cons]
    rfl
  rw [hcmd]
  refine ⟨?_, ?_, ?_, ?_, ?_⟩
  · simp only [List.mem_append, hif, hI "--debug".toList (by decide +kernel), d1, d2, List.mem_singleton, false_or,
      hsrc "--debug".toList (by decide +kernel), or_false, show "--debug".toList ≠ "--static".toList by decide +kernel,
      show "--debug".toList ≠ "-c".toList by decide +kernel, and_true, and_false]
    exact hget _ _
  · simp only [List.mem_append, hif, hI "--static".toList (by decide +kernel), s1, s2, List.mem_singleton, false_or,
      hsrc "--static".toList (by decide +kernel), or_false, show "--static".toList ≠ "--debug".toList by decide +kernel,
      show "--static".toList ≠ "-c".toList by decide +kernel, and_true, and_false]
    exact hget _ _
  · simp only [List.mem_append, List.mem_singleton, true_or, or_true]
  · refine List.Sublist.trans ?_ (List.sublist_append_right _ _)
    refine List.Sublist.trans ?_ (List.sublist_append_right _ _)
    refine List.Sublist.trans ?_ (List.sublist_append_right _ _)
    refine List.Sublist.trans ?_ (List.sublist_append_right _ _)
    refine List.Sublist.trans ?_ (List.sublist_append_right _ _)
    exact List.Sublist.append_left (List.sublist_append_left _ _) _
  · refine List.IsSuffix.trans ?_ (List.suffix_append _ _)
    refine List.IsSuffix.trans ?_ (List.suffix_append _ _)
    refine List.IsSuffix.trans ?_ (List.suffix_append _ _)
    refine List.IsSuffix.trans ?_ (List.suffix_append _ _)
    refine List.IsSuffix.trans ?_ (List.suffix_append _ _)
    exact List.suffix_append _ _

/-- **C120**: the file for the output of the program is given to `flx` in one word, and only if there is one. -/
theorem C120_stdout (ex : Text → Bool) (f : Flx) (src : Text) (includes : List Text) (debug : Option Bool) (static : Bool)
    (stdout : Option Text) (flags : List Text) (hf : ∀ w ∈ f.flags ++ flags ++ [src], ¬ "--stdout".toList <+: w) (w : Text) :
    (w ∈ (flx ex f src includes debug static stdout flags).tail ∧ "--stdout".toList <+: w) ↔
      ∃ s, stdout = some s ∧ s ≠ [] ∧ w = "--stdout=".toList ++ s := by
  have hI (l : List Text) : w ∈ (l.map fun i => "-I".toList ++ i) → ¬ "--stdout".toList <+: w := by
    intro h hp
    obtain ⟨x, _, rfl⟩ := List.mem_map.mp h
    obtain ⟨r, hr⟩ := hp
    rw [show "--stdout".toList = '-' :: '-' :: "stdout".toList by decide +kernel,
      show "-I".toList = ['-', 'I'] by decide +kernel] at hr
    simp at hr
  have hout : w ∈ stdoutWords stdout ↔ ∃ s, stdout = some s ∧ s ≠ [] ∧ w = "--stdout=".toList ++ s := by
    cases stdout with
    | none => simp [stdoutWords]
    | some s =>
      cases s with
      | nil => simp [stdoutWords]
      | cons c r =>
        simp only [stdoutWords, List.mem_singleton, Option.some.injEq]
        constructor
        · intro h; exact ⟨_, rfl, by simp, h⟩
        · rintro ⟨s, rfl, _, h⟩; exact h
  have hpre : ∀ s : Text, "--stdout".toList <+: "--stdout=".toList ++ s := fun s => by
    rw [show "--stdout=".toList = "--stdout".toList ++ ['='] by decide +kernel, List.append_assoc]
    exact List.prefix_append _ _
  have hcmd : (flx ex f src includes debug static stdout flags).tail =
      (if debug.getD f.debug then ["--debug".toList] else []) ++ (if static then ["--static".toList] else []) ++ stdoutWords stdout
        ++ ((Gcc.sorted Gcc.leText includes).filter ex).map (fun i => "-I".toList ++ i) ++ f.flags ++ flags ++ [src] := by
    simp only [flx, List.append_assoc, List.cons_append, List.nil_append, List.tail_cons]
  rw [hcmd]
  simp only [List.mem_append] at hf ⊢
  rw [← hout]
  constructor
  · rintro ⟨h, hp⟩
    rcases h with (((((h | h) | h) | h) | h) | h) | h
    · exfalso
      cases hb : debug.getD f.debug with
      | false => rw [hb] at h; exact nomatch h
      | true =>
        rw [hb, if_pos rfl, List.mem_singleton] at h
        rw [h] at hp
        exact absurd (List.isPrefixOf_iff_prefix.2 hp) (by decide +kernel)
    · exfalso
      cases static with
      | false => exact nomatch h
      | true =>
        rw [if_pos rfl, List.mem_singleton] at h
        rw [h] at hp
        exact absurd (List.isPrefixOf_iff_prefix.2 hp) (by decide +kernel)
    · exact h
    · exact absurd hp (hI _ h)
    · exact absurd hp (hf w (.inl (.inl h)))
    · exact absurd hp (hf w (.inl (.inr h)))
    · exact absurd hp (hf w (.inr h))
  · intro h
    refine ⟨.inl (.inl (.inl (.inl (.inr h)))), ?_⟩
    obtain ⟨s, _, _, rfl⟩ := hout.1 h
    exact hpre s

example : "--stdout=o.txt".toList ∈ (flx (fun _ => true) { exe := "flx".toList } "x.flx".toList [] none false (some "o.txt".toList) []).tail ∧
    ∀ w ∈ [] ++ [] ++ ["x.flx".toList], ¬ "--stdout".toList <+: w := by decide +kernel

/-- **C120** is false for a `Flx` that is used by itself: the include directories it is made with make no difference. -/
theorem C120_includes_violated (ex : Text → Bool) (f : Flx) (own : List Text) (src : Text) (includes : List Text) (debug : Option Bool)
    (static : Bool) (stdout : Option Text) (flags : List Text) :
    flx ex { f with includes := own } src includes debug static stdout flags = flx ex f src includes debug static stdout flags := rfl

/-- **C120** is false for the flags of a builder: they are given twice. -/
theorem C120_flags_violated :
    felixCompile (fun _ => true) "build".toList
      { exe := "flx".toList, exeSuffix := [], libSuffix := ".so".toList, flags := ["-v".toList] } "a/x.flx".toList none ["lib".toList]
      ["-w".toList] none =
    (["flx", "-Ibuild/a", "-Ilib", "-v", "-c", "-v", "-w", "build/a/x.flx"].map String.toList, "build/a/x.so".toList) := by
  decide +kernel

/-! ## pkg-config -/

/-- the words with one blank between them -/
def spaced : List Text → Text
  | [] => []
  | [w] => w
  | w :: v :: ws => w ++ ' ' :: spaced (v :: ws)

theorem split_word (w : Text) (h : ∀ c ∈ w, c ≠ ' ') (r : Text) : ∀ cur, splitBlank (w ++ r) cur = splitBlank r (cur ++ w) := by
  induction w with
  | nil => intro cur; simp
  | cons c w ih =>
    intro cur
    have hc : c ≠ ' ' := h c (.head _)
    simp only [List.cons_append, splitBlank, hc, if_false]
    rw [ih (fun x hx => h x (.tail _ hx))]
    simp

theorem split_spaced (ws : List Text) (hne : ws ≠ []) (h : ∀ w ∈ ws, ∀ c ∈ w, c ≠ ' ') : splitBlank (spaced ws) [] = ws := by
  fun_induction spaced ws with
  | case1 => exact absurd rfl hne
  | case2 w =>
    have := split_word w (h w (.head _)) [] []
    simpa [splitBlank] using this
  | case3 w v ws ih =>
    rw [split_word w (h w (.head _))]
    simp only [List.nil_append, splitBlank, if_true]
    rw [ih (by simp) (fun x hx => h x (.tail _ hx))]

theorem drop_blank (a b : Text) (ha : ∀ c ∈ a, blank c = true) (hb : ∀ c r, b = c :: r → blank c = false) :
    (a ++ b).dropWhile blank = b := by
  induction a with
  | nil =>
    cases b with
    | nil => rfl
    | cons c r => simp [List.dropWhile, hb c r rfl]
  | cons c a ih =>
    simp only [List.cons_append, List.dropWhile, ha c (.head _)]
    exact ih (fun x hx => ha x (.tail _ hx))

theorem spaced_head (ws : List Text) (h : ∀ w ∈ ws, w ≠ [] ∧ ∀ c ∈ w, blank c = false) :
    ∀ c r, spaced ws = c :: r → blank c = false := by
  intro c r e
  fun_cases spaced ws with
  | case1 => simp [spaced] at e
  | case2 w => exact (h w (.head _)).2 c (by rw [show w = c :: r from e]; exact .head _)
  | case3 w v ws =>
    cases w with
    | nil => exact absurd rfl (h [] (.head _)).1
    | cons x w =>
      simp only [spaced, List.cons_append, List.cons.injEq] at e
      exact e.1 ▸ (h _ (.head _)).2 x (.head _)

theorem spaced_last (ws : List Text) (h : ∀ w ∈ ws, w ≠ [] ∧ ∀ c ∈ w, blank c = false) :
    ∀ c r, (spaced ws).reverse = c :: r → blank c = false := by
  fun_induction spaced ws with
  | case1 => intro c r e; simp at e
  | case2 w =>
    intro c r e
    exact (h w (.head _)).2 c (by rw [← List.mem_reverse, e]; exact .head _)
  | case3 w v ws ih =>
    intro c r e
    have ih := ih (fun x hx => h x (.tail _ hx))
    cases hr : (spaced (v :: ws)).reverse with
    | nil =>
      exfalso
      have hv := (h v (.tail _ (.head _))).1
      cases ws with
      | nil => exact hv (by simpa [spaced] using hr)
      | cons u ws => simp [spaced] at hr
    | cons x y =>
      simp only [List.reverse_append, List.reverse_cons, hr, List.append_assoc, List.cons_append, List.cons.injEq] at e
      exact e.1 ▸ ih x y hr

/-- **C121**, if there are flags and one blank between them: the flags are returned, one by one, whatever blanks and newlines are in
front and at the end. -/
theorem C121_partial (ws : List Text) (front rear : Text) (hne : ws ≠ []) (h : ∀ w ∈ ws, w ≠ [] ∧ ∀ c ∈ w, blank c = false)
    (hf : ∀ c ∈ front, blank c = true) (hr : ∀ c ∈ rear, blank c = true) :
    pkgFlags (front ++ spaced ws ++ rear) = ws := by
  have hb (w) (hw : w ∈ ws) (c) (hc : c ∈ w) : c ≠ ' ' := fun e => by
    have := (h w hw).2 c hc
    rw [e] at this
    exact absurd this (by decide)
  have e : strip (front ++ spaced ws ++ rear) = spaced ws := by
    unfold strip
    have e1 : (front ++ spaced ws ++ rear).dropWhile blank = spaced ws ++ rear := by
      rw [List.append_assoc]
      refine drop_blank _ _ hf ?_
      intro c r e
      cases hs : spaced ws with
      | nil =>
        exfalso
        have := split_spaced ws hne hb
        rw [hs] at this
        have hm := (h [] (by rw [← this]; exact .head _)).1
        exact hm rfl
      | cons x y =>
        rw [hs] at e
        exact (List.cons.inj e).1 ▸ spaced_head ws h x y hs
    rw [e1, List.reverse_append, drop_blank _ _ (fun c hc => hr c (List.mem_reverse.mp hc)) (spaced_last ws h), List.reverse_reverse]
  unfold pkgFlags
  rw [e, split_spaced ws hne hb]

/-- **C121** is false if there are no flags: one empty flag is returned, and a compiler takes it for a file. -/
theorem C121_none_violated :
    pkgFlags "\n".toList = [[]] ∧ filesOf (read ["-o".toList] (["-c".toList] ++ pkgFlags "\n".toList)) = [[]] := by
  decide +kernel

/-- **C121** is false if there are two blanks, and for a path with a blank, which pkg-config writes with a backslash. -/
theorem C121_blank_violated :
    pkgFlags "-La  -lb \n".toList = ["-La".toList, [], "-lb".toList] ∧
    pkgFlags "-I/a\\ b\n".toList = ["-I/a\\".toList, "b".toList] := by
  decide +kernel

/-! ## Examples -/

namespace SmallEx
def takes : List Text := ["-o".toList, "-odir".toList, "-hidir".toList, "-package".toList, "-p".toList]
theorem knows_ghc : Knows ghcOptions ["-c".toList] takes := ⟨by decide +kernel, by decide +kernel, by decide +kernel⟩
theorem knows_bison : Knows bisonOptions ["-v".toList, "-d".toList] takes := ⟨by decide +kernel, by decide +kernel, by decide +kernel⟩
def own : List Text := ["-package".toList, "base".toList, "-O".toList]
def flags : List Text := ["-Wall".toList]
example : whole takes (own ++ flags) = true ∧ (own ++ flags).Nodup := by decide +kernel

example : ghcCompile "ghc".toList "build".toList ".o".toList own [] flags none none "a/x.hs".toList none =
    ["ghc", "-c", "-o", "build/a/x.o", "-odir", "build/a", "-hidir", "build/a", "-package", "base", "-O", "-Wall",
      "a/x.hs"].map String.toList := by decide +kernel

example : ghcLink "ghc".toList "build".toList own [] flags "x".toList ["build/a/x.o".toList] =
    ["ghc", "-o", "build/x", "-package", "base", "-O", "-Wall", "build/a/x.o"].map String.toList := by decide +kernel

/-- switches that are repeated -/
example : (∀ f ∈ ["-O".toList, "-Wall".toList] ++ ["-O".toList], Switch takes f) ∧
    (ghc "ghc".toList ["-O".toList, "-Wall".toList] [] ["-O".toList] none none "x".toList ["x.hs".toList]) =
      ["ghc", "-o", "x", "-O", "-Wall", "x.hs"].map String.toList := by
  unfold Switch
  decide +kernel

example : bison "bison".toList "build".toList ".c".toList ["--warnings".toList] "a/p.y".toList none (some ".cc".toList) true
      (some "pp".toList) true ["-t".toList] =
    ["bison", "-v", "-p", "pp", "-d", "--warnings", "-t", "-o", "build/a/p.cc", "a/p.y"].map String.toList := by decide +kernel

example : llc "llc".toList [] [] ["-O2".toList] (some "build/x.o".toList) (some "arm".toList) none none ["x.ll".toList] =
    ["llc", "-o", "build/x.o", "-march=arm", "-O2", "x.ll"].map String.toList := by decide +kernel

example : pkgFlags "-I/usr/include -lz \n".toList = ["-I/usr/include".toList, "-lz".toList] ∧
    "-I/usr/include -lz \n".toList = [] ++ spaced ["-I/usr/include".toList, "-lz".toList] ++ " \n".toList := by decide +kernel
end SmallEx

end Verif.Small
