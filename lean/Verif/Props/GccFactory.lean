import Verif.Gcc.Factory
import Verif.Props.GccFiles
/-!
# gcc: builders made by `static` and `shared`

C129.
-/
namespace Verif.Gcc.Factory
open Verif.Gcc

/-! ## Specification -/

/-- the names of the compiler that are looked for -/
def Programs (exe : Option Text) (names : List Text) : Prop :=
  (∀ e, exe = some e → e ≠ [] → names = [e]) ∧
  ((∀ e, exe = some e → e = []) → names = ["gcc".toList, "cc".toList])

/-- what is given, if it is given and not empty -/
def Chosen (given : Option Text) (default chosen : Text) : Prop :=
  (∀ x, given = some x → x ≠ [] → chosen = x) ∧ ((∀ x, given = some x → x = []) → chosen = default)

/-! ## Proofs -/

theorem orElse_chosen (x : Option Text) (y : Text) : Chosen x y (orElse x y) := by
  constructor
  · rintro z rfl hz
    simp [orElse, hz]
  · intro h
    cases x with
    | none => rfl
    | some x => simp [orElse, h x rfl]

/-- the words between the flags in front and the destination -/
def middle (b : Cc) (a : Args) (libpaths : List Text) : List Text :=
  (if asked b.debug a.debug then b.debugFlags else [])
    ++ (if asked b.profile a.profile then b.profileFlags else [])
    ++ (if asked b.optimize a.optimize then b.optimizeFlags else [])
    ++ archWords b.arch a.arch
    ++ includeArgs leText b.includes a.includes
        (if a.includeSourceDirs then a.srcs.map (fun s => (Posix.split s).1) else [])
    ++ (sortedSet a.macros b.macros).map ("-D".toList ++ ·)
    ++ (sortedSet a.warnings b.warnings).map ("-W".toList ++ ·)
    ++ ((sorted leText libpaths).filter (· ≠ [])).map ("-L".toList ++ ·)
    ++ ((sortedSet a.machineFlags b.machineFlags).filter (· ≠ [])).map ("-m".toList ++ ·)

theorem before_eq (b : Cc) (a : Args) (lp : List Text) :
    wordsBefore b a lp = [b.exe] ++ b.preFlags ++ a.preFlags ++ middle b a lp ++ dstWords a.dst ++ dedup (b.flags ++ a.flags) [] ++
      a.srcs := by
  simp only [wordsBefore, middle, List.append_assoc]

/-- the words of the compiler of a builder -/
theorem compiler_words (g : LibFiles) (limit : Nat) (c : Compiler) (root src : Text) (dst suffix : Option Text) (a : Args)
    (cmd : List Text) (h : c.command g limit root src dst suffix a = some cmd) :
    ∃ mid fl, cmd = [c.cc.exe] ++ c.cc.preFlags ++ ["-c".toList] ++ c.flags ++ mid ++
        ["-o".toList, objectFile root (orElse suffix c.suffix) src dst] ++ fl ++ [src] ∧
      fl.Nodup ∧ ∀ w, w ∈ fl ↔ w ∈ c.cc.flags ∨ w ∈ a.flags := by
  unfold Compiler.command at h
  obtain ⟨h1, h2⟩ := dedup_spec (c.cc.flags ++ a.flags) [] (by simp)
  obtain ⟨s, _, ⟨hc, rfl⟩ | ⟨hc, _⟩⟩ := command_parts h
  · refine ⟨middle c.cc { a with srcs := [src], dst := some (objectFile root (orElse suffix c.suffix) src dst),
                                 preFlags := "-c".toList :: c.flags } s.libpaths,
      dedup (c.cc.flags ++ a.flags) [], ?_, h1, fun w => by rw [h2]; simp⟩
    rw [before_eq]
    simp only [dstWords, List.append_assoc, List.cons_append, List.nil_append]
  · refine absurd ?_ hc
    simp [before_eq]

/-- the words of a linker of a builder -/
theorem linker_words (g : LibFiles) (limit : Nat) (l : Linker) (root dst : Text) (pre suffix : Option Text) (a : Args)
    (cmd : List Text) (h : l.command g limit root dst pre suffix a = some cmd) :
    ∃ mid fl back, cmd = [l.cc.exe] ++ l.cc.preFlags ++ l.flags ++ mid ++
        ["-o".toList, linkedFile root (orElse pre l.pre) (orElse suffix l.suffix) dst] ++ fl ++ a.srcs ++ back ∧
      fl.Nodup ∧ ∀ w, w ∈ fl ↔ w ∈ l.cc.flags ∨ w ∈ a.flags := by
  unfold Linker.command at h
  obtain ⟨h1, h2⟩ := dedup_spec (l.cc.flags ++ a.flags) [] (by simp)
  have hb : ∃ s back, cmd = wordsBefore l.cc { a with dst := some (linkedFile root (orElse pre l.pre) (orElse suffix l.suffix) dst),
                                                      preFlags := l.flags } s ++ back := by
    obtain ⟨s, _, ⟨_, hc⟩ | ⟨_, hc⟩⟩ := command_parts h
    · exact ⟨s.libpaths, [], by rw [hc, List.append_nil]⟩
    · simp only [List.append_assoc] at hc
      exact ⟨s.libpaths, _, hc⟩
  obtain ⟨s, back, rfl⟩ := hb
  refine ⟨middle l.cc { a with dst := some (linkedFile root (orElse pre l.pre) (orElse suffix l.suffix) dst),
                               preFlags := l.flags } s, dedup (l.cc.flags ++ a.flags) [], back, ?_, h1, fun w => by rw [h2]; simp⟩
  rw [before_eq]
  simp only [dstWords, List.append_assoc, List.cons_append, List.nil_append]

theorem programs (find : List Text → Text) (o : Options) : ∃ ps, Programs o.exe ps ∧ (makeCc find o).exe = find ps := by
  unfold makeCc
  cases he : o.exe with
  | none => exact ⟨_, ⟨by simp, fun _ => rfl⟩, rfl⟩
  | some e =>
    by_cases h : e = []
    · subst h
      exact ⟨_, ⟨by simp, fun _ => rfl⟩, by simp⟩
    · refine ⟨[e], ⟨fun x hx _ => by cases hx; rfl, fun hall => absurd (hall e rfl) h⟩, by simp [h]⟩

/-- **C129**: each compilation gets `flags` and `compile_flags` as they were given, behind `-c`, and the source is the last word. -/
theorem C129_compile (find : List Text → Text) (names : Names) (o : Options) (g : LibFiles) (limit : Nat) (root src : Text)
    (dst suffix : Option Text) (a : Args) (cmd : List Text)
    (h : (static find names o).compiler.command g limit root src dst suffix a = some cmd ∨
      (shared find names o).compiler.command g limit root src dst suffix a = some cmd) :
    ∃ ps mid obj fl, Programs o.exe ps ∧
      cmd = [find ps] ++ o.cc.preFlags ++ ["-c".toList] ++ o.flags ++ mid ++ ["-o".toList, obj] ++ fl ++ [src] ∧
      (∀ fs, o.compileFlags = some fs → fs <+: mid) ∧
      (fl.Nodup ∧ ∀ w, w ∈ fl ↔ w ∈ a.flags) ∧
      ∀ s, (suffix = some s ∨ suffix = none ∧ o.objSuffix = some s) → s ≠ [] → ∃ stem, obj = stem ++ s := by
  obtain ⟨ps, hps, hexe⟩ := programs find o
  have hobj : ∀ d : Text, ∀ s, (suffix = some s ∨ suffix = none ∧ o.objSuffix = some s) → s ≠ [] →
      ∃ stem, objectFile root (orElse suffix (o.objSuffix.getD d)) src dst = stem ++ s := by
    intro d s hs hne
    have : orElse suffix (o.objSuffix.getD d) = s := by
      rcases hs with rfl | ⟨rfl, h2⟩
      · simp [orElse, hne]
      · simp [orElse, h2]
    rw [this]
    exact ⟨_, rfl⟩
  rcases h with h | h
  · obtain ⟨mid, fl, rfl, hnd, hfl⟩ := compiler_words g limit _ root src dst suffix a cmd h
    refine ⟨ps, o.compileFlags.getD [] ++ mid, _, fl, hps, ?_, ?_, ⟨hnd, fun w => by rw [hfl]; simp [static, makeCc]⟩, hobj names.staticObj⟩
    · rw [← hexe]
      simp only [static, makeCc, List.append_assoc]
    · rintro fs hfs
      rw [hfs]
      exact List.prefix_append _ _
  · obtain ⟨mid, fl, rfl, hnd, hfl⟩ := compiler_words g limit _ root src dst suffix a cmd h
    refine ⟨ps, o.compileFlags.getD ["-fPIC".toList] ++ mid, _, fl, hps, ?_, ?_,
      ⟨hnd, fun w => by rw [hfl]; simp [shared, makeCc]⟩, hobj names.sharedObj⟩
    · rw [← hexe]
      simp only [shared, makeCc, List.append_assoc]
    · rintro fs hfs
      rw [hfs]
      exact List.prefix_append _ _

/-- Objects for shared libraries are compiled with `-fPIC`, and shared libraries linked with `-fPIC -shared`, unless other flags are
given for this. -/
theorem C129_shared (find : List Text → Text) (names : Names) (o : Options) (g : LibFiles) (limit : Nat) (root : Text)
    (suffix : Option Text) (a : Args) (cmd : List Text) :
    (∀ src dst, o.compileFlags = none → (shared find names o).compiler.command g limit root src dst suffix a = some cmd →
      ∃ front back, cmd = front ++ o.flags ++ ["-fPIC".toList] ++ back) ∧
    (∀ dst pre, o.libLinkFlags = none → (shared find names o).libLinker.command g limit root dst pre suffix a = some cmd →
      ∃ front back, cmd = front ++ o.flags ++ o.linkFlags ++ ["-fPIC".toList, "-shared".toList] ++ back) := by
  constructor
  · intro src dst hc h
    obtain ⟨mid, fl, rfl, _⟩ := compiler_words g limit _ root src dst suffix a cmd h
    refine ⟨[(makeCc find o).exe] ++ (makeCc find o).preFlags ++ ["-c".toList], mid ++ ["-o".toList,
      objectFile root (orElse suffix (shared find names o).compiler.suffix) src dst] ++ fl ++ [src], ?_⟩
    simp only [shared, hc, Option.getD_none, List.append_assoc]
  · intro dst pre hc h
    obtain ⟨mid, fl, back, rfl, _⟩ := linker_words g limit _ root dst pre suffix a cmd h
    refine ⟨[(makeCc find o).exe] ++ (makeCc find o).preFlags, mid ++ ["-o".toList,
      linkedFile root (orElse pre (shared find names o).libLinker.pre) (orElse suffix (shared find names o).libLinker.suffix)
        dst] ++ fl ++ a.srcs ++ back, ?_⟩
    simp only [shared, hc, Option.getD_none, List.append_assoc]

theorem tail_linked (root pre suffix dst : Text) (hp : '/' ∉ pre) (hs : '/' ∉ suffix) :
    Posix.tail (linkedFile root pre suffix dst) = pre ++ Posix.tail dst ++ suffix := by
  have haddroot : Posix.tail (Path.addroot dst root) = Posix.tail dst := by
    have hj : ∀ r d : Text, Posix.isabs d = false → Posix.tail (Posix.join r d) = Posix.tail d := by
      intro r d hd
      unfold Posix.join
      rw [hd]
      simp only [Bool.false_eq_true, if_false]
      split
      · rename_i he
        rcases he with he | he
        · subst he; rfl
        · obtain ⟨r', rfl⟩ := Glob.snoc_of_last he
          rw [List.append_assoc]
          exact (tail_below r' d).1
      · exact (tail_below r d).1
    unfold Path.addroot
    split
    · rfl
    · split
      · rw [hj]
        · show Posix.tail (Posix.tail dst) = _
          exact Posix.tail_name (Posix.tail_noSlash dst)
        · exact Glob.isabs_name (Posix.tail_noSlash dst)
      · rename_i h
        exact hj root dst (by simpa using h)
  have hn : '/' ∉ pre ++ Posix.tail dst ++ suffix := by
    simp only [List.mem_append, not_or]
    exact ⟨⟨hp, Posix.tail_noSlash dst⟩, hs⟩
  unfold linkedFile
  show Posix.tail (Posix.join (Posix.split (Path.addroot dst root)).1 pre ++ Posix.tail (Path.addroot dst root) ++ suffix) = _
  rw [haddroot]
  unfold Posix.join
  rw [Glob.isabs_name hp]
  simp only [Bool.false_eq_true, if_false]
  split
  · rename_i he
    rcases he with he | he
    · rw [he, List.nil_append]
      exact Posix.tail_name hn
    · obtain ⟨r', hr⟩ := Glob.snoc_of_last he
      rw [hr]
      have := Posix.tail_slash r' _ hn
      simpa using this
  · have := Posix.tail_slash (Posix.split (Path.addroot dst root)).1 _ hn
    simpa using this

/-- **C129**: each link of an executable gets `flags`, `link_flags` and `exe_link_flags` as they were given, and the file has the name
that was asked for with the suffix for executables. -/
theorem C129_link_exe (find : List Text → Text) (names : Names) (o : Options) (g : LibFiles) (limit : Nat) (root dst : Text)
    (a : Args) (cmd : List Text)
    (h : (static find names o).exeLinker.command g limit root dst none none a = some cmd ∨
      (shared find names o).exeLinker.command g limit root dst none none a = some cmd) :
    ∃ ps mid file fl back, Programs o.exe ps ∧
      cmd = [find ps] ++ o.cc.preFlags ++ o.flags ++ o.linkFlags ++ o.exeLinkFlags ++ mid ++ ["-o".toList, file] ++ fl ++
        a.srcs ++ back ∧
      (fl.Nodup ∧ ∀ w, w ∈ fl ↔ w ∈ a.flags) ∧
      ∀ s, s = o.exeSuffix.getD names.exe → '/' ∉ s → Posix.tail file = Posix.tail dst ++ s := by
  obtain ⟨ps, hps, hexe⟩ := programs find o
  have hfile : ∀ s, s = o.exeSuffix.getD names.exe → '/' ∉ s →
      Posix.tail (linkedFile root (orElse none []) (orElse none (o.exeSuffix.getD names.exe)) dst) = Posix.tail dst ++ s := by
    rintro s rfl hs
    exact tail_linked root [] _ dst (by simp) hs
  rcases h with h | h
  · obtain ⟨mid, fl, back, rfl, hnd, hfl⟩ := linker_words g limit _ root dst none none a cmd h
    refine ⟨ps, mid, _, fl, back, hps, ?_, ⟨hnd, fun w => by rw [hfl]; simp [static, makeCc]⟩, hfile⟩
    rw [← hexe]
    simp only [static, makeCc, List.append_assoc]
  · obtain ⟨mid, fl, back, rfl, hnd, hfl⟩ := linker_words g limit _ root dst none none a cmd h
    refine ⟨ps, mid, _, fl, back, hps, ?_, ⟨hnd, fun w => by rw [hfl]; simp [shared, makeCc]⟩, hfile⟩
    rw [← hexe]
    simp only [shared, makeCc, List.append_assoc]

/-- **C129**: each link of a shared library gets `flags`, `link_flags` and `lib_link_flags` as they were given, and the file has the
name that was asked for with the prefix and suffix for shared libraries. -/
theorem C129_link_lib (find : List Text → Text) (names : Names) (o : Options) (g : LibFiles) (limit : Nat) (root dst : Text)
    (a : Args) (cmd lf : List Text) (hlf : o.libLinkFlags = some lf)
    (h : (shared find names o).libLinker.command g limit root dst none none a = some cmd) :
    ∃ ps mid file fl back, Programs o.exe ps ∧
      cmd = [find ps] ++ o.cc.preFlags ++ o.flags ++ o.linkFlags ++ lf ++ mid ++ ["-o".toList, file] ++ fl ++ a.srcs ++ back ∧
      (fl.Nodup ∧ ∀ w, w ∈ fl ↔ w ∈ a.flags) ∧
      ∀ p s, p = o.libPrefix.getD names.sharedLibPrefix → s = o.libSuffix.getD names.sharedLibSuffix → '/' ∉ p → '/' ∉ s →
        Posix.tail file = p ++ Posix.tail dst ++ s := by
  obtain ⟨ps, hps, hexe⟩ := programs find o
  obtain ⟨mid, fl, back, rfl, hnd, hfl⟩ := linker_words g limit _ root dst none none a cmd h
  refine ⟨ps, mid, linkedFile root (orElse none (shared find names o).libLinker.pre)
    (orElse none (shared find names o).libLinker.suffix) dst, fl, back, hps, ?_,
    ⟨hnd, fun w => by rw [hfl]; simp [shared, makeCc]⟩, ?_⟩
  · rw [← hexe]
    simp only [shared, makeCc, hlf, Option.getD_some, List.append_assoc]
  · rintro p s rfl rfl hp hs
    exact tail_linked root _ _ dst hp hs

/-- **C129**: each static library is made by `ar -rcs` with the flags of the call, and the file has the name that was asked for with the
prefix and suffix for static libraries. -/
theorem C129_static_lib (find : List Text → Text) (names : Names) (o : Options) (glob : Text → List Text) (root dst : Text)
    (srcs flags : List Text) :
    ∃ file, (static find names o).libLinker.command glob root dst srcs flags none none =
        [find ["ar".toList], "-rcs".toList] ++ flags ++ [file] ++ srcs.flatMap glob ∧
      ∀ p s, Chosen o.libPrefix "lib".toList p → Chosen o.libSuffix ".a".toList s → '/' ∉ p → '/' ∉ s →
        Posix.tail file = p ++ Posix.tail dst ++ s := by
  refine ⟨_, rfl, ?_⟩
  intro p s hp hs hp' hs'
  have key : ∀ (x : Option Text) (y z : Text), y ≠ [] → Chosen x y z → orElse (some (orElse x y)) y = z := by
    intro x y z hy hz
    by_cases hx : ∀ w, x = some w → w = []
    · rw [(orElse_chosen x y).2 hx, hz.2 hx]
      simp [orElse]
    · cases x with
      | none => exact absurd (by simp) hx
      | some w =>
        have hw : w ≠ [] := fun h => hx (by rintro v hv; cases hv; exact h)
        rw [(orElse_chosen (some w) y).1 w rfl hw, hz.1 w rfl hw]
        simp [orElse, hw]
  have h1 := key o.libPrefix "lib".toList p (by decide) hp
  have h2 := key o.libSuffix ".a".toList s (by decide) hs
  show Posix.tail (linkedFile root (orElse (some (orElse o.libPrefix "lib".toList)) "lib".toList)
    (orElse (some (orElse o.libSuffix ".a".toList)) ".a".toList) dst) = _
  rw [h1, h2]
  exact tail_linked root p s dst hp' hs'

/-! ## Examples and violations -/

private abbrev t (s : String) : Text := s.toList

def linux : Names where
  staticObj := t ".o"
  sharedObj := t ".os"
  sharedLibPrefix := t "lib"
  sharedLibSuffix := t ".so"
  exe := []

def noLibs : LibFiles where
  deps := fun _ => []
  isLib := fun _ => false
  path := fun _ => []
  libpaths := fun _ => []
  external := fun _ => []

def sampleOptions : Options where
  flags := [t "-g"]
  linkFlags := [t "-s"]
  cc := { exe := [], macros := [t "N"] }

/-- a compilation, a link of a library and of an executable -/
example :
    (shared (fun ps => ps.headD []) linux sampleOptions).compiler.command noLibs 3 (t "build") (t "src/a.c") none none
      { srcs := [], flags := [t "-O2"] } =
      some [t "gcc", t "-c", t "-g", t "-fPIC", t "-Isrc", t "-DN", t "-o", t "build/src/a.os", t "-O2", t "src/a.c"] ∧
    (shared (fun ps => ps.headD []) linux sampleOptions).libLinker.command noLibs 3 (t "build") (t "src/x") none none
      { srcs := [t "build/src/a.os"], includeSourceDirs := false } =
      some [t "gcc", t "-g", t "-s", t "-fPIC", t "-shared", t "-DN", t "-o", t "build/src/libx.so", t "build/src/a.os"] ∧
    (static (fun ps => ps.headD []) linux sampleOptions).exeLinker.command noLibs 3 (t "build") (t "src/x") none none
      { srcs := [t "build/src/a.o"], includeSourceDirs := false } =
      some [t "gcc", t "-g", t "-s", t "-DN", t "-o", t "build/src/x", t "build/src/a.o"] := by decide +kernel

/-- a static library -/
example : (static (fun ps => ps.headD []) linux sampleOptions).libLinker.command (fun p => [p]) (t "build") (t "src/x")
      [t "build/src/a.o"] [] none none =
    [t "ar", t "-rcs", t "build/src/libx.a", t "build/src/a.o"] ∧ Chosen sampleOptions.libPrefix (t "lib") (t "lib") := by
  refine ⟨by decide +kernel, ?_, fun _ => rfl⟩
  intro x hx
  cases hx

/-- **C129** is false for the argument `ar` of `static`: it has no effect. -/
theorem C129_ar_violated (find : List Text → Text) (names : Names) (o : Options) (x : Text) :
    static find names { o with ar := some x } = static find names { o with ar := none } := rfl

/-- **C129** is false for `link_flags` of `static` and its libraries: they have no effect there. -/
theorem C129_link_flags_violated (find : List Text → Text) (names : Names) (o : Options) (fs : List Text) :
    (static find names { o with linkFlags := fs }).libLinker = (static find names o).libLinker := rfl

/-- **C129** is false for an empty prefix given to `static`: the library has the prefix `lib` all the same, while with `shared` it has
none. -/
theorem C129_prefix_violated :
    (static (fun ps => ps.headD []) linux { libPrefix := some [] }).libLinker.command (fun p => [p]) (t "build") (t "x") [t "a.o"] []
      none none = [t "ar", t "-rcs", t "build/libx.a", t "a.o"] ∧
    (shared (fun ps => ps.headD []) linux { libPrefix := some [] }).libLinker.command noLibs 3 (t "build") (t "x")
      none none { srcs := [t "a.os"], includeSourceDirs := false } =
      some [t "gcc", t "-fPIC", t "-shared", t "-o", t "build/x.so", t "a.os"] := by decide +kernel

end Verif.Gcc.Factory
