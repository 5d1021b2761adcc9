import Verif.Builders.ConfigTools
/-!
# C160: what tools are asked for flags and directories

The specification has its own account of what the programs print, after their manuals.
-/
namespace Verif.ConfigTools

/-! ## Specification -/

/-- a text without blanks at its ends -/
def Trimmed (t : Text) : Prop := (∀ c, t.head? = some c → Small.blank c = false) ∧ ∀ c, t.getLast? = some c → Small.blank c = false

/-- an installation of LLVM -/
structure Install where
  version : Text
  pre : Text
  srcRoot : Text
  objRoot : Text
  bindir : Text
  includedir : Text
  libdir : Text
  components : Text
  targetsBuilt : Text
  hostTarget : Text
  buildMode : Text
  /-- the option and the components: flags and libraries -/
  flags : Text → List Text → Text

/-- what llvm-config prints: one line for each option -/
def Prints (tool : Tool) (i : Install) : Prop :=
  let says (option : String) (t : Text) : Prop := tool [option.toList] = some (t ++ ['\n']) ∧ Trimmed t
  says "--version" i.version ∧ says "--prefix" i.pre ∧ says "--src-root" i.srcRoot ∧ says "--obj-root" i.objRoot ∧
  says "--bindir" i.bindir ∧ says "--includedir" i.includedir ∧ says "--libdir" i.libdir ∧ says "--components" i.components ∧
  says "--targets-built" i.targetsBuilt ∧ says "--host-target" i.hostTarget ∧ says "--build-mode" i.buildMode ∧
  ∀ option ∈ ["--cppflags".toList, "--cflags".toList, "--cxxflags".toList, "--ldflags".toList, "--libs".toList, "--libnames".toList,
    "--libfiles".toList], ∀ cs, tool (option :: cs) = some (i.flags option cs ++ ['\n']) ∧ Trimmed (i.flags option cs)

/-- what the methods return, as they are documented -/
def documented (i : Install) (cs : List Text) : Llvm → Text
  | .version => i.version
  | .prefix => i.pre
  | .srcRoot => i.srcRoot
  | .objRoot => i.objRoot
  | .bindir => i.bindir
  | .includedir => i.includedir
  | .libdir => i.libdir
  | .ocamlLibdir => if i.libdir = [] ∨ i.libdir.getLast? = some '/' then i.libdir ++ "ocaml".toList else i.libdir ++ "/ocaml".toList
  | .cppflags => i.flags "--cppflags".toList cs
  | .cflags => i.flags "--cflags".toList cs
  | .cxxflags => i.flags "--cxxflags".toList cs
  | .ldflags => i.flags "--ldflags".toList cs
  | .libs => i.flags "--libs".toList cs
  | .libnames => i.flags "--libnames".toList cs
  | .libfiles => i.flags "--libfiles".toList cs
  | .components => i.components
  | .targetsBuilt => i.targetsBuilt
  | .hostTarget => i.hostTarget
  | .buildMode => i.buildMode

/-- the methods are called one after the other, with an empty database at first; the last answer -/
def answers (tool : Tool) : List (Llvm × List Text) → Memo → Memo
  | [], memo => memo
  | (m, cs) :: rest, memo => answers tool rest (llvm tool memo m cs).2

/-! ## Proofs -/

theorem strip_line {t : Text} (h : Trimmed t) : Small.strip (t ++ ['\n']) = t := by
  have drop : ∀ l : Text, (∀ c, l.head? = some c → Small.blank c = false) → l.dropWhile Small.blank = l := by
    intro l hl
    cases l with
    | nil => rfl
    | cons c l => rw [List.dropWhile_cons, if_neg (by simp [hl c rfl])]
  unfold Small.strip
  cases t with
  | nil => decide
  | cons c t =>
    rw [drop (c :: t ++ ['\n']) (fun x hx => h.1 x hx), List.reverse_append]
    rw [show ['\n'].reverse ++ (c :: t).reverse = '\n' :: (c :: t).reverse from rfl, List.dropWhile_cons, if_pos (by decide),
      drop _ (fun x hx => h.2 x (by rwa [List.head?_reverse] at hx)), List.reverse_reverse]

/-- the answers in the database are those of the program -/
def Current (tool : Tool) (memo : Memo) : Prop := ∀ x ∈ memo, ask tool x.1 = some x.2

theorem lookup_mem {cmd : List Text} {r : Text} : ∀ {memo : Memo}, memo.lookup cmd = some r → (cmd, r) ∈ memo
  | (k, v) :: memo, h => by
    rw [List.lookup_cons] at h
    split at h
    · rename_i hk
      cases h
      rw [eq_of_beq hk]
      exact .head _
    · exact .tail _ (lookup_mem h)

theorem askCached_current {tool : Tool} {memo : Memo} (h : Current tool memo) (cmd : List Text) :
    (askCached tool memo cmd).1 = ask tool cmd ∧ Current tool (askCached tool memo cmd).2 := by
  unfold askCached
  split
  · rename_i r hr
    exact ⟨(h _ (lookup_mem hr)).symm, h⟩
  · split
    · rename_i hn
      exact ⟨hn.symm, h⟩
    · rename_i r hr
      refine ⟨hr.symm, fun x hx => ?_⟩
      cases hx with
      | head => exact hr
      | tail _ hx => exact h x hx

theorem answers_current {tool : Tool} : ∀ (calls : List (Llvm × List Text)) {memo : Memo}, Current tool memo →
    Current tool (answers tool calls memo)
  | [], _, h => h
  | (m, cs) :: rest, _, h => answers_current rest (askCached_current h (m.words cs)).2

theorem ask_line {tool : Tool} {cmd : List Text} {t : Text} (h : tool cmd = some (t ++ ['\n']) ∧ Trimmed t) : ask tool cmd = some t := by
  unfold ask
  rw [h.1, Option.map_some, strip_line h.2]

/-- **C160**: whatever was asked before, a method of `LlvmConfig` returns what is documented.  Partial: not `obj_root`
(`C160_obj_violated`), and the program stays the same (`C160_stale_violated`). -/
theorem C160_llvm_partial (tool : Tool) (i : Install) (hp : Prints tool i) (before : List (Llvm × List Text)) (m : Llvm) (hm : m ≠ .objRoot)
    (cs : List Text) : (llvm tool (answers tool before []) m cs).1 = some (documented i cs m) := by
  have hc := askCached_current (answers_current before (fun x hx => by cases hx) : Current tool (answers tool before [])) (m.words cs)
  unfold llvm
  dsimp only
  rw [hc.1]
  obtain ⟨h1, h2, h3, h4, h5, h6, h7, h8, h9, h10, h11, hf⟩ := hp
  have f : ∀ option ∈ ["--cppflags".toList, "--cflags".toList, "--cxxflags".toList, "--ldflags".toList, "--libs".toList,
      "--libnames".toList, "--libfiles".toList], ask tool (option :: cs) = some (i.flags option cs) := fun o ho => ask_line (hf o ho cs)
  cases m with
  | objRoot => exact absurd rfl hm
  | version => exact ask_line h1
  | «prefix» => exact ask_line h2
  | srcRoot => exact ask_line h3
  | bindir => exact ask_line h5
  | includedir => exact ask_line h6
  | libdir => exact ask_line h7
  | ocamlLibdir =>
    rw [if_pos rfl]
    show (ask tool ["--libdir".toList]).map _ = _
    rw [ask_line h7, Option.map_some]
    unfold Posix.join documented
    rw [if_neg (by decide)]
    rfl
  | components => exact ask_line h8
  | targetsBuilt => exact ask_line h9
  | hostTarget => exact ask_line h10
  | buildMode => exact ask_line h11
  | cppflags => exact f _ (.head _)
  | cflags => exact f _ (.tail _ (.head _))
  | cxxflags => exact f _ (.tail _ (.tail _ (.head _)))
  | ldflags => exact f _ (.tail _ (.tail _ (.tail _ (.head _))))
  | libs => exact f _ (.tail _ (.tail _ (.tail _ (.tail _ (.head _)))))
  | libnames => exact f _ (.tail _ (.tail _ (.tail _ (.tail _ (.tail _ (.head _))))))
  | libfiles => exact f _ (.tail _ (.tail _ (.tail _ (.tail _ (.tail _ (.tail _ (.head _)))))))

/-- **C160** fails: `obj_root` returns the directory of the sources. -/
theorem C160_obj_violated (tool : Tool) (i : Install) (hp : Prints tool i) (before : List (Llvm × List Text)) (cs : List Text)
    (hne : i.objRoot ≠ i.srcRoot) :
    (llvm tool (answers tool before []) .objRoot cs).1 = some i.srcRoot ∧
    (llvm tool (answers tool before []) .objRoot cs).1 ≠ some (documented i cs .objRoot) := by
  have h := C160_llvm_partial tool i hp before .srcRoot (by decide) cs
  have e : (llvm tool (answers tool before []) .objRoot cs).1 = some i.srcRoot := h
  exact ⟨e, fun h' => hne (Option.some.inj (e.symm.trans h')).symm⟩

theorem askCached_known {memo : Memo} {cmd : List Text} {r : Text} (h : memo.lookup cmd = some r) (tool' : Tool) :
    askCached tool' memo cmd = (some r, memo) := by
  unfold askCached
  rw [h]

theorem askCached_lookup {tool : Tool} {memo : Memo} {cmd : List Text} {r : Text} (h : (askCached tool memo cmd).1 = some r) :
    (askCached tool memo cmd).2.lookup cmd = some r := by
  unfold askCached at h ⊢
  split at h
  · rename_i hr; cases h; simpa [hr] using hr
  · rename_i hr
    split at h
    · cases h
    · rename_i hk
      cases h
      simp [hr, hk]

/-- **C160** fails: the answers of `LlvmConfig` are those of the program that was there when the method was called first: after another one was
installed the same call returns the same, whatever that one says. -/
theorem C160_stale_violated (old new : Tool) (memo : Memo) (m : Llvm) (cs : List Text) (r : Text) (h : (llvm old memo m cs).1 = some r) :
    (llvm new (llvm old memo m cs).2 m cs).1 = some r := by
  unfold llvm at h ⊢
  dsimp only at h ⊢
  cases ha : (askCached old memo (m.words cs)).1 with
  | none => rw [ha] at h; split at h <;> cases h
  | some a =>
    rw [askCached_known (askCached_lookup ha) new]
    rw [ha] at h
    exact h

/-- **C160** fails in the same way for the version of a package, by which `require_version` decides. -/
theorem C160_package_violated (old new : Tool) (pkg : Text) (memo : Memo) (r : Text) (h : (modversion old pkg memo).1 = some r) :
    (modversion new pkg (modversion old pkg memo).2).1 = some r := by
  unfold modversion at h ⊢
  rw [askCached_known (askCached_lookup h) new]

/-- **C160**: a method of `SDLConfig` returns what the program that is there says for its option, without the blanks around it. -/
theorem C160_sdl (tool : Tool) (said : Sdl → Text)
    (hp : ∀ m, tool [match m with
      | .version => "--version".toList | .prefix => "--prefix".toList | .execPrefix => "--exec-prefix".toList
      | .cflags => "--cflags".toList | .libs => "--libs".toList | .staticLibs => "--static-libs".toList] = some (said m ++ ['\n']) ∧
      Trimmed (said m)) (m : Sdl) : sdl tool m = some (said m) := by
  have := ask_line (hp m)
  cases m <;> exact this

/-! ## Cases -/

/-- a program that answers with its arguments, in a line -/
def exTool (version : Text) : Tool := fun ws =>
  some ((if ws = ["--version".toList] ∨ ws = ["zlib".toList, "--modversion".toList] then version else ws.flatten) ++ ['\n'])

def exInstall : Install where
  version := "19.1".toList
  pre := "--prefix".toList
  srcRoot := "--src-root".toList
  objRoot := "--obj-root".toList
  bindir := "--bindir".toList
  includedir := "--includedir".toList
  libdir := "--libdir".toList
  components := "--components".toList
  targetsBuilt := "--targets-built".toList
  hostTarget := "--host-target".toList
  buildMode := "--build-mode".toList
  flags o _ := o

/-- for `C160_llvm_partial`: the flags do not depend on components here -/
example : Prints (fun ws => if ws = ["--version".toList] then some "19.1\n".toList else some (ws.headD [] ++ ['\n'])) exInstall := by
  have t : ∀ s : String, s ∈ ["19.1", "--prefix", "--src-root", "--obj-root", "--bindir", "--includedir", "--libdir", "--components",
      "--targets-built", "--host-target", "--build-mode", "--cppflags", "--cflags", "--cxxflags", "--ldflags", "--libs", "--libnames",
      "--libfiles"] → Trimmed s.toList := by
    intro s hs
    have hd : ∀ s ∈ ["19.1", "--prefix", "--src-root", "--obj-root", "--bindir", "--includedir", "--libdir", "--components",
      "--targets-built", "--host-target", "--build-mode", "--cppflags", "--cflags", "--cxxflags", "--ldflags", "--libs", "--libnames",
      "--libfiles"], (s.toList.head?.all fun c => !Small.blank c) = true ∧ (s.toList.getLast?.all fun c => !Small.blank c) = true := by
      decide +kernel
    obtain ⟨h1, h2⟩ := hd s hs
    exact ⟨fun c hc => by rw [hc] at h1; simpa using h1, fun c hc => by rw [hc] at h2; simpa using h2⟩
  refine ⟨⟨by decide +kernel, t _ (by decide)⟩, ⟨by decide +kernel, t _ (by decide)⟩, ⟨by decide +kernel, t _ (by decide)⟩,
    ⟨by decide +kernel, t _ (by decide)⟩, ⟨by decide +kernel, t _ (by decide)⟩, ⟨by decide +kernel, t _ (by decide)⟩,
    ⟨by decide +kernel, t _ (by decide)⟩, ⟨by decide +kernel, t _ (by decide)⟩, ⟨by decide +kernel, t _ (by decide)⟩,
    ⟨by decide +kernel, t _ (by decide)⟩, ⟨by decide +kernel, t _ (by decide)⟩, ?_⟩
  intro o ho cs
  have hv : o ≠ "--version".toList := by
    intro h
    subst h
    revert ho
    decide +kernel
  refine ⟨?_, ?_⟩
  · dsimp only
    rw [if_neg (fun h => hv (List.cons.inj h).1)]
    rfl
  · simp only [List.mem_cons, List.not_mem_nil, or_false] at ho
    rcases ho with rfl | rfl | rfl | rfl | rfl | rfl | rfl <;> exact t _ (by decide)

/-- for `C160_stale_violated`: version 20 is installed, 19 is returned -/
example : (llvm (exTool "19".toList) [] .version []).1 = some "19".toList ∧
    (llvm (exTool "20".toList) (llvm (exTool "19".toList) [] .version []).2 .version []).1 = some "19".toList ∧
    (llvm (exTool "20".toList) [] .version []).1 = some "20".toList := by decide +kernel

/-- for `C160_package_violated` -/
example : (modversion (exTool "1".toList) "zlib".toList []).1 = some "1".toList := by decide +kernel

/-- for `C160_sdl` -/
example : sdl (exTool "2".toList) .staticLibs = some "--static-libs".toList ∧ sdl (exTool "2".toList) .version = some "2".toList := by
  decide +kernel

end Verif.ConfigTools
