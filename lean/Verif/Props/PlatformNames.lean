import Verif.Platform.Names
import Verif.Props.PlatformGuess
import Verif.Props.GccFactory
/-!
# C157: what libraries and programs are called, and where libraries are searched for

The specification gives for each kind of system the names that its tools expect.
-/
namespace Verif.Platform.Names
open Verif.Gcc
open Verif.Platform.Guess (guess System archmap)

/-! ## Specification -/

/-- kinds of systems -/
inductive Os | unix | mac | windows | mingw | cygwin
  deriving DecidableEq

/-- the kind of system that a platform stands for -/
def Os.Is (p : List Text) : Os → Prop
  | .mingw => "mingw".toList ∈ p
  | .cygwin => "cygwin".toList ∈ p
  | .windows => "windows".toList ∈ p ∧ "posix".toList ∉ p
  | .mac => "darwin".toList ∈ p
  | .unix => "posix".toList ∈ p ∧ "darwin".toList ∉ p ∧ "windows".toList ∉ p

/-- a static library called `n` -/
def Os.static (n : Text) : Os → Text
  | .unix | .mac | .mingw => "lib".toList ++ n ++ ".a".toList
  | .windows | .cygwin => n ++ ".lib".toList

/-- a shared library called `n` -/
def Os.shared (n : Text) : Os → Text
  | .unix => "lib".toList ++ n ++ ".so".toList
  | .mac => "lib".toList ++ n ++ ".dylib".toList
  | .windows | .mingw | .cygwin => n ++ ".dll".toList

/-- a program called `n` -/
def Os.program (n : Text) : Os → Text
  | .unix | .mac => n
  | .windows | .mingw | .cygwin => n ++ ".exe".toList

/-- the files that the linker of the system looks for when it is told `-ln` (or `n.lib`, for Microsoft's); for MinGW and Cygwin see
the manual of `ld` -/
def Os.looksFor (n : Text) : Os → List Text
  | .unix => ["lib".toList ++ n ++ ".so".toList, "lib".toList ++ n ++ ".a".toList]
  | .mac => ["lib".toList ++ n ++ ".dylib".toList, "lib".toList ++ n ++ ".a".toList]
  | .windows => [n ++ ".lib".toList]
  | .mingw | .cygwin => ["lib".toList ++ n ++ ".dll.a".toList, n ++ ".dll.a".toList, "lib".toList ++ n ++ ".a".toList,
      n ++ ".lib".toList, "lib".toList ++ n ++ ".lib".toList, "lib".toList ++ n ++ ".dll".toList, n ++ ".dll".toList]

/-- the variable in which the system is told where shared libraries are when a program is started -/
def Os.variable : Os → Text
  | .unix => "LD_LIBRARY_PATH".toList
  | .mac => "DYLD_LIBRARY_PATH".toList
  | .windows | .mingw | .cygwin => "PATH".toList

/-- The platform is the one that is given; if none is, that of the system. -/
inductive Chosen (s : System) : Option (List Text) → List Text → Prop
  | given {arch p} : guess s (some arch) = .platform p → Chosen s (some p) p
  | none {p} : guess s none = .platform p → Chosen s none p
  | empty {p} : guess s none = .platform p → Chosen s (some []) p

/-! ## Proofs -/

theorem chosen_eq {s : System} {o : Option (List Text)} {p g : List Text} (h : Chosen s o p) (hg : guess s none = .platform g) :
    chosen g o = p ∧ ∃ a, (a, p) ∈ archmap := by
  cases h with
  | given h =>
    obtain ⟨a, ha⟩ := Guess.guess_table h
    refine ⟨?_, a, ha⟩
    have key : ∀ x ∈ archmap, x.2 ≠ [] := by decide +kernel
    have := key _ ha
    cases p with
    | nil => exact absurd rfl this
    | cons x xs => rfl
  | none h => rw [hg] at h; cases h; exact ⟨rfl, Guess.guess_table hg⟩
  | empty h => rw [hg] at h; cases h; exact ⟨rfl, Guess.guess_table hg⟩

/-- what the names in a platform say about the kind of system -/
def isWin : Os → Bool
  | .unix | .mac => false
  | _ => true
def isMingw : Os → Bool
  | .mingw => true
  | _ => false
def isCygwin : Os → Bool
  | .cygwin => true
  | _ => false
def isMac : Os → Bool
  | .mac => true
  | _ => false

def rows (p : List Text) : Bool :=
  (!has p "mingw" || has p "windows" && has p "posix" && !has p "cygwin" && !has p "darwin") &&
  (!has p "cygwin" || has p "windows" && has p "posix" && !has p "mingw" && !has p "darwin") &&
  (!has p "darwin" || !has p "windows" && has p "posix")

theorem has_iff (p : List Text) (n : String) : n.toList ∈ p ↔ has p n = true := by simp [has]

theorem table {p : List Text} (h : ∃ a, (a, p) ∈ archmap) (k : Os) (hk : k.Is p) :
    has p "windows" = isWin k ∧ has p "mingw" = isMingw k ∧ has p "cygwin" = isCygwin k ∧ has p "darwin" = isMac k := by
  obtain ⟨a, ha⟩ := h
  have key : ∀ x ∈ archmap, rows x.2 = true := by decide +kernel
  have h1 : rows p = true := key (a, p) ha
  unfold rows at h1
  cases k <;> simp only [Os.Is, has_iff] at hk <;> generalize has p "windows" = w at * <;> generalize has p "mingw" = m at * <;>
    generalize has p "cygwin" = c at * <;> generalize has p "darwin" = d at * <;> generalize has p "posix" = q at * <;>
    revert h1 hk <;> simp only [isWin, isMingw, isCygwin, isMac] <;> revert w m c d q <;> decide

/-! ## C157 -/

/-- **C157**: on every system that is known, the files of libraries and programs have the names that are usual there. -/
theorem C157_names (s : System) (o : Option (List Text)) (p g : List Text) (h : Chosen s o p) (hg : guess s none = .platform g)
    (k : Os) (hk : k.Is p) (root dst : Text) :
    Posix.tail (staticLib g o root dst) = k.static (Posix.tail dst) ∧
    Posix.tail (sharedLib g o root dst) = k.shared (Posix.tail dst) ∧
    Posix.tail (program g o root dst) = k.program (Posix.tail dst) := by
  obtain ⟨h1, h2⟩ := chosen_eq h hg
  obtain ⟨w, m, c, d⟩ := table h2 k hk
  unfold staticLib sharedLib program
  rw [h1]
  refine ⟨?_, ?_, ?_⟩
  · rw [Factory.tail_linked]
    · unfold staticLibPrefix staticLibSuffix; rw [w, m]; cases k <;> simp [isWin, isMingw, isCygwin, isMac, Os.static]
    · unfold staticLibPrefix; rw [w, m]; cases k <;> simp [isWin, isMingw, isCygwin, isMac]
    · unfold staticLibSuffix; rw [w, m]; cases k <;> simp [isWin, isMingw, isCygwin, isMac]
  · rw [Factory.tail_linked]
    · unfold sharedLibPrefix sharedLibSuffix; rw [w, m, c, d]; cases k <;> simp [isWin, isMingw, isCygwin, isMac, Os.shared]
    · unfold sharedLibPrefix; rw [w, m, c]; cases k <;> simp [isWin, isMingw, isCygwin, isMac]
    · unfold sharedLibSuffix; rw [w, m, c, d]; cases k <;> simp [isWin, isMingw, isCygwin, isMac]
  · rw [Factory.tail_linked]
    · unfold exeSuffix; rw [w]; cases k <;> simp [isWin, isMingw, isCygwin, isMac, Os.program]
    · simp
    · unfold exeSuffix; rw [w]; cases k <;> simp [isWin, isMingw, isCygwin, isMac]

/-- **C157**: every platform that is guessed or made from a name is of one of the kinds, and of no other. -/
theorem C157_kind (s : System) (o : Option (List Text)) (p g : List Text) (h : Chosen s o p) (hg : guess s none = .platform g) :
    (∃ k : Os, k.Is p) ∧ ∀ k k' : Os, k.Is p → k'.Is p → k = k' := by
  obtain ⟨_, h2⟩ := chosen_eq h hg
  constructor
  · obtain ⟨a, ha⟩ := h2
    have key : ∀ x ∈ archmap, "mingw".toList ∈ x.2 ∨ "cygwin".toList ∈ x.2 ∨ ("windows".toList ∈ x.2 ∧ "posix".toList ∉ x.2) ∨
      "darwin".toList ∈ x.2 ∨ ("posix".toList ∈ x.2 ∧ "darwin".toList ∉ x.2 ∧ "windows".toList ∉ x.2) := by decide +kernel
    rcases key _ ha with h | h | h | h | h
    · exact ⟨.mingw, h⟩
    · exact ⟨.cygwin, h⟩
    · exact ⟨.windows, h⟩
    · exact ⟨.mac, h⟩
    · exact ⟨.unix, h⟩
  · intro k k' hk hk'
    have t1 := table h2 k hk
    have t2 := table h2 k' hk'
    obtain ⟨w, m, c, d⟩ := t1
    rw [w, m, c, d] at t2
    revert t2
    clear w m c d hk hk'
    cases k <;> cases k' <;> first | (intro _; rfl) | (intro h; exact absurd h (by decide))

/-- **C157**: a library that was built, static or shared, is among the files that the linker looks for when it is asked for the
library by its name; with Microsoft's linker only the static one is. -/
theorem C157_found (s : System) (o : Option (List Text)) (p g : List Text) (h : Chosen s o p) (hg : guess s none = .platform g)
    (k : Os) (hk : k.Is p) (root dst : Text) :
    Posix.tail (staticLib g o root dst) ∈ k.looksFor (Posix.tail dst) ∧
    (k ≠ .windows → Posix.tail (sharedLib g o root dst) ∈ k.looksFor (Posix.tail dst)) := by
  obtain ⟨h1, h2, _⟩ := C157_names s o p g h hg k hk root dst
  rw [h1, h2]
  cases k with
  | unix => exact ⟨.tail _ (.head _), fun _ => .head _⟩
  | mac => exact ⟨.tail _ (.head _), fun _ => .head _⟩
  | windows => exact ⟨.head _, fun h => absurd rfl h⟩
  | mingw => exact ⟨.tail _ (.tail _ (.head _)), fun _ => .tail _ (.tail _ (.tail _ (.tail _ (.tail _ (.tail _ (.head _))))))⟩
  | cygwin =>
    exact ⟨.tail _ (.tail _ (.tail _ (.head _))), fun _ => .tail _ (.tail _ (.tail _ (.tail _ (.tail _ (.tail _ (.head _))))))⟩

/-- **C157** (partial).  Except on Cygwin, the directories of libraries are given to a command in the variable that the system looks
at when it starts a program. -/
theorem C157_variable_partial (s : System) (o : Option (List Text)) (p g : List Text) (h : Chosen s o p)
    (hg : guess s none = .platform g) (k : Os) (hk : k.Is p) (hc : k ≠ .cygwin) : runtimeEnvLibpath g o = k.variable := by
  obtain ⟨h1, h2⟩ := chosen_eq h hg
  obtain ⟨w, m, c, d⟩ := table h2 k hk
  unfold runtimeEnvLibpath
  rw [h1]
  simp only [w, c, d]
  clear h hg h1 h2 w m c d hk
  cases k with
  | cygwin => exact absurd rfl hc
  | _ => rfl

/-- **C157 is violated**: on Cygwin it is never the variable that Windows looks at. -/
theorem C157_variable_violated (s : System) (o : Option (List Text)) (p g : List Text) (h : Chosen s o p)
    (hg : guess s none = .platform g) (hk : Os.cygwin.Is p) : runtimeEnvLibpath g o ≠ Os.cygwin.variable := by
  obtain ⟨h1, h2⟩ := chosen_eq h hg
  obtain ⟨w, m, c, d⟩ := table h2 _ hk
  unfold runtimeEnvLibpath
  rw [h1]
  simp only [w, c, d]
  decide

/-! ## Cases -/
namespace Ex

def cygwin : System := ⟨false, "CYGWIN_NT-6.1".toList, .prints "CYGWIN_NT-6.1\n".toList⟩
def linux : System := ⟨false, "Linux".toList, .prints "Linux\n".toList⟩

theorem guess_linux : guess linux none = .platform ["posix".toList, "linux".toList] := by decide +kernel
theorem guess_cygwin : guess cygwin none = .platform ["posix".toList, "cygwin".toList, "windows".toList] := by decide +kernel

end Ex

open Ex in
/-- the hypotheses are met: on Linux, for itself and for MinGW -/
example : Posix.tail (sharedLib ["posix".toList, "linux".toList] none "build".toList "src/m".toList) = "libm.so".toList ∧
    Posix.tail (sharedLib ["posix".toList, "linux".toList] (some ["posix".toList, "mingw".toList, "windows".toList])
      "build".toList "src/m".toList) = "m.dll".toList ∧
    runtimeEnvLibpath ["posix".toList, "linux".toList] none = "LD_LIBRARY_PATH".toList :=
  ⟨(C157_names linux none _ _ (.none guess_linux) guess_linux .unix (by simp only [Os.Is]; decide +kernel) _ _).2.1.trans
      (by decide +kernel),
   (C157_names linux (some ["posix".toList, "mingw".toList, "windows".toList]) _ _ (.given (arch := "mingw".toList)
      (by decide +kernel)) guess_linux .mingw (by simp only [Os.Is]; decide +kernel) _ _).2.1.trans (by decide +kernel),
   C157_variable_partial linux none _ _ (.none guess_linux) guess_linux .unix (by simp only [Os.Is]; decide +kernel) (by simp)⟩

open Ex in
example : runtimeEnvLibpath ["posix".toList, "cygwin".toList, "windows".toList] none ≠ "PATH".toList :=
  C157_variable_violated cygwin none _ _ (.none guess_cygwin) guess_cygwin (by simp only [Os.Is]; decide +kernel)

end Verif.Platform.Names
