import Verif.Gcc.Made
import Verif.Props.GccCommand
/-!
# A compiler that was made accepts its options (C151)
-/
namespace Verif.Gcc.Made

/-! ## Specification -/

variable (g : LibFiles) (limit : Nat) (run : List Text → Except Err Unit) (src : Text)

/-- calling the compiler with these arguments succeeds -/
def Accepts (b : Cc) (a : Args) : Prop := ∃ cmd, command g limit b a = some cmd ∧ run cmd = .ok ()

/-- the call is refused by an exit status -/
def Refuses (b : Cc) (a : Args) : Prop := ∃ cmd, command g limit b a = some cmd ∧ run cmd = .error .status

/-! ## Proofs -/

theorem dedup_all {xs new : List Text} (h : ∀ x ∈ xs, x ∈ new) : dedup xs new = new := by
  induction xs with
  | nil => rfl
  | cons x xs ih =>
    rw [dedup, if_pos (h x (by simp))]
    exact ih fun y hy => h y (by simp [hy])

theorem dedup_append (xs ys new : List Text) : dedup (xs ++ ys) new = dedup ys (dedup xs new) := by
  induction xs generalizing new with
  | nil => rfl
  | cons x xs ih => simp only [List.cons_append, dedup, ih]

theorem mem_dedup (xs new : List Text) (x : Text) : x ∈ dedup xs new ↔ x ∈ xs ∨ x ∈ new := by
  induction xs generalizing new with
  | nil => simp [dedup]
  | cons y ys ih =>
    rw [dedup]
    split <;> rw [ih] <;> grind

theorem dedup_twice (xs : List Text) : dedup (xs ++ xs) [] = dedup (xs ++ []) [] := by
  rw [dedup_append, List.append_nil]
  apply dedup_all
  intro x hx
  exact (mem_dedup xs [] x).2 (Or.inl hx)

theorem same_command (b : Cc) : command g limit b { srcs := [src], flags := b.flags } = command g limit b { srcs := [src] } := by
  have h : ∀ p, wordsBefore b { srcs := [src], flags := b.flags } p = wordsBefore b { srcs := [src] } p := by
    intro p
    simp only [wordsBefore, dedup_twice]
  simp only [command, linkStart, h]

theorem require_ok (asked : Bool) (b : Cc) (flags : List Text) :
    require g limit run src asked b flags = .ok () ↔ (asked = true → Accepts g limit run b { srcs := [src], flags := flags }) := by
  cases asked with
  | false => simp [require]
  | true =>
    simp only [require, checkFlags, if_true, true_implies, Accepts]
    cases hc : command g limit b { srcs := [src], flags := flags } with
    | none => simp
    | some cmd =>
      cases hr : run cmd with
      | ok u => simp [hr]
      | error e => cases e <;> simp [hr]

theorem getD_true (o : Option Bool) : o.getD false = true ↔ o = some true := by
  cases o <;> simp

/-- **C151**: a compiler is made exactly if it accepts its flags, and those for debugging, profiling and optimizing that it is made
with, each beside all other options, and if its version is right. -/
theorem C151_made (b : Cc) (version : Except Exc Unit) :
    construct g limit run src b version = .ok () ↔
      Accepts g limit run b { srcs := [src], flags := b.flags } ∧
      (b.debug = some true → b.debugFlags ≠ [] → Accepts g limit run b { srcs := [src], flags := b.debugFlags }) ∧
      (b.profile = some true → b.profileFlags ≠ [] → Accepts g limit run b { srcs := [src], flags := b.profileFlags }) ∧
      (b.optimize = some true → b.optimizeFlags ≠ [] → Accepts g limit run b { srcs := [src], flags := b.optimizeFlags }) ∧
      version = .ok () := by
  have e : ∀ (o : Option Bool) (fs : List Text), require g limit run src (o.getD false && fs != []) b fs = .ok () ↔
      (o = some true → fs ≠ [] → Accepts g limit run b { srcs := [src], flags := fs }) := by
    intro o fs
    rw [require_ok]
    simp only [Bool.and_eq_true, bne_iff_ne, ne_eq, getD_true, and_imp]
  rw [← e, ← e, ← e]
  have e0 := require_ok g limit run src true b b.flags
  simp only [true_implies] at e0
  rw [← e0]
  unfold construct
  cases require g limit run src true b b.flags with
  | error e => simp
  | ok _ =>
    cases require g limit run src (b.debug.getD false && b.debugFlags != []) b b.debugFlags with
    | error e => simp
    | ok _ =>
      cases require g limit run src (b.profile.getD false && b.profileFlags != []) b b.profileFlags with
      | error e => simp
      | ok _ =>
        cases require g limit run src (b.optimize.getD false && b.optimizeFlags != []) b b.optimizeFlags with
        | error e => simp
        | ok _ => simp

/-- **C151**: a compiler that was made accepts the call without further options, which has all options that it was made with.
Partial: nothing holds of a call that asks for debugging, profiling or optimizing (`C151_call_violated`). -/
theorem C151_default_partial (b : Cc) (version : Except Exc Unit) (h : construct g limit run src b version = .ok ()) :
    ∃ cmd, command g limit b { srcs := [src] } = some cmd ∧ run cmd = .ok () ∧ src ∈ cmd ∧
      (∀ w, w ∈ b.preFlags ∨ w ∈ b.flags ∨ (b.debug = some true ∧ w ∈ b.debugFlags) ∨ (b.profile = some true ∧ w ∈ b.profileFlags) ∨
        (b.optimize = some true ∧ w ∈ b.optimizeFlags) → w ∈ cmd) ∧
      (∀ m ∈ b.macros, "-D".toList ++ m ∈ cmd) ∧ (∀ m ∈ b.warnings, "-W".toList ++ m ∈ cmd) := by
  obtain ⟨cmd, hc, hr⟩ := ((C151_made g limit run src b version).1 h).1
  rw [same_command] at hc
  refine ⟨cmd, hc, hr, ?_⟩
  have key : ∃ p, ∀ w ∈ wordsBefore b { srcs := [src] } p, w ∈ cmd := by
    revert hc
    unfold command
    cases eachLib (visit g limit) (b.libs ++ ({ srcs := [src] } : Args).libs) (linkStart b { srcs := [src] }) with
    | none => simp
    | some s =>
      intro hc
      refine ⟨s.libpaths, ?_⟩
      simp only at hc
      split at hc
      · cases hc; exact fun _ h => h
      · cases hc
        intro w hw
        simp only [List.mem_append, hw, true_or]
  obtain ⟨p, hp⟩ := key
  have hset : ∀ (l : List Text) (m : Text), m ∈ l → m ∈ sortedSet [] l := by
    intro l m hm
    exact ((sortedSet_spec [] l).2 m).2 (Or.inr hm)
  refine ⟨hp _ ?_, ?_, ?_, ?_⟩
  · simp [wordsBefore]
  · intro w hw
    apply hp
    simp only [wordsBefore, List.mem_append, mem_dedup]
    have hask : ∀ o : Option Bool, o = some true → asked o none = true := by rintro _ rfl; rfl
    rcases hw with hw | hw | ⟨h1, hw⟩ | ⟨h1, hw⟩ | ⟨h1, hw⟩
    · simp [hw]
    · simp [hw]
    · simp [hw, hask _ h1]
    · simp [hw, hask _ h1]
    · simp [hw, hask _ h1]
  · intro m hm
    apply hp
    have : "-D".toList ++ m ∈ (sortedSet [] b.macros).map ("-D".toList ++ ·) := List.mem_map.2 ⟨m, hset _ _ hm, rfl⟩
    simp only [wordsBefore, List.mem_append, this, true_or, or_true]
  · intro m hm
    apply hp
    have : "-W".toList ++ m ∈ (sortedSet [] b.warnings).map ("-W".toList ++ ·) := List.mem_map.2 ⟨m, hset _ _ hm, rfl⟩
    simp only [wordsBefore, List.mem_append, this, true_or, or_true]

/-- **C151**: a compiler or a linker with flags of its own is made exactly if these are accepted beside all other options. -/
theorem C151_flags (b : Cc) (flags : List Text) :
    (constructWith g limit run src b flags = .ok () ↔
      (flags ≠ [] → Accepts g limit run b { srcs := [src], flags := flags })) ∧
    (flags ≠ [] → Refuses g limit run b { srcs := [src], flags := flags } →
      constructWith g limit run src b flags = .error .configFailed) := by
  constructor
  · rw [constructWith, require_ok]
    simp only [bne_iff_ne, ne_eq]
  · intro hne ⟨cmd, hc, hr⟩
    have : (flags != []) = true := by simpa using hne
    simp only [constructWith, require, checkFlags, hc, hr, this, if_true]

/-- **C151**: if a compiler only fails by an exit status, and the libraries are not nested too deep, then one that does not accept
its options is refused with `ConfigFailed`, so that the next one can be tried. -/
theorem C151_refused (b : Cc) (version : Except Exc Unit) (hr : ∀ cmd n, run cmd ≠ .error (.other n))
    (hl : ∀ flags, (command g limit b { srcs := [src], flags := flags }).isSome)
    (hv : version = .ok () ∨ version = .error .configFailed) (h : construct g limit run src b version ≠ .ok ()) :
    construct g limit run src b version = .error .configFailed := by
  have one : ∀ asked flags, require g limit run src asked b flags = .ok () ∨
      require g limit run src asked b flags = .error .configFailed := by
    intro asked flags
    obtain ⟨cmd, hc⟩ := Option.isSome_iff_exists.1 (hl flags)
    cases asked with
    | false => exact Or.inl rfl
    | true =>
      cases hx : run cmd with
      | ok u => left; simp [require, checkFlags, hc, hx]
      | error e =>
        cases e with
        | status => right; simp [require, checkFlags, hc, hx]
        | other n => exact absurd hx (hr cmd n)
  revert h
  unfold construct
  rcases one true b.flags with e | e <;> rw [e]
  · rcases one (b.debug.getD false && b.debugFlags != []) b.debugFlags with e | e <;> simp only [e]
    · rcases one (b.profile.getD false && b.profileFlags != []) b.profileFlags with e | e <;> simp only [e]
      · rcases one (b.optimize.getD false && b.optimizeFlags != []) b.optimizeFlags with e | e <;> simp only [e]
        · rcases hv with rfl | rfl
          · exact fun h => absurd rfl h
          · exact fun _ => rfl
        · simp
      · simp
    · simp
  · exact fun _ => rfl

/-! ## Violations and examples -/

def exLibs : LibFiles := ⟨fun _ => [], fun _ => false, fun _ => [], fun _ => [], fun _ => []⟩

/-- a compiler that does not know these words -/
def exRun (unknown : List Text) (cmd : List Text) : Except Err Unit := if cmd.any (· ∈ unknown) then .error .status else .ok ()

/-- **C151** is false for what is asked for in a call: a compiler that cannot optimize is taken, and fails in each call with
`optimize=True`. -/
theorem C151_call_violated :
    let b : Cc := { exe := "cc".toList }
    let run := exRun ["-O2".toList]
    construct exLibs 5 run "t.c".toList b (.ok ()) = .ok () ∧
    Refuses exLibs 5 run b { srcs := ["t.c".toList], optimize := some true } := by
  refine ⟨?_, ?_⟩
  · have e : command exLibs 5 { exe := "cc".toList } { srcs := ["t.c".toList], flags := [] } = some ["cc".toList, "t.c".toList] := by
      decide +kernel
    have r : exRun ["-O2".toList] ["cc".toList, "t.c".toList] = .ok () := by
      unfold exRun
      rw [if_neg (by decide +kernel)]
    simp only [construct, require, checkFlags, e, r, if_true]
    rfl
  · refine ⟨["cc".toList, "-O2".toList, "t.c".toList], by decide +kernel, ?_⟩
    unfold exRun
    rw [if_pos (by decide +kernel)]

/-- hypotheses met: a compiler that knows `-g` and not `-pg` -/
example :
    let run := exRun ["-pg".toList]
    Accepts exLibs 5 run { exe := "cc".toList, flags := ["-w".toList], debug := some true } { srcs := ["t.c".toList], flags := ["-g".toList] } ∧
    Refuses exLibs 5 run { exe := "cc".toList, profile := some true } { srcs := ["t.c".toList], flags := ["-w".toList] } ∧
    (∀ cmd n, run cmd ≠ .error (.other n)) := by
  refine ⟨⟨["cc".toList, "-g".toList, "-w".toList, "-g".toList, "t.c".toList], by decide +kernel, ?_⟩,
    ⟨["cc".toList, "-pg".toList, "-w".toList, "t.c".toList], by decide +kernel, ?_⟩, ?_⟩
  · unfold exRun; rw [if_neg (by decide +kernel)]
  · unfold exRun; rw [if_pos (by decide +kernel)]
  · intro cmd n h
    simp only [exRun] at h
    split at h <;> cases h

example : ∀ flags, (command exLibs 5 { exe := "cc".toList } { srcs := ["t.c".toList], flags := flags }).isSome := by
  intro flags
  simp only [command, List.append_nil, eachLib]
  split <;> rfl

end Verif.Gcc.Made
