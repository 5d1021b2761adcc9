import Verif.Functools.Import
/-!
# Functions that are given by name

C167.
-/
namespace Verif.Functools.Import

/-! ## Specification -/

/-- `name` is the dotted name of the function `f` in the module `m`, which may be in packages -/
def Names {V : Type} (ms : Modules V) (name : Text) (f : V) : Prop :=
  ∃ m func module, name = m ++ '.' :: func ∧ m ≠ [] ∧ '.' ∉ func ∧ ms m = some module ∧ module func = some f

/-! ## Proofs -/

theorem rsplit_none {s : Text} (h : '.' ∉ s) : rsplit s = none := by
  induction s with
  | nil => rfl
  | cons c s ih =>
    simp only [List.mem_cons, not_or] at h
    rw [rsplit, ih h.2]
    exact if_neg fun e => h.1 e.symm

theorem rsplit_dot (m f : Text) (h : '.' ∉ f) : rsplit (m ++ '.' :: f) = some (m, f) := by
  induction m with
  | nil =>
    rw [List.nil_append, rsplit, rsplit_none h]
    exact if_pos rfl
  | cons c m ih => rw [List.cons_append, rsplit, ih]

theorem rsplit_some {s m f : Text} (h : rsplit s = some (m, f)) : s = m ++ '.' :: f ∧ '.' ∉ f := by
  induction s generalizing m with
  | nil => cases h
  | cons c s ih =>
    rw [rsplit] at h
    cases hr : rsplit s with
    | some p =>
      obtain ⟨a, b⟩ := p
      rw [hr] at h
      cases h
      obtain ⟨e1, e2⟩ := ih hr
      exact ⟨by rw [e1]; rfl, e2⟩
    | none =>
      rw [hr] at h
      dsimp only at h
      split at h
      · rename_i hc
        cases h
        subst hc
        refine ⟨rfl, ?_⟩
        intro hm
        obtain ⟨a, b, rfl⟩ := List.append_of_mem hm
        by_cases hb : '.' ∈ b
        · exact absurd hr (by
            have : ∀ (x : Text), '.' ∈ x → rsplit x ≠ none := by
              intro x hx
              induction x with
              | nil => cases hx
              | cons d x ihx =>
                rw [rsplit]
                cases hrx : rsplit x with
                | some q => simp
                | none =>
                  simp only [List.mem_cons] at hx
                  rcases hx with e | hx
                  · simp [← e]
                  · exact absurd hrx (ihx hx)
            exact this _ (by simp))
        · rw [rsplit_dot a b hb] at hr
          cases hr
      · cases h

/-- **C167**: a function that is given by its dotted name is the function with this name in the module, also in packages, and nothing else
is. -/
theorem C167_function {V : Type} (ms : Modules V) (name : Text) (f : V) : importFunction ms (.name name) = .ok f ↔ Names ms name f := by
  constructor
  · intro h
    unfold importFunction at h
    dsimp only at h
    cases hs : rsplit name with
    | none => rw [hs] at h; cases h
    | some p =>
      obtain ⟨m, func⟩ := p
      obtain ⟨e1, e2⟩ := rsplit_some hs
      rw [hs] at h
      dsimp only at h
      unfold pyImport at h
      by_cases hm : m = []
      · rw [if_pos hm] at h
        cases h
      · rw [if_neg hm] at h
        cases hx : ms m with
        | none => rw [hx] at h; cases h
        | some module =>
          rw [hx] at h
          dsimp only at h
          rw [if_pos (by simp)] at h
          dsimp only at h
          unfold getattr at h
          cases hf : module func with
          | none => rw [hf] at h; cases h
          | some v =>
            rw [hf] at h
            cases h
            exact ⟨m, func, module, e1, hm, e2, hx, hf⟩
  · rintro ⟨m, func, module, rfl, hm, hd, hx, hf⟩
    unfold importFunction
    dsimp only
    rw [rsplit_dot m func hd]
    dsimp only
    unfold pyImport
    rw [if_neg hm, hx]
    dsimp only
    rw [if_pos (by simp)]
    dsimp only
    unfold getattr
    rw [hf]

/-- **C167**: a module that is given by its name is that module, not the package that it is in; what is not a name is taken as it is. -/
theorem C167_module {V : Type} (ms : Modules V) (name : Text) (hn : name ≠ []) :
    (∀ m, importModule ms (.name name) = .ok m ↔ ms name = some m) ∧ (∀ m, importModule ms (.itself m) = .ok m) ∧
    (∀ f, importFunction ms (.itself f) = .ok f) := by
  refine ⟨?_, fun _ => rfl, fun _ => rfl⟩
  intro m
  unfold importModule pyImport
  dsimp only
  rw [if_neg hn]
  cases ms name with
  | none => simp
  | some x => simp

/-- **C167**: `call` gives what the function gives for the arguments. -/
theorem C167_call {A R : Type} (ms : Modules (A → R)) (name : Text) (f : A → R) (args : A) (h : Names ms name f) :
    call ms (.name name) args = .ok (f args) ∧ call ms (.itself f) args = .ok (f args) := by
  constructor
  · unfold call
    rw [(C167_function ms name f).2 h]
  · rfl

/-- **C167**: a name that is not found is told by an exception: `ValueError` if there is no dot in it, `ImportError` if there is no such module
and `AttributeError` if the module has no such function. -/
theorem C167_missing {V : Type} (ms : Modules V) :
    (∀ name, '.' ∉ name → importFunction ms (.name name) = .valueError) ∧
    (∀ m func, m ≠ [] → '.' ∉ func → ms m = none → importFunction ms (.name (m ++ '.' :: func)) = .importError) ∧
    (∀ m func module, m ≠ [] → '.' ∉ func → ms m = some module → module func = none →
      importFunction ms (.name (m ++ '.' :: func)) = .attributeError) := by
  refine ⟨?_, ?_, ?_⟩
  · intro name h
    unfold importFunction
    dsimp only
    rw [rsplit_none h]
  · intro m func hm hd hx
    unfold importFunction
    dsimp only
    rw [rsplit_dot m func hd]
    dsimp only
    unfold pyImport
    rw [if_neg hm, hx]
  · intro m func module hm hd hx hf
    unfold importFunction
    dsimp only
    rw [rsplit_dot m func hd]
    dsimp only
    unfold pyImport
    rw [if_neg hm, hx]
    dsimp only
    rw [if_pos (by simp)]
    dsimp only
    unfold getattr
    rw [hf]

/-! ## An instance -/

/-- a package and a module in it, which define different functions with one name -/
def exModules : Modules (Nat → Nat) := fun name =>
  if name = "os".toList then some fun f => if f = "f".toList then some (· + 1) else none
  else if name = "os.path".toList then some fun f => if f = "f".toList then some (· + 2) else none
  else none

example : Names exModules "os.path.f".toList (· + 2) :=
  ⟨"os.path".toList, "f".toList, _, by decide +kernel, by decide +kernel, by decide +kernel, rfl, rfl⟩

example : call exModules (.name "os.path.f".toList) 5 = .ok 7 ∧ call exModules (.name "os.f".toList) 5 = .ok 6 ∧
    call exModules (.name "f".toList) 5 = .valueError ∧ call exModules (.name "os.path.g".toList) 5 = .attributeError := by
  decide +kernel

end Verif.Functools.Import
