import Verif.Config.Equal
/-!
# Tests that are equal test the same

C166.
-/
namespace Verif.Config.Equal
open Verif.Config.Results (Ty tyEq)

/-! ## Specification -/

/-- a type that is given as text -/
def Plain (t : Ty) : Prop := ∃ s, t = .text s

/-- no type is a `Function` object, and it is no test of a template -/
def Simple : Kind → Prop
  | .function r as _ => Plain r ∧ ∀ t ∈ as, Plain t
  | .template _ => False
  | _ => True

/-! ## Proofs -/

theorem tyEq_true {t u : Ty} (h : tyEq t u = some true) : t = u := by
  cases t with
  | text a =>
    cases u with
    | text b =>
      simp only [tyEq, Option.some.injEq, decide_eq_true_eq] at h
      rw [h]
    | function r as => simp [tyEq] at h
  | function r as =>
    cases u with
    | text b => simp [tyEq] at h
    | function r' as' =>
      simp only [tyEq] at h
      split at h <;> cases h

theorem argsEq_true {ts us : List Ty} (h : argsEq ts us = some true) : ts = us := by
  induction ts generalizing us with
  | nil =>
    cases us with
    | nil => rfl
    | cons u us => simp [argsEq] at h
  | cons t ts ih =>
    cases us with
    | nil => simp [argsEq] at h
    | cons u us =>
      simp only [argsEq] at h
      split at h
      · cases h
      · cases h
      · rename_i e
        rw [tyEq_true e, ih h]

theorem argsEq_refl {ts : List Ty} (h : ∀ t ∈ ts, Plain t) : argsEq ts ts = some true := by
  induction ts with
  | nil => rfl
  | cons t ts ih =>
    obtain ⟨s, rfl⟩ := h t (by simp)
    simp only [argsEq, tyEq, decide_true]
    exact ih fun u hu => h u (by simp [hu])

theorem argsEq_plain {ts us : List Ty} (h : ∀ t ∈ ts, Plain t) : argsEq ts us ≠ none := by
  induction ts generalizing us with
  | nil => cases us <;> simp [argsEq]
  | cons t ts ih =>
    obtain ⟨s, rfl⟩ := h t (by simp)
    cases us with
    | nil => simp [argsEq]
    | cons u us =>
      have ih' := ih (us := us) fun u hu => h u (by simp [hu])
      cases u with
      | text s' => simp only [argsEq, tyEq]; cases decide (s = s') <;> simp [ih']
      | function r as => simp [argsEq, tyEq]

theorem baseEq_iff (a b : Test) : baseEq a b = true ↔ a.kind.cls = b.kind.cls ∧ a.key = b.key ∧ a.name = b.name ∧ a.test = b.test ∧
    a.stdin = b.stdin ∧ a.stdout = b.stdout ∧ a.timeout = b.timeout := by
  simp only [baseEq, Bool.and_eq_true, decide_eq_true_eq, and_assoc]

theorem ownEq_true {k l : Kind} (hk : ∀ ts, k ≠ .template ts) (hc : k.cls = l.cls) (h : ownEq k l = some true) : k = l := by
  cases k <;> cases l <;> first
    | rfl
    | (exfalso; cases hc; done)
    | skip
  case header.header => simpa [ownEq] using h
  case struct.struct => simpa [ownEq] using h
  case cxxStruct.cxxStruct => simpa [ownEq] using h
  case template.template ts _ => exact absurd rfl (hk ts)
  case function.function r as d r' as' d' =>
    simp only [ownEq] at h
    split at h
    · cases h
    · cases h
    · rename_i e1
      split at h
      · cases h
      · cases h
      · rename_i e2
        simp only [Option.some.injEq, decide_eq_true_eq] at h
        rw [tyEq_true e1, argsEq_true e2, h]

/-- **C166**: tests are equal exactly if they agree in all that they were made with, so that they run the same program and expect the same.
Partial: not for templates (`C166_template_violated`), and not with types that are `Function` objects (`C166_function_violated`). -/
theorem C166_equal_partial (a b : Test) (ha : Simple a.kind) : (eq a b = some true ↔ a = b) ∧ (eq a b = some false ↔ a ≠ b) := by
  have h1 : eq a b = some true ↔ a = b := by
    constructor
    · intro h
      unfold eq at h
      split at h
      · rename_i hb
        obtain ⟨e1, e2, e3, e4, e5, e6, e7⟩ := (baseEq_iff a b).1 hb
        have hk : ∀ ts, a.kind ≠ .template ts := by
          intro ts e
          rw [e] at ha
          exact ha
        have e0 := ownEq_true hk e1 h
        cases a
        cases b
        simp_all
      · cases h
    · rintro rfl
      unfold eq
      rw [if_pos ((baseEq_iff a a).2 ⟨rfl, rfl, rfl, rfl, rfl, rfl, rfl⟩)]
      cases hk : a.kind with
      | function r as d =>
        rw [hk] at ha
        obtain ⟨⟨s, rfl⟩, has⟩ := ha
        simp [ownEq, tyEq, argsEq_refl has]
      | _ => simp [ownEq]
  have h2 : eq a b ≠ none := by
    unfold eq
    split
    · cases hk : a.kind with
      | function r as d =>
        rw [hk] at ha
        obtain ⟨⟨s, rfl⟩, has⟩ := ha
        cases hl : b.kind with
        | function r' as' d' =>
          have hp := argsEq_plain (us := as') has
          cases r' with
          | text s' =>
            cases hx : argsEq as as' with
            | none => exact absurd hx hp
            | some x => cases hd : decide (s = s') <;> cases x <;> simp [ownEq, tyEq, hx, hd]
          | function r'' as'' => simp [ownEq, tyEq]
        | _ => simp [ownEq]
      | _ => cases b.kind <;> simp [ownEq]
    · simp
  refine ⟨h1, ?_⟩
  rw [Ne, ← h1]
  cases hx : eq a b with
  | none => exact absurd hx h2
  | some x => cases x <;> simp

/-- **C166**: tests that are equal have the same hash, or have none. -/
theorem C166_hash (a b : Test) (h : eq a b = some true) : hashed a = hashed b := by
  unfold eq at h
  split at h
  · rename_i hb
    obtain ⟨e1, e2, e3, e4, e5, e6, e7⟩ := (baseEq_iff a b).1 hb
    have hbase : baseHashed a = baseHashed b := by
      unfold baseHashed
      rw [e1, e2, e3, e4, e5, e6, e7]
    by_cases hk : ∀ ts, a.kind ≠ .template ts
    · have e0 := ownEq_true hk e1 h
      unfold hashed
      rw [hbase, e0]
    · have ⟨ts, ht⟩ : ∃ ts, a.kind = .template ts := Classical.byContradiction fun hn => hk fun ts e => hn ⟨ts, e⟩
      rw [ht] at e1
      have hl : ∃ us, b.kind = .template us := by
        cases hl : b.kind with
        | template us => exact ⟨us, rfl⟩
        | _ =>
          rw [hl] at e1
          cases e1
      obtain ⟨us, hu⟩ := hl
      unfold hashed
      rw [ht, hu, hbase]
  · cases h

/-- **C166** is false for templates: the types that the template is tested with are not compared, so that tests with different programs are
equal, whatever the types are. -/
theorem C166_template_violated (ts us : List Text) (t : Test) : eq { t with kind := .template ts } { t with kind := .template us } = some true ∧
    (templateProgram none "set".toList ["int".toList] ≠ templateProgram none "set".toList ["int".toList, "cmp".toList]) := by
  constructor
  · unfold eq
    have hb : baseEq { t with kind := .template ts } { t with kind := .template us } = true :=
      (baseEq_iff _ _).2 ⟨rfl, rfl, rfl, rfl, rfl, rfl, rfl⟩
    rw [if_pos hb]
    rfl
  · decide +kernel

/-- **C166** is false for types that are `Function` objects: comparing a test with itself raises an `AttributeError`. -/
theorem C166_function_violated (s name : Text) :
    let t : Test := { kind := .function (.text s) [.function (.text s) [.text s]] .none, name := some name }
    eq t t = none := by
  intro t
  unfold eq
  rw [if_pos ((baseEq_iff t t).2 ⟨rfl, rfl, rfl, rfl, rfl, rfl, rfl⟩)]
  simp [t, ownEq, argsEq, tyEq]

/-- **C166** is false for `default_args` that are a list: they are taken, but such a test has no hash. -/
theorem C166_list_violated (r : Ty) (args : List Ty) (ds : List Default) (t : Test) :
    hashed { t with kind := .function r args (.list ds) } = none := rfl

/-- hypotheses met -/
example : Simple (.function (.text "int".toList) [.text "const char*".toList] (.tuple [.int 4])) ∧
    eq { kind := .function (.text "int".toList) [.text "int".toList] (.tuple [.int 4]), name := some "f".toList }
      { kind := .function (.text "int".toList) [.text "int".toList] (.tuple [.text "4".toList]), name := some "f".toList } = some false ∧
    eq { kind := .struct [] } { kind := .cxxStruct [] } = some false := by
  refine ⟨⟨⟨_, rfl⟩, ?_⟩, by decide +kernel, by decide +kernel⟩
  intro t ht
  simp only [List.mem_singleton] at ht
  exact ⟨_, ht⟩

end Verif.Config.Equal
