import Verif.Config.Names
import Verif.Props.Naming
/-!
# C79: which configuration test a stored result belongs to
-/
namespace Verif.Config
open Verif.Naming Verif.DB

/-- **C79** within one script: if the definitions can be told apart (`Tidy`), two tests with the same name in the
database test for the same. -/
theorem C79_same_partial {P : List Def} (ht : Tidy P) (callText : String) (code : Desc → Nat)
    {c c' : Naming.Cls} {key key' : String} {d d' : Desc} (hcode : code d = code d' → d = d')
    (h : Available P (.method c (testFn callText key code d)))
    (h' : Available P (.method c' (testFn callText key' code d')))
    (hn : nameOf (.method c (testFn callText key code d)) = nameOf (.method c' (testFn callText key' code d'))) :
    key = key' ∧ d = d' := by
  have := C67_names_partial ht h h' hn
  simp only [SameCode, testFn, Fn.mk.injEq, true_and] at this
  exact ⟨this.1, hcode this.2⟩

/-- the names in the database are the same exactly if the classes and the tests have the same names: the module of
the class, and what is tested for, do not matter -/
theorem C79_names (callText : String) (code : Desc → Nat) {c c' : Naming.Cls} {key key' : String} (d d' : Desc)
    (hk : Plain key) (hk' : Plain key') :
    nameOf (.method c (testFn callText key code d)) = nameOf (.method c' (testFn callText key' code d')) ↔
      c.name = c'.name ∧ key = key' := by
  constructor
  · intro h
    obtain ⟨h1, h2⟩ := split_name hk hk' h
    refine ⟨?_, h2⟩
    have h3 := congrArg String.toList h1
    simp only [String.toList_append, testFn] at h3
    exact String.toList_inj.1 (List.append_cancel_left h3)
  · rintro ⟨h1, rfl⟩
    simp [nameOf, testFn, h1]

/-- **C79** is false when a test is edited: whatever it tests for, the digest is the same, so a stored result is
returned for the new test. -/
theorem C79_edit_violated (md5 : Naming.Text → Digest) (st callText key : String) (code : Desc → Nat) (d d' : Desc)
    (module name init : String) :
    let c := fun d => (⟨module, name, init, [testDict callText code [(key, d)]], []⟩ : Naming.Cls)
    digestOf md5 st [.cls (c d)] (.method (c d) (testFn callText key code d)) =
        digestOf md5 st [.cls (c d')] (.method (c d') (testFn callText key code d')) ∧
      digestOf md5 st [.cls (c d)] (.method (c d) (testFn callText key code d)) = some (md5 callText) ∧
      nameOf (.method (c d) (testFn callText key code d)) = nameOf (.method (c d') (testFn callText key code d')) := by
  intro c
  have key : ∀ d, digestOf md5 st [.cls (c d)] (.method (c d) (testFn callText key code d)) = some (md5 callText) := by
    intro d
    simp [digestOf, digests_get, Def.registers, members, resolve, c, testDict, testFn, nameOf, digestText]
  exact ⟨by rw [key d, key d'], key d, by simp [nameOf, testFn, c]⟩

/-- a numbering of the two tests below -/
def exCode (d : Desc) : Nat := if d.kind = .macro then 1 else 2

/-- **C79** is false for shipped tests: `isinf` is a macro in `math_h` of lib/fbuild/config/c/c99.py:419 and a function in
`math_h` of lib/fbuild/config/c/stdlib.py:18.  Objects of the two classes made with the same arguments are equal
(`Test.__eq__`, config/c/__init__.py:629-636, does not compare classes).  After the macro was found (1), the answer for
the function is the same. -/
theorem C79_shipped_violated :
    let d1 : Desc := { kind := .macro }
    let d2 : Desc := { kind := .function "int".toList ["double".toList] }
    let f1 := testFn "call" "isinf" exCode d1
    let f2 := testFn "call" "isinf" exCode d2
    let c1 : Naming.Cls := ⟨"fbuild.config.c.c99", "math_h", "", [testDict "call" exCode [("isinf", d1)]], []⟩
    let c2 : Naming.Cls := ⟨"fbuild.config.c.stdlib", "math_h", "", [testDict "call" exCode [("isinf", d2)]], []⟩
    let env : Env := { Verif.DB.Ex.env with
      funDigest := fun n => if n = nameOf (.method c1 f1) then digestOf id "" [.cls c1, .cls c2] (.method c1 f1) else none }
    let sg : Sig Nat Nat := ⟨fun _ _ _ => [], fun _ _ _ => [], fun _ _ _ => []⟩
    let s := (runEvents sg [] (Sys.init env) [.prepare 1 (nameOf (.method c1 f1)) 7, .complete 1 1 [] [] []]).2
    f1 ≠ f2 ∧ (step sg s (.prepare 2 (nameOf (.method c2 f2)) 7)).1 = .hit 1 := by decide +kernel

/-- two tests in one class -/
def exCls : Naming.Cls :=
  ⟨"m", "math_h", "", [testDict "call" exCode [("INFINITY", { kind := .macro }), ("sin", { kind := .function [] [] })]], []⟩

theorem exCls_available {x : Callee} (h : Available [.cls exCls] x) :
    x = .new exCls ∨ x = .method exCls (testFn "call" "INFINITY" exCode { kind := .macro }) ∨
      x = .method exCls (testFn "call" "sin" exCode { kind := .function [] [] }) := by
  cases x with
  | fn f => simp [Available] at h
  | new c => simp only [Available, List.mem_singleton, Def.cls.injEq] at h; subst h; exact .inl rfl
  | method c f =>
    simp only [Available, List.mem_singleton, Def.cls.injEq] at h
    obtain ⟨rfl, d, hd, a, ha, e⟩ := h
    simp only [exCls, List.mem_singleton] at hd
    subst hd
    simp only [testDict, List.map_cons, List.map_nil, List.mem_cons, List.not_mem_nil, or_false] at ha
    rcases ha with rfl | rfl
    · simp only [Option.some.injEq] at e; subst e; exact .inr (.inl rfl)
    · simp only [Option.some.injEq] at e; subst e; exact .inr (.inr rfl)

/-- the definitions can be told apart -/
theorem exCls_tidy : Tidy [.cls exCls] := by
  constructor
  · intro f h; simp [Available] at h
  · intro c h
    rcases exCls_available h with e | e | e
    · cases e; decide
    · cases e
    · cases e
  · intro c f h
    rcases exCls_available h with e | e | e
    · cases e
    · cases e; decide
    · cases e; decide
  · intro f g h; simp [Available] at h
  · intro c d h h' _ _
    rcases exCls_available h with e | e | e <;> rcases exCls_available h' with e' | e' | e' <;> cases e <;> cases e'
    rfl
  · intro f c h; simp [Available] at h
  · intro c f d g h h' _ _ hn
    rcases exCls_available h with e | e | e <;> rcases exCls_available h' with e' | e' | e' <;> cases e <;> cases e' <;>
      first | rfl | exact absurd hn (by decide)
  · intro c f g _ h; simp [Available] at h
  · intro c f d h h'
    rcases exCls_available h with e | e | e <;> rcases exCls_available h' with e' | e' | e' <;> cases e <;> cases e' <;>
      decide

example : Available [.cls exCls] (.method exCls (testFn "call" "sin" exCode { kind := .function [] [] })) ∧
    nameOf (.method exCls (testFn "call" "sin" exCode { kind := .function [] [] })) = "fbuild.config.c.math_h.sin" ∧
    digestOf id "" [.cls exCls] (.method exCls (testFn "call" "sin" exCode { kind := .function [] [] })) = some "call" :=
  ⟨⟨by simp, _, List.mem_singleton.2 rfl, ⟨"sin", _⟩, List.mem_cons_of_mem _ (List.mem_singleton.2 rfl), rfl⟩,
    by decide +kernel, by decide +kernel⟩

end Verif.Config
