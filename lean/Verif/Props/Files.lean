import Verif.Functools.Files
import Verif.Props.Functools
/-!
# Which files a call declares (C70)

The specification speaks about `env`, the name space with which Python starts the function
(`Verif/Functools/Spec.lean`).
-/
namespace Verif.Functools
variable {V : Type}

/-- The parameter with annotation `a` and value `b` names the file `x`. -/
def Named (fo : FileOps V) : Annot → Bound V → V → Prop
  | .src, .one v, x | .dst, .one v, x => x = v
  | .optionalSrc, .one v, x | .optionalDst, .one v, x => x = v ∧ fo.isNone v = false
  | .srcs, .one v, x | .dsts, .one v, x => ∃ l, fo.iter v = some l ∧ x ∈ l
  | .srcs, .tuple vs, x | .dsts, .tuple vs, x => x ∈ vs
  | _, _, _ => False

/-- The value fits the annotation: a file for `SRC`, a file or `None` for `OPTIONAL_SRC`, something with
files as elements for `SRCS` (which may be the parameter `*args`). -/
def Fits (fo : FileOps V) : Annot → Bound V → Prop
  | .src, .one v | .dst, .one v | .optionalSrc, .one v | .optionalDst, .one v => fo.hashable v = true
  | .srcs, .one v | .dsts, .one v => ∃ l, fo.iter v = some l ∧ ∀ x ∈ l, fo.hashable x = true
  | .srcs, .tuple vs | .dsts, .tuple vs => ∀ x ∈ vs, fo.hashable x = true
  | .cls, _ => True
  | _, _ => False

theorem update_fits (fo : FileOps V) {a : Annot} {v : Value V} (files : List (Value V))
    (h : Fits fo a v.bound) (hk : a.isSrc = true ∨ a.isDst = true) :
    ∃ l, updateFiles fo files a v = .ok (files ++ l) ∧
      ∀ i, i ∈ l ↔ ∃ x, i = .one x ∧ Named fo a v.bound x := by
  have h1 : ∀ u, fo.hashable u = true →
      updateFiles fo files .src (.one u) = .ok (files ++ [.one u]) := by
    intro u hu; simp [updateFiles, convert, hashable, hu]
  have hmany : ∀ l : List V, (∀ x ∈ l, fo.hashable x = true) →
      (l.map Value.one).all (hashable fo) = true := by
    intro l hl; simpa [hashable] using hl
  cases a with
  | src | dst =>
    cases v with
    | one u =>
      refine ⟨[.one u], h1 u h, ?_⟩
      intro i; simp [Value.bound, Named]
    | _ => exact h.elim
  | optionalSrc | optionalDst =>
    cases v with
    | one u =>
      have hu : fo.hashable u = true := h
      cases hn : fo.isNone u with
      | true =>
        refine ⟨[], by simp [updateFiles, convert, hn], ?_⟩
        intro i; simp [Value.bound, Named]
        intro x _ hx; subst hx; exact hn
      | false =>
        refine ⟨[.one u], by simp [updateFiles, convert, hn, hashable, hu], ?_⟩
        intro i; simp [Value.bound, Named]
        constructor
        · rintro rfl; exact ⟨_, rfl, rfl, hn⟩
        · rintro ⟨x, rfl, rfl, _⟩; rfl
    | _ => exact h.elim
  | srcs | dsts =>
    cases v with
    | one u =>
      obtain ⟨l, h2, h3⟩ := h
      refine ⟨l.map .one, by simp [updateFiles, convert, h2, hashable]; exact h3, ?_⟩
      intro i; simp [Value.bound, Named, h2]
      constructor
      · rintro ⟨x, hx, rfl⟩; exact ⟨x, rfl, hx⟩
      · rintro ⟨x, rfl, hx⟩; exact ⟨x, hx, rfl⟩
    | tuple vs =>
      refine ⟨vs.map .one, by simp [updateFiles, convert, hashable]; exact h, ?_⟩
      intro i; simp [Value.bound, Named]
      constructor
      · rintro ⟨x, hx, rfl⟩; exact ⟨x, rfl, hx⟩
      · rintro ⟨x, rfl, hx⟩; exact ⟨x, hx, rfl⟩
    | dict d => exact h.elim
  | cls => simp [Annot.isSrc, Annot.isDst] at hk
  | notClass => simp [Annot.isSrc, Annot.isDst] at hk

/-- the file `x` is named by a parameter with one of the annotations `as` -/
def Declared (fo : FileOps V) (ann : List (Name × Annot)) (as : List Annot)
    (env : Name → Option (Bound V)) (x : V) : Prop :=
  ∃ n a b, (n, a) ∈ ann ∧ n ≠ "return" ∧ a ∈ as ∧ env n = some b ∧ Named fo a b x

def srcAnnots : List Annot := [.src, .srcs, .optionalSrc]
def dstAnnots : List Annot := [.dst, .dsts, .optionalDst]

theorem isSrc_iff (a : Annot) : a.isSrc = true ↔ a ∈ srcAnnots := by cases a <;> decide
theorem isDst_iff (a : Annot) : a.isDst = true ↔ a ∈ dstAnnots := by cases a <;> decide

theorem loop_fits (fo : FileOps V) {bound : Dict (Value V)} (ann : List (Name × Annot))
    (h : ∀ n a, (n, a) ∈ ann → n ≠ "return" → ∃ b, sem bound n = some b ∧ Fits fo a b) :
    ∀ ret srcs dsts, ∃ ret' l m, annotLoop fo bound ann (ret, srcs, dsts) =
        .ok (ret', srcs ++ l, dsts ++ m) ∧
      (∀ i, i ∈ l ↔ ∃ x, i = .one x ∧ Declared fo ann srcAnnots (sem bound) x) ∧
      (∀ i, i ∈ m ↔ ∃ x, i = .one x ∧ Declared fo ann dstAnnots (sem bound) x) ∧
      ((∀ a, ("return", a) ∉ ann) → ret' = ret) := by
  induction ann with
  | nil =>
    intro ret srcs dsts
    refine ⟨ret, [], [], by simp [annotLoop], ?_, ?_, fun _ => rfl⟩ <;>
      (intro i; simp [Declared])
  | cons q rest ih =>
    obtain ⟨k, a⟩ := q
    intro ret srcs dsts
    have ih := ih (fun n a hm => h n a (List.mem_cons_of_mem _ hm))
    have hcons : ∀ (p : List Annot) (x : V), (k = "return" ∨ a ∉ p) →
        (Declared fo ((k, a) :: rest) p (sem bound) x ↔ Declared fo rest p (sem bound) x) := by
      intro p x hp
      constructor
      · rintro ⟨n, a', b, hm, h1, h2, h3⟩
        rcases List.mem_cons.1 hm with he | hm
        · cases he
          rcases hp with hp | hp
          · exact absurd hp h1
          · exact absurd h2 hp
        · exact ⟨n, a', b, hm, h1, h2, h3⟩
      · rintro ⟨n, a', b, hm, h1⟩
        exact ⟨n, a', b, List.mem_cons_of_mem _ hm, h1⟩
    by_cases hk : k = "return"
    · obtain ⟨ret', l, m, h1, h2, h3, h4⟩ := ih (some a) srcs dsts
      refine ⟨ret', l, m, by rw [annotLoop, if_pos hk, h1], ?_, ?_, ?_⟩
      · intro i; simp only [h2, hcons _ _ (Or.inl hk)]
      · intro i; simp only [h3, hcons _ _ (Or.inl hk)]
      · intro hr; subst hk; exact absurd (List.mem_cons_self ..) (hr a)
    · obtain ⟨b, hb, hf⟩ := h k a (List.mem_cons_self ..) hk
      have hret : (∀ a', ("return", a') ∉ (k, a) :: rest) → ∀ a', ("return", a') ∉ rest :=
        fun hr a' hm => hr a' (List.mem_cons_of_mem _ hm)
      have hnc : a ≠ .notClass := by rintro rfl; cases b <;> exact hf
      cases hv : bound.lookup k with
      | none => simp [sem, hv] at hb
      | some v =>
        have hvb : v.bound = b := by simpa [sem, hv] using hb
        subst hvb
        have hone : ∀ (p : List Annot) (l l' : List (Value V)), a ∈ p →
            (∀ i, i ∈ l ↔ ∃ x, i = .one x ∧ Named fo a v.bound x) →
            (∀ i, i ∈ l' ↔ ∃ x, i = .one x ∧ Declared fo rest p (sem bound) x) →
            ∀ i, i ∈ l ++ l' ↔ ∃ x, i = .one x ∧ Declared fo ((k, a) :: rest) p (sem bound) x := by
          intro p l l' hp h1 h2 i
          rw [List.mem_append, h1, h2]
          constructor
          · rintro (⟨x, rfl, hx⟩ | ⟨x, rfl, n, a', b, hm, hx⟩)
            · exact ⟨x, rfl, k, a, v.bound, List.mem_cons_self .., hk, hp, hb, hx⟩
            · exact ⟨x, rfl, n, a', b, List.mem_cons_of_mem _ hm, hx⟩
          · rintro ⟨x, rfl, n, a', b, hm, h3, h4, h5, h6⟩
            rcases List.mem_cons.1 hm with he | hm
            · cases he
              rw [hb] at h5; cases h5
              exact Or.inl ⟨x, rfl, h6⟩
            · exact Or.inr ⟨x, rfl, n, a', b, hm, h3, h4, h5, h6⟩
        cases hs : a.isSrc with
        | true =>
          have hd : a.isDst = false := by cases a <;> simp_all [Annot.isSrc, Annot.isDst]
          obtain ⟨l, h1, h2⟩ := update_fits fo srcs hf (Or.inl hs)
          obtain ⟨ret', l', m, h3, h4, h5, h6⟩ := ih ret (srcs ++ l) dsts
          refine ⟨ret', l ++ l', m, ?_, hone _ l l' ((isSrc_iff a).1 hs) h2 h4, ?_, fun hr => h6 (hret hr)⟩
          · rw [annotLoop, if_neg hk, if_neg hnc, if_pos hs, hv]
            simp only [h1, h3, List.append_assoc]
          · intro i; simp only [h5, hcons _ _ (Or.inr (by rw [← isDst_iff, hd]; simp))]
        | false =>
          have hs' : ¬ a.isSrc = true := by simp [hs]
          cases hd : a.isDst with
          | true =>
            obtain ⟨l, h1, h2⟩ := update_fits fo dsts hf (Or.inr hd)
            obtain ⟨ret', l', m, h3, h4, h5, h6⟩ := ih ret srcs (dsts ++ l)
            refine ⟨ret', l', l ++ m, ?_, ?_, hone _ l m ((isDst_iff a).1 hd) h2 h5, fun hr => h6 (hret hr)⟩
            · rw [annotLoop, if_neg hk, if_neg hnc, if_neg hs', if_pos hd, hv]
              simp only [h1, h3, List.append_assoc]
            · intro i; simp only [h4, hcons _ _ (Or.inr (by rw [← isSrc_iff, hs]; simp))]
          | false =>
            have hd' : ¬ a.isDst = true := by simp [hd]
            obtain ⟨ret', l', m, h3, h4, h5, h6⟩ := ih ret srcs dsts
            refine ⟨ret', l', m, ?_, ?_, ?_, fun hr => h6 (hret hr)⟩
            · rw [annotLoop, if_neg hk, if_neg hnc, if_neg hs', if_neg hd', h3]
            · intro i; simp only [h4, hcons _ _ (Or.inr (by rw [← isSrc_iff, hs]; simp))]
            · intro i; simp only [h5, hcons _ _ (Or.inr (by rw [← isDst_iff, hd]; simp))]

/-- **C70** (partial: `Plain`, `Fits`).  For a call that Python accepts, the sources and destinations of the
call are exactly the files that the annotated parameters name, given by position, by keyword or by
default. -/
theorem C70_declared_partial (ops : Ops V) (fo : FileOps V) (s : Sig V) (hf : s.method = false)
    (hwf : WF s) (hpl : Plain s) (as : List V) (kws : Dict V) (hk : Keys kws) (hI : InnerOk s kws)
    (env : Name → Option (Bound V)) (h : Binds s as (Dict.erase kws inner) env)
    (ann : List (Name × Annot))
    (hann : ∀ n a, (n, a) ∈ ann → n ≠ "return" → ∃ b, env n = some b ∧ Fits fo a b) :
    ∃ b srcs dsts ret, findCallFilenames ops fo s ann as kws = .ok (b, srcs, dsts, ret) ∧
      sem b = env ∧
      (∀ i, i ∈ srcs ↔ ∃ x, i = .one x ∧ Declared fo ann srcAnnots env x) ∧
      (∀ i, i ∈ dsts ↔ ∃ x, i = .one x ∧ Declared fo ann dstAnnots env x) := by
  obtain ⟨b, _, hb, _, _⟩ :=
    C24_same_key_partial ops s hf hwf hpl as as kws kws hk hk hI hI env env h h
  have hfn : s.fnArgs = s.args := by simp [Sig.fnArgs, hf]
  have he : sem b = env := by
    have := bind_ok ops hwf hpl hk hI hb (by rw [hfn]; exact h.notTooMany)
    rw [hfn] at this
    exact this.unique h
  subst he
  obtain ⟨ret, l, m, h1, h2, h3, _⟩ := loop_fits fo ann hann none [] []
  refine ⟨b, l, m, ret, ?_, rfl, h2, h3⟩
  simp [findCallFilenames, hb, h1]

/-! ### Cases -/
namespace FilesEx

/-- values: `None`, a text or path, a list -/
inductive Val | none | text (s : String) | list (l : List String)
deriving DecidableEq

def fo : FileOps Val where
  isNone v := v = .none
  iter | .none => Option.none
       | .text s => some (s.toList.map (fun c => .text (String.singleton c)))
       | .list l => some (l.map .text)
  hashable | .list _ => false
           | _ => true
  ofName := .text

def ops : Ops Val := { probe := fun _ => .absent, isInner := fun v => v = .text inner }

/-- `def compile(ctx, src: SRC, headers: SRCS, *, pch: OPTIONAL_SRC = None, dst: DST) -> DST` -/
def compile : Sig Val :=
  { args := ["ctx", "src", "headers"], kwonly := ["pch", "dst"], kwdefaults := [("pch", .none)] }
def ann : List (Name × Annot) :=
  [("src", .src), ("headers", .srcs), ("pch", .optionalSrc), ("dst", .dst), ("return", .dst)]

end FilesEx

open FilesEx in
/-- the hypotheses are met: `compile(ctx, "a.c", headers=["a.h", "b.h"], dst="a.o")` -/
example : ∃ env, Binds compile [.text "ctx", .text "a.c"]
      [("headers", .list ["a.h", "b.h"]), ("dst", .text "a.o")] env ∧
    (∀ n a, (n, a) ∈ ann → n ≠ "return" → ∃ b, env n = some b ∧ Fits fo a b) ∧
    findCallFilenames ops fo compile ann [.text "ctx", .text "a.c"]
      [("headers", .list ["a.h", "b.h"]), ("dst", .text "a.o")] =
    .ok ([("ctx", .one (.text "ctx")), ("src", .one (.text "a.c")),
        ("headers", .one (.list ["a.h", "b.h"])), ("pch", .one .none), ("dst", .one (.text "a.o"))],
      [.one (.text "a.c"), .one (.text "a.h"), .one (.text "b.h")], [.one (.text "a.o")],
      some .dst) := by
  have h := ((C25_rejects_partial ops compile rfl ⟨by decide, by decide⟩ (by unfold Plain; decide)
    [.text "ctx", .text "a.c"] [("headers", .list ["a.h", "b.h"]), ("dst", .text "a.o")] (by decide)
    (by decide) (.inr (.inr (by decide)))).2.mp ⟨_, rfl⟩)
  obtain ⟨env, h⟩ := h
  refine ⟨env, h, ?_, rfl⟩
  intro n a hm hr
  simp only [ann, List.mem_cons, Prod.mk.injEq, List.not_mem_nil, or_false] at hm
  rcases hm with ⟨rfl, rfl⟩ | ⟨rfl, rfl⟩ | ⟨rfl, rfl⟩ | ⟨rfl, rfl⟩ | ⟨rfl, rfl⟩
  · obtain ⟨v, h1, h2⟩ := h.positional "src" (by decide)
    rw [← Option.some.inj ((by decide : _ = some (Val.text "a.c")).symm.trans h1)] at h2
    exact ⟨_, h2, rfl⟩
  · obtain ⟨v, h1, h2⟩ := h.positional "headers" (by decide)
    rw [← Option.some.inj ((by decide : _ = some (Val.list ["a.h", "b.h"])).symm.trans h1)] at h2
    refine ⟨_, h2, _, rfl, ?_⟩
    intro x hx
    simp at hx
    rcases hx with rfl | rfl <;> rfl
  · obtain ⟨v, h1, h2⟩ := h.keyword "pch" (by decide)
    rw [← Option.some.inj ((by decide : _ = some Val.none).symm.trans h1)] at h2
    exact ⟨_, h2, rfl⟩
  · obtain ⟨v, h1, h2⟩ := h.keyword "dst" (by decide)
    rw [← Option.some.inj ((by decide : _ = some (Val.text "a.o")).symm.trans h1)] at h2
    exact ⟨_, h2, rfl⟩
  · exact absurd rfl hr

open FilesEx in
/-- **C70** is false for a text given for `SRCS`: its characters are taken for the sources. -/
theorem C70_text_violated :
    findCallFilenames ops fo { args := ["srcs"] } [("srcs", .srcs)] [.text "a.c"] [] =
    .ok ([("srcs", .one (.text "a.c"))], [.one (.text "a"), .one (.text "."), .one (.text "c")], [],
      none) := rfl

open FilesEx in
/-- **C70** is false for `*srcs` with the annotation `SRC`: the sources are recorded as one, which is no file. -/
theorem C70_varargs_violated :
    findCallFilenames ops fo { args := [], varargs := some "srcs" } [("srcs", .src)] [.text "a.c", .text "b.c"] [] =
    .ok ([("srcs", .tuple [.text "a.c", .text "b.c"])], [.tuple [.text "a.c", .text "b.c"]], [], none) := rfl

open FilesEx in
/-- **C70** is false for an annotation that is not a class (for instance a text, or `typing.List[str]`):
a call that Python accepts raises `TypeError`. -/
theorem C70_annotation_violated :
    findCallFilenames ops fo { args := ["x"] } [("x", .notClass)] [.text "a"] [] = .error .typeError :=
  rfl

open FilesEx in
/-- **C70** is false for the creation of objects: the function that is called is
`PersistentMeta.__call_super__(cls, *args, **kwargs)`, which has no annotations; those of `__init__`
are not used. -/
theorem C70_constructor_violated :
    findCallFilenames ops fo
      { args := ["cls"], varargs := some "args", varkw := some "kwargs", method := true } []
      [.text "ctx", .text "a.c"] [] =
    .ok ([("args", .tuple [.text "ctx", .text "a.c"]), ("kwargs", .dict [])], [], [], none) := rfl

end Verif.Functools
