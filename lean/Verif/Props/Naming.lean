import Verif.Naming.Core
import Verif.DB.CheckFun
import Verif.Props.DB
/-!
# Which function a stored result belongs to (C67, C68, C69)
-/
namespace Verif.Naming
open Verif.DB

/-! ### What can be called -/

/-- After the definitions `P`, the callee can be called: a decorated function, the creation of an
object, or a cached method of the class of an object or of one of its ancestors (directly or through
`super`). -/
def Available (P : List Def) : Callee → Prop
  | .fn f => .fn f ∈ P
  | .new c => .cls c ∈ P
  | .method c f => .cls c ∈ P ∧ ∃ d ∈ c.mro, ∃ a ∈ d, a.cached = some f

/-- Both run the same code. -/
def SameCode : Callee → Callee → Prop
  | .fn f, .fn g => f = g
  | .method _ f, .method _ g => f = g
  | .new c, .new d => c = d
  | _, _ => False

/-- A name without dots. -/
abbrev Plain (n : String) : Prop := '.' ∉ n.toList

/-- Definitions that fbuild can tell apart: names have no dots, a module has no two decorated
functions, nor two classes, nor a class and a function of the same name; classes of the same name do
not have different methods of the same name from the same module; no module is named like a class. -/
structure Tidy (P : List Def) : Prop where
  fnPlain : ∀ f, Available P (.fn f) → Plain f.name
  clsPlain : ∀ c, Available P (.new c) → Plain c.name
  methodPlain : ∀ c f, Available P (.method c f) → Plain f.name
  fns : ∀ f g, Available P (.fn f) → Available P (.fn g) → f.module = g.module →
    f.name = g.name → f = g
  classes : ∀ c d, Available P (.new c) → Available P (.new d) → c.module = d.module →
    c.name = d.name → c = d
  fnCls : ∀ f c, Available P (.fn f) → Available P (.new c) → f.module = c.module → f.name ≠ c.name
  methods : ∀ c f d g, Available P (.method c f) → Available P (.method d g) → c.name = d.name →
    f.module = g.module → f.name = g.name → f = g
  modulesFn : ∀ c f g, Available P (.method c f) → Available P (.fn g) →
    g.module ≠ f.module ++ "." ++ c.name
  modulesCls : ∀ c f d, Available P (.method c f) → Available P (.new d) →
    d.module ≠ f.module ++ "." ++ c.name

/-! ### Names -/

theorem split_dot {a a' n n' : List Char} (hn : '.' ∉ n) (hn' : '.' ∉ n')
    (h : a ++ '.' :: n = a' ++ '.' :: n') : a = a' ∧ n = n' := by
  rcases List.append_eq_append_iff.1 h with ⟨z, h1, h2⟩ | ⟨z, h1, h2⟩
  · cases z with
    | nil => simp at h1 h2; exact ⟨h1.symm, h2⟩
    | cons c z =>
      simp only [List.cons_append, List.cons.injEq] at h2
      exact absurd (h2.2 ▸ (by simp : '.' ∈ z ++ '.' :: n')) hn
  · cases z with
    | nil => simp at h1 h2; exact ⟨h1, h2.symm⟩
    | cons c z =>
      simp only [List.cons_append, List.cons.injEq] at h2
      exact absurd (h2.2 ▸ (by simp : '.' ∈ z ++ '.' :: n)) hn'

theorem split_name {a a' n n' : String} (hn : Plain n) (hn' : Plain n')
    (h : a ++ "." ++ n = a' ++ "." ++ n') : a = a' ∧ n = n' := by
  have h2 := congrArg String.toList h
  simp only [String.toList_append, List.append_assoc] at h2
  have := split_dot (a := a.toList) (a' := a'.toList) hn hn' (by simpa using h2)
  exact ⟨String.toList_inj.1 this.1, String.toList_inj.1 this.2⟩

/-- **C67** (partial: `Tidy`).  Two callees with the same name in the database are the same function,
or creations of objects of the same class. -/
theorem C67_names_partial {P : List Def} (h : Tidy P) {x y : Callee} (hx : Available P x)
    (hy : Available P y) (hn : nameOf x = nameOf y) : SameCode x y := by
  cases x with
  | fn f =>
    cases y with
    | fn g =>
      obtain ⟨h1, h2⟩ := split_name (h.fnPlain f hx) (h.fnPlain g hy) hn
      exact h.fns f g hx hy h1 h2
    | method d g =>
      obtain ⟨h1, h2⟩ := split_name (h.fnPlain f hx) (h.methodPlain d g hy) hn
      exact absurd h1 (h.modulesFn d g f hy hx)
    | new d =>
      obtain ⟨h1, h2⟩ := split_name (h.fnPlain f hx) (h.clsPlain d hy) hn
      exact absurd h2 (h.fnCls f d hx hy h1)
  | method c f =>
    cases y with
    | fn g =>
      obtain ⟨h1, h2⟩ := split_name (h.methodPlain c f hx) (h.fnPlain g hy) hn
      exact absurd h1.symm (h.modulesFn c f g hx hy)
    | method d g =>
      obtain ⟨h1, h2⟩ := split_name (h.methodPlain c f hx) (h.methodPlain d g hy) hn
      obtain ⟨h3, h4⟩ := split_name (h.clsPlain c hx.1) (h.clsPlain d hy.1) h1
      exact h.methods c f d g hx hy h4 h3 h2
    | new d =>
      obtain ⟨h1, h2⟩ := split_name (h.methodPlain c f hx) (h.clsPlain d hy) hn
      exact absurd h1.symm (h.modulesCls c f d hx hy)
  | new c =>
    cases y with
    | fn g =>
      obtain ⟨h1, h2⟩ := split_name (h.clsPlain c hx) (h.fnPlain g hy) hn
      exact absurd h2.symm (h.fnCls g c hy hx h1.symm)
    | method d g =>
      obtain ⟨h1, h2⟩ := split_name (h.clsPlain c hx) (h.methodPlain d g hy) hn
      exact absurd h1 (h.modulesCls d g c hy hx)
    | new d =>
      obtain ⟨h1, h2⟩ := split_name (h.clsPlain c hx) (h.clsPlain d hy) hn
      exact h.classes c d hx hy h1 h2

/-! ### The digest that is found -/

theorem mem_members {mro : List (List Attr)} {f : Fn} (h : f ∈ members mro) :
    ∃ d ∈ mro, ∃ a ∈ d, a.cached = some f := by
  obtain ⟨n, hm, hr⟩ := List.mem_filterMap.1 h
  clear h hm
  replace h := hr
  clear hr
  induction mro with
  | nil => simp [resolve] at h
  | cons d rest ih =>
    simp only [resolve] at h
    cases hf : d.find? (fun x => decide (x.name = n)) with
    | some x =>
      rw [hf] at h
      exact ⟨d, by simp, x, List.mem_of_find?_eq_some hf, h⟩
    | none =>
      rw [hf] at h
      obtain ⟨d', h1, h2⟩ := ih h
      exact ⟨d', by simp [h1], h2⟩

theorem resolve_members {mro : List (List Attr)} {f : Fn} {n : String} (h : resolve mro n = some f) :
    f ∈ members mro := by
  refine List.mem_filterMap.2 ⟨n, ?_, h⟩
  induction mro with
  | nil => simp [resolve] at h
  | cons d rest ih =>
    simp only [resolve] at h
    cases hf : d.find? (fun x => decide (x.name = n)) with
    | some x =>
      have h1 := List.mem_of_find?_eq_some hf
      have h2 := List.find?_some hf
      simp only [decide_eq_true_eq] at h2
      simp only [List.flatten_cons, List.map_append, List.mem_append, List.mem_map]
      exact Or.inl ⟨x, h1, h2⟩
    | none =>
      rw [hf] at h
      simp only [List.flatten_cons, List.map_append, List.mem_append]
      exact Or.inr (ih h)

theorem foldl_register (st : Text) (l : List Callee) : ∀ (m : Dict FunName Text) (n : FunName),
    (l.foldl (register st) m).get? n =
      match m.get? n with
      | some t => some t
      | none => (l.find? (fun c => nameOf c = n)).map (digestText st) := by
  induction l with
  | nil => intro m n; simp; cases m.get? n <;> rfl
  | cons c l ih =>
    intro m n
    rw [List.foldl_cons, ih]
    unfold register
    by_cases hn : nameOf c = n
    · subst hn
      cases hm : m.get? (nameOf c) with
      | some t => simp [hm]
      | none => simp [Dict.get?_set]
    · cases hm : m.get? (nameOf c) with
      | some t => simp [hn]
      | none => simp [Dict.get?_set, hn]

/-- The digest found is the one of the first registration under that name. -/
theorem digests_get (st : Text) (P : List Def) (n : FunName) :
    (digests st P).get? n =
      ((P.flatMap Def.registers).find? (fun c => nameOf c = n)).map (digestText st) := by
  unfold digests
  rw [foldl_register]
  rfl

/-- For classes whose bases' dictionaries are among their own, as Python's linearisation guarantees,
everything that is registered can be called. -/
def Linear (P : List Def) : Prop := ∀ c, .cls c ∈ P → ∀ b ∈ c.bases, ∀ d ∈ b, d ∈ c.mro

theorem registers_available {P : List Def} (hl : Linear P) {x : Callee}
    (h : x ∈ P.flatMap Def.registers) : Available P x := by
  obtain ⟨d, h1, h2⟩ := List.mem_flatMap.1 h
  cases d with
  | fn f => simp only [Def.registers, List.mem_singleton] at h2; subst h2; exact h1
  | cls c =>
    simp only [Def.registers, List.mem_append, List.mem_map, List.mem_flatMap,
      List.mem_singleton] at h2
    rcases h2 with ⟨f, h3 | ⟨b, h3, h4⟩, rfl⟩ | rfl
    · exact ⟨h1, mem_members h3⟩
    · obtain ⟨d, h5, h6⟩ := mem_members h4
      exact ⟨h1, d, hl c h1 b h3 d h5, h6⟩
    · exact h1

/-- Python finds the cached method `f` under the name `n` in a class with this `mro`: it is in the first
dictionary that has the name. -/
def Finds (mro : List (List Attr)) (n : String) (f : Fn) : Prop :=
  ∃ before d after, mro = before ++ d :: after ∧ (∀ d' ∈ before, ∀ a ∈ d', a.name ≠ n) ∧
    ∃ l1 l2, d = l1 ++ ⟨n, some f⟩ :: l2 ∧ ∀ a ∈ l1, a.name ≠ n

theorem resolve_finds {mro : List (List Attr)} {n : String} {f : Fn} (h : Finds mro n f) :
    resolve mro n = some f := by
  obtain ⟨before, d, after, rfl, h1, l1, l2, rfl, h2⟩ := h
  induction before with
  | nil =>
    have : (l1 ++ ⟨n, some f⟩ :: l2).find? (fun x => decide (x.name = n)) = some ⟨n, some f⟩ := by
      rw [List.find?_append]
      have : l1.find? (fun x => decide (x.name = n)) = none := by
        rw [List.find?_eq_none]; intro a ha; simpa using h2 a ha
      simp [this]
    simp [resolve, this]
  | cons d' before ih =>
    have : d'.find? (fun x => decide (x.name = n)) = none := by
      rw [List.find?_eq_none]; intro a ha; simpa using h1 d' (by simp) a ha
    simp only [List.cons_append, resolve, this]
    exact ih (fun d hd => h1 d (by simp [hd]))

/-- Calls of functions, object creations, and calls of methods that an attribute lookup on the class of
the object, or on one of its direct bases, finds. -/
def Near (P : List Def) : Callee → Prop
  | .fn f => .fn f ∈ P
  | .new c => .cls c ∈ P
  | .method c f => .cls c ∈ P ∧ ∃ n, Finds c.mro n f ∨ ∃ b ∈ c.bases, Finds b n f

theorem near_registers {P : List Def} {x : Callee} (h : Near P x) : x ∈ P.flatMap Def.registers := by
  cases x with
  | fn f => exact List.mem_flatMap.2 ⟨_, h, by simp [Def.registers]⟩
  | new c => exact List.mem_flatMap.2 ⟨_, h, by simp [Def.registers]⟩
  | method c f =>
    obtain ⟨h1, n, h2⟩ := h
    refine List.mem_flatMap.2 ⟨_, h1, ?_⟩
    simp only [Def.registers, List.mem_append, List.mem_map, List.mem_flatMap]
    rcases h2 with h2 | ⟨b, h2, h3⟩
    · exact Or.inl ⟨f, Or.inl (resolve_members (resolve_finds h2)), rfl⟩
    · exact Or.inl ⟨f, Or.inr ⟨b, h2, resolve_members (resolve_finds h3)⟩, rfl⟩

/-- **C68** (partial: `Near`).  A cached function, a cached method found on the object's class or a direct
base, and the creation of an object can be called: a digest is found. -/
theorem C68_found_partial (md5 : Text → Digest) (st : Text) (P : List Def) {x : Callee}
    (h : Near P x) : ∃ d, digestOf md5 st P x = some d := by
  unfold digestOf
  rw [digests_get]
  have : ∃ y, (P.flatMap Def.registers).find? (fun c => nameOf c = nameOf x) = some y := by
    apply Option.isSome_iff_exists.1
    rw [List.find?_isSome]
    exact ⟨x, near_registers h, by simp⟩
  obtain ⟨y, hy⟩ := this
  rw [hy]
  exact ⟨_, rfl⟩

theorem digest_text (md5 : Text → Digest) (st : Text) {P : List Def} (hl : Linear P)
    (ht : Tidy P) {x : Callee} (h : Near P x) (hx : Available P x) :
    digestOf md5 st P x = some (md5 (digestText st x)) := by
  unfold digestOf
  rw [digests_get]
  cases hy : (P.flatMap Def.registers).find? (fun c => nameOf c = nameOf x) with
  | none =>
    rw [List.find?_eq_none] at hy
    exact absurd (by simp) (hy x (near_registers h))
  | some y =>
    have h1 := registers_available hl (List.mem_of_find?_eq_some hy)
    have h2 := List.find?_some hy
    simp only [decide_eq_true_eq] at h2
    have h3 := C67_names_partial ht h1 hx h2
    simp only [Option.map_some, Option.some.injEq]
    cases x <;> cases y <;> first | exact h3.elim | (cases h3; rfl)

/-- **C69** (partial: `Tidy`).  The digest that the database gets for a function or method is the one
of the text of the function that is run. -/
theorem C69_text_partial (md5 : Text → Digest) (st : Text) {P : List Def} (hl : Linear P)
    (ht : Tidy P) {x : Callee} (h : Near P x) (hx : Available P x) {f : Fn}
    (hf : x = .fn f ∨ ∃ c, x = .method c f) : digestOf md5 st P x = some (md5 f.text) := by
  rw [digest_text md5 st hl ht h hx]
  rcases hf with rfl | ⟨c, rfl⟩ <;> rfl

/-- **C69** (partial: `Tidy`).  If the text of a function or method is edited, the digest changes. -/
theorem C69_edit_partial (md5 : Text → Digest) (hmd5 : ∀ t t', md5 t = md5 t' → t = t') (st : Text)
    {P P' : List Def} (hl : Linear P) (hl' : Linear P') (ht : Tidy P) (ht' : Tidy P')
    {x x' : Callee} (h : Near P x) (h' : Near P' x') (hx : Available P x) (hx' : Available P' x')
    {f f' : Fn} (hf : x = .fn f ∨ ∃ c, x = .method c f) (hf' : x' = .fn f' ∨ ∃ c, x' = .method c f')
    (hedit : f.text ≠ f'.text) : digestOf md5 st P x ≠ digestOf md5 st P' x' := by
  rw [C69_text_partial md5 st hl ht h hx hf, C69_text_partial md5 st hl' ht' h' hx' hf']
  intro he
  exact hedit (hmd5 _ _ (by simpa using he))

/-! ### Stored results -/

/-- The event `q` comes from a script with definitions `l.1`: if a call is prepared, it is a call of
`l.2`, and the digests are those that the definitions registered. -/
def From {B R : Type} (md5 : Text → Digest) (st : Text) (q : Sys B R × Event B R)
    (l : List Def × Callee) : Prop :=
  ∀ id n b, q.2 = .prepare id n b → n = nameOf l.2 ∧ Tidy l.1 ∧ Linear l.1 ∧ Near l.1 l.2 ∧
    Available l.1 l.2 ∧ q.1.env.funDigest n = digestOf md5 st l.1 l.2

/-- **C67** (partial: every script is `Tidy`; the conditions of C01).  A call of a function or method that
is answered from the database gets the result of an execution, with equal arguments, of code with the
same text; of the same function, if the script is still the same. -/
theorem C67_hit_partial {B R : Type} [DecidableEq B] {sg : Sig B R}
    {vers : FileName → Nat → Option Content} {crashes : Bool} {tr : Trace B R} {s : Sys B R}
    (h : History sg vers crashes tr s) (hmd5 : ∀ c c', s.env.md5 c = s.env.md5 c' → c = c')
    (md5 : Text → Digest) (hinj : ∀ t t', md5 t = md5 t' → t = t') (st : Text)
    (scripts : List ((Sys B R × Event B R) × (List Def × Callee))) (htr : tr = scripts.map Prod.fst)
    (hfrom : ∀ q ∈ scripts, From md5 st q.1 q.2) {P : List Def} {x : Callee} (id : Nat) (b : B) (r : R)
    (hcur : From md5 st (s, .prepare id (nameOf x) b) (P, x)) {f : Fn}
    (hf : x = .fn f ∨ ∃ c, x = .method c f)
    (hh : (step sg s (.prepare id (nameOf x) b)).1 = .hit r) :
    ∃ newer mid older s0 id' P' x', scripts = newer ++ mid ++ ((s0, .prepare id' (nameOf x) b), P', x') :: older ∧
      (∃ s1 deps ext dsts l mid', mid = ((s1, .complete id' r deps ext dsts), l) :: mid') ∧
      (step sg s0 (.prepare id' (nameOf x) b)).1 = .run ∧
      digestText st x' = f.text ∧ (P' = P → SameCode x' x) := by
  obtain ⟨newer, s0, s1, ev, older, ext, extDsts, code, h1, h2, h3, h4, _⟩ :=
    C01_hit_sound h hmd5 id (nameOf x) b r hh
  obtain ⟨id', deps, rfl, mid, older', h5, h6, _⟩ := h2.ended
  subst h5
  rw [htr] at h1
  obtain ⟨l1, l2, k1, k2, k3⟩ := List.map_eq_append_iff.1 h1
  obtain ⟨q, l3, k4, k5, k6⟩ := List.map_eq_cons_iff.1 k3
  obtain ⟨l4, l5, k7, k8, k9⟩ := List.map_eq_append_iff.1 k6
  obtain ⟨q', l6, k10, k11, k12⟩ := List.map_eq_cons_iff.1 k9
  obtain ⟨q1, q2⟩ := q
  obtain ⟨p1, P', x'⟩ := q'
  simp only at k5 k11
  subst k5; subst k11
  have hm : ((s0, Event.prepare id' (nameOf x) b), P', x') ∈ scripts := by
    rw [k1, k4, k7, k10]; simp
  obtain ⟨m1, m2, m3, m4, m5, m6⟩ := hfrom _ hm id' (nameOf x) b rfl
  obtain ⟨_, n2, n3, n4, n5, n6⟩ := hcur id (nameOf x) b rfl
  simp only at m1 m2 m3 m4 m5 m6 n2 n3 n4 n5 n6
  refine ⟨l1, _ :: l4, l6, s0, id', P', x', ?_, ⟨s1, deps, ext, extDsts, q2, l4, rfl⟩, h6, ?_, ?_⟩
  · rw [k1, k4, k7, k10]; simp
  · rw [h3, digest_text md5 st m3 m2 m4 m5] at m6
    rw [h4, digest_text md5 st n3 n2 n4 n5] at n6
    have := hinj _ _ ((Option.some.inj m6).symm.trans (Option.some.inj n6))
    rw [this]
    rcases hf with rfl | ⟨c, rfl⟩ <;> rfl
  · rintro rfl
    exact C67_names_partial m2 m5 n5 m1.symm

/-! ### Cases -/
namespace Ex

/-- a module with a function and two classes; `Sub` (another module) overrides `build` and calls
`super().build`; `flags` is inherited -/
def link : Fn := ⟨"m", "link", "def link(ctx): ...", none, 0⟩
def build : Fn := ⟨"m", "build", "def build(self): base", none, 0⟩
def build' : Fn := ⟨"n", "build", "def build(self): sub", none, 0⟩
def flags : Fn := ⟨"m", "flags", "def flags(self): ...", none, 0⟩
def baseD : List Attr := [⟨"build", some build⟩, ⟨"flags", some flags⟩, ⟨"__init__", none⟩]
def subD : List Attr := [⟨"build", some build'⟩]
def base : Cls := ⟨"m", "Builder", "init", [baseD], []⟩
def sub : Cls := ⟨"n", "Sub", "init", [subD, baseD], [[baseD]]⟩
def script : List Def := [.fn link, .cls base, .cls sub]

theorem available {x : Callee} (h : Available script x) :
    x = .fn link ∨ x = .new base ∨ x = .new sub ∨ x = .method base build ∨ x = .method base flags ∨
    x = .method sub build ∨ x = .method sub flags ∨ x = .method sub build' := by
  cases x with
  | fn f => simp [Available, script] at h; simp [h]
  | new c => simp [Available, script] at h; rcases h with rfl | rfl <;> simp
  | method c f =>
    obtain ⟨h1, d, h2, a, h3, h4⟩ := h
    simp only [script, List.mem_cons, Def.cls.injEq, reduceCtorEq, List.not_mem_nil, or_false,
      false_or] at h1
    rcases h1 with rfl | rfl
    · simp only [base, List.mem_singleton] at h2
      subst h2
      simp only [baseD, List.mem_cons, List.not_mem_nil, or_false] at h3
      rcases h3 with rfl | rfl | rfl <;> simp_all
    · simp only [sub, List.mem_cons, List.not_mem_nil, or_false] at h2
      rcases h2 with rfl | rfl
      · simp only [subD, List.mem_cons, List.not_mem_nil, or_false] at h3
        subst h3; simp_all
      · simp only [baseD, List.mem_cons, List.not_mem_nil, or_false] at h3
        rcases h3 with rfl | rfl | rfl <;> simp_all

theorem tidy : Tidy script := by
  constructor
  · intro f h
    rcases available h with h | h | h | h | h | h | h | h <;> cases h
    decide
  · intro c h
    rcases available h with h | h | h | h | h | h | h | h <;> cases h <;> decide
  · intro c f h
    rcases available h with h | h | h | h | h | h | h | h <;> cases h <;> decide
  · intro f g h h' _ _
    rcases available h with h | h | h | h | h | h | h | h <;> cases h
    rcases available h' with h | h | h | h | h | h | h | h <;> cases h
    rfl
  · intro c d h h' h1 h2
    rcases available h with h | h | h | h | h | h | h | h <;> cases h <;>
    rcases available h' with h | h | h | h | h | h | h | h <;> cases h <;>
    first | rfl | (exact absurd h1 (by decide))
  · intro f c h h' h1
    rcases available h with h | h | h | h | h | h | h | h <;> cases h <;>
    rcases available h' with h | h | h | h | h | h | h | h <;> cases h <;> decide
  · intro c f d g h h' h1 h2 h3
    rcases available h with h | h | h | h | h | h | h | h <;> cases h <;>
    rcases available h' with h | h | h | h | h | h | h | h <;> cases h <;>
    first | rfl | (exact absurd h1 (by decide)) | (exact absurd h2 (by decide)) | (exact absurd h3 (by decide))
  · intro c f g h h'
    rcases available h with h | h | h | h | h | h | h | h <;> cases h <;>
    rcases available h' with h | h | h | h | h | h | h | h <;> cases h <;> decide
  · intro c f g h h'
    rcases available h with h | h | h | h | h | h | h | h <;> cases h <;>
    rcases available h' with h | h | h | h | h | h | h | h <;> cases h <;> decide

theorem linear : Linear script := by
  intro c h b hb d hd
  simp only [script, List.mem_cons, Def.cls.injEq, reduceCtorEq, List.not_mem_nil, or_false,
    false_or] at h
  rcases h with rfl | rfl
  · simp [base] at hb
  · simp only [sub, List.mem_singleton] at hb
    subst hb
    simp only [List.mem_singleton] at hd
    subst hd
    simp [sub]

theorem near : Near script (.method sub build) := 
  ⟨by decide, "build", Or.inr ⟨_, List.mem_singleton.2 rfl, [], _, [], rfl, by simp, [], _, rfl, by simp⟩⟩
theorem near' : Near script (.method sub build') := 
  ⟨by decide, "build", Or.inl ⟨[], _, _, rfl, by simp, [], _, rfl, by simp⟩⟩
theorem avail : Available script (.method sub build) :=
  ⟨by decide, baseD, by decide, ⟨"build", some build⟩, by decide, rfl⟩
theorem avail' : Available script (.method sub build') :=
  ⟨by decide, subD, by decide, ⟨"build", some build'⟩, by decide, rfl⟩

end Ex

/-- C67, C68, C69: the hypotheses are met by this script, for the method of the base called through
`super` and for the one that overrides it. -/
example : Tidy Ex.script ∧ Linear Ex.script ∧ Near Ex.script (.method Ex.sub Ex.build) ∧
    Available Ex.script (.method Ex.sub Ex.build) ∧ Near Ex.script (.method Ex.sub Ex.build') ∧
    nameOf (.method Ex.sub Ex.build) = "m.Sub.build" ∧
    nameOf (.method Ex.sub Ex.build') = "n.Sub.build" ∧
    digestOf id "super" Ex.script (.method Ex.sub Ex.build) = some "def build(self): base" := by
  exact ⟨Ex.tidy, Ex.linear, Ex.near, Ex.avail, Ex.near', by decide, by decide, by decide⟩

namespace Ex

def env : Env := { Verif.DB.Ex.env with funDigest := fun n => (digests "super" script).get? n }
def sg : Sig Nat Nat := ⟨fun _ _ _ => ["a"], fun _ _ _ => [], fun _ _ _ => []⟩
def evs : List (Event Nat Nat) :=
  [.prepare 1 "m.Sub.build" 7, .prepare 2 "n.Sub.build" 7, .complete 2 43 [] [] [],
   .complete 1 42 [] [] []]
def tr : Trace Nat Nat := (runEvents sg [] (Sys.init env) evs).1
def s : Sys Nat Nat := (runEvents sg [] (Sys.init env) evs).2

theorem history : History sg Verif.DB.Ex.vers false tr s := by
  refine History.run (.init env ?_) evs (allowedAllB_sound (by decide +kernel))
  intro x f h
  simp only [env, Verif.DB.Ex.env] at h
  split at h
  · simp at h; subst h; rfl
  · split at h
    · simp at h; subst h; rfl
    · simp at h

/-- who was called -/
def labels : List Callee := [.fn link, .fn link, .method sub build', .method sub build]
def scripts : List ((Sys Nat Nat × Event Nat Nat) × (List Def × Callee)) :=
  (tr.zip labels).map (fun q => (q.1, script, q.2))

theorem from1 {s' : Sys Nat Nat} (h : s'.env.funDigest = env.funDigest) (id b : Nat) :
    From _root_.id "super" (s', .prepare id "m.Sub.build" b) (script, .method sub build) := by
  intro _ _ _ he
  cases he
  exact ⟨by decide, tidy, linear, near, avail, by simp only [h]; decide +kernel⟩

theorem from2 {s' : Sys Nat Nat} (h : s'.env.funDigest = env.funDigest) (id b : Nat) :
    From _root_.id "super" (s', .prepare id "n.Sub.build" b) (script, .method sub build') := by
  intro _ _ _ he
  cases he
  exact ⟨by decide, tidy, linear, near', avail', by simp only [h]; decide +kernel⟩

end Ex

/-- the hypotheses of `C67_hit_partial` are met -/
example : Ex.tr = Ex.scripts.map Prod.fst ∧ (∀ q ∈ Ex.scripts, From id "super" q.1 q.2) ∧
    From id "super" (Ex.s, .prepare 3 "m.Sub.build" 7) (Ex.script, .method Ex.sub Ex.build) ∧
    (step Ex.sg Ex.s (.prepare 3 (nameOf (.method Ex.sub Ex.build)) 7)).1 = .hit 42 := by
  refine ⟨rfl, ?_, Ex.from1 rfl 3 7, by decide +kernel⟩
  intro q hq
  simp only [Ex.scripts, Ex.tr, Ex.evs, runEvents, Ex.labels, List.zip_cons_cons, List.zip_nil_right,
    List.map_cons, List.map_nil, List.mem_cons, List.not_mem_nil, or_false] at hq
  rcases hq with rfl | rfl | rfl | rfl
  · intro _ _ _ h; cases h
  · intro _ _ _ h; cases h
  · exact Ex.from2 rfl 2 7
  · exact Ex.from1 rfl 1 7

/-- **C67** is false for a class that overrides a cached method of a class of the same module and calls
it through `super`: both have the name "m.Sub.build".  The first call of `build` runs both; the next
call returns what the method of the base class returned. -/
theorem C67_super_violated :
    let base : Fn := ⟨"m", "build", "base", none, 0⟩
    let over : Fn := ⟨"m", "build", "override", none, 0⟩
    let c : Cls := ⟨"m", "Sub", "", [[⟨"build", some over⟩], [⟨"build", some base⟩]],
      [[[⟨"build", some base⟩]]]⟩
    let n1 := nameOf (.method c over)
    let n2 := nameOf (.method c base)
    let env : Env := { Verif.DB.Ex.env with
      funDigest := fun n => if n = n1 then digestOf id "" [.cls c] (.method c over) else none }
    let sg : Sig Nat String := ⟨fun _ _ _ => [], fun _ _ _ => [], fun _ _ _ => []⟩
    let s := (runEvents sg [] (Sys.init env)
      [.prepare 1 n1 7, .prepare 2 n2 7, .complete 2 "base" [] [] [],
       .complete 1 "override" [n2] [] []]).2
    base ≠ over ∧ (step sg s (.prepare 3 n1 7)).1 = .hit "base" := by decide

/-- **C67** is false for two functions of the same name in one module (for instance made by the same
function with different captured variables): the second gets the first one's results. -/
theorem C67_same_name_violated :
    let f : Fn := ⟨"m", "step", "def step(ctx): return n", none, 1⟩
    let g : Fn := ⟨"m", "step", "def step(ctx): return n", none, 2⟩
    let env : Env := { Verif.DB.Ex.env with
      funDigest := fun n => if n = nameOf (.fn f) then digestOf id "" [.fn f, .fn g] (.fn f) else none }
    let sg : Sig Nat Nat := ⟨fun _ _ _ => [], fun _ _ _ => [], fun _ _ _ => []⟩
    let s := (runEvents sg [] (Sys.init env)
      [.prepare 1 (nameOf (.fn f)) 7, .complete 1 1 [] [] []]).2
    f ≠ g ∧ (step sg s (.prepare 2 (nameOf (.fn g)) 7)).1 = .hit 1 := by decide

/-- **C67** is false for a method of class `C` of module "m" and a function of module "m.C". -/
theorem C67_module_violated :
    let f : Fn := ⟨"m.C", "f", "one", none, 0⟩
    let g : Fn := ⟨"m", "f", "two", none, 0⟩
    let c : Cls := ⟨"m", "C", "", [[⟨"f", some g⟩]], []⟩
    f ≠ g ∧ nameOf (.fn f) = nameOf (.method c g) := by decide

/-- **C68** is false for a chain of three classes that override a cached method and call `super` (each in
its own module): the call of the uppermost method raises `KeyError`. -/
theorem C68_super_violated :
    let a : Fn := ⟨"a", "build", "A", none, 0⟩
    let b : Fn := ⟨"b", "build", "B", none, 0⟩
    let c : Fn := ⟨"c", "build", "C", none, 0⟩
    let dA : List Attr := [⟨"build", some a⟩]
    let dB : List Attr := [⟨"build", some b⟩]
    let dC : List Attr := [⟨"build", some c⟩]
    let A : Cls := ⟨"a", "A", "", [dA], []⟩
    let B : Cls := ⟨"b", "B", "", [dB, dA], [[dA]]⟩
    let C : Cls := ⟨"c", "C", "", [dC, dB, dA], [[dB, dA]]⟩
    Available [.cls A, .cls B, .cls C] (.method C a) ∧
      digestOf id "" [.cls A, .cls B, .cls C] (.method C a) = none := by
  refine ⟨⟨by decide, [⟨"build", some ⟨"a", "build", "A", none, 0⟩⟩], by decide,
    ⟨"build", some ⟨"a", "build", "A", none, 0⟩⟩, by decide, rfl⟩, by decide⟩

theorem find_new (st : Text) (c c' : Cls) (hm : c.module = c'.module) (hn : c.name = c'.name)
    (n : FunName) (L : List Fn) :
    ((L.map (Callee.method c) ++ [Callee.new c]).find? (fun x => nameOf x = n)).map (digestText st) =
      ((L.map (Callee.method c') ++ [Callee.new c']).find? (fun x => nameOf x = n)).map (digestText st) := by
  induction L with
  | nil =>
    have : nameOf (.new c) = nameOf (.new c') := by simp [nameOf, hm, hn]
    simp only [List.map_nil, List.nil_append, List.find?_cons, List.find?_nil, this]
    split <;> rfl
  | cons f L ih =>
    have : nameOf (.method c f) = nameOf (.method c' f) := by simp [nameOf, hn]
    simp only [List.map_cons, List.cons_append, List.find?_cons, this]
    split
    · rfl
    · exact ih

/-- **C69** is false for the creation of objects: whatever the text of the constructor, the digest is
the same. -/
theorem C69_constructor_violated (md5 : Text → Digest) (st module name t t' : String)
    (mro : List (List Attr)) (bases : List (List (List Attr))) :
    digestOf md5 st [.cls ⟨module, name, t, mro, bases⟩] (.new ⟨module, name, t, mro, bases⟩) =
      digestOf md5 st [.cls ⟨module, name, t', mro, bases⟩] (.new ⟨module, name, t', mro, bases⟩) := by
  simp only [digestOf, digests_get, List.flatMap_cons, List.flatMap_nil, List.append_nil,
    Def.registers]
  exact congrArg (Option.map md5) (find_new st ⟨module, name, t, mro, bases⟩
    ⟨module, name, t', mro, bases⟩ rfl rfl _ _)

/-- **C69** is false for decorated functions: the text of the decorator does not enter the digest. -/
theorem C69_decorator_violated (md5 : Text → Digest) (st module name t d d' : String) :
    digestOf md5 st [.fn ⟨module, name, t, some d, 0⟩] (.fn ⟨module, name, t, some d, 0⟩) =
      digestOf md5 st [.fn ⟨module, name, t, some d', 0⟩] (.fn ⟨module, name, t, some d', 0⟩) := by
  simp [digestOf, digests_get, nameOf, digestText, Def.registers]

end Verif.Naming
