import Verif.Functools.Proof
/-!
# Cache keys: properties

C24 (equal calls have equal keys) and C25 (invalid argument lists are rejected).
-/
namespace Verif.Functools
section
variable {V : Type}

/-! ## Methods -/

/-- A call of a bound method: Python passes the object in front of the other values.  `env` is the name space
without the object. -/
def MethodBinds (s : Sig V) (self : V) (as : List V) (kws : Dict V) (env : Name → Option (Bound V)) : Prop :=
  ∃ full, Binds s (self :: as) kws full ∧ ∀ n, env n = if s.args.head? = some n then none else full n

theorem defaultOf_cons {me k : Name} {ps : List Name} {ds : List V} (h : k ≠ me) :
    defaultOf (me :: ps) ds k = defaultOf ps ds k := by
  unfold defaultOf
  rw [List.reverse_cons]
  generalize ps.reverse = qs
  generalize ds.reverse = es
  induction qs generalizing es with
  | nil =>
    cases es with
    | nil => rfl
    | cons e es =>
      have hb : (k == me) = false := by simpa using h
      simp [List.lookup, hb]
  | cons q qs ih =>
    cases es with
    | nil => rfl
    | cons e es =>
      by_cases hq : k = q
      · subst hq; simp
      · have hb : (k == q) = false := by simpa using hq
        simp only [List.cons_append, List.zip_cons_cons, List.lookup, hb]
        exact ih es

theorem method_iff {s : Sig V} {me : Name} {ps : List Name} (hs : s.args = me :: ps)
    (hme : me ∉ ps ∧ me ∉ s.kwonly ∧ s.varargs ≠ some me ∧ s.varkw ≠ some me) (self : V) {as : List V}
    {kws : Dict V} (hk : kws.lookup me = none) {env} :
    BindsTo ps s as kws env ↔ MethodBinds s self as kws env := by
  constructor
  · intro h
    refine ⟨fun n => if n = me then some (.one self) else env n, ?_, ?_⟩
    · unfold Binds
      rw [hs]
      refine ⟨?_, ?_, ?_, ?_, ?_, ?_, ?_, ?_⟩
      · rcases h.notTooMany with h | h
        · left; simp only [List.length_cons]; omega
        · exact .inr h
      · intro k hkk
        rcases h.known k hkk with h | h | h
        · exact .inl (.tail _ h)
        · exact .inr (.inl h)
        · exact .inr (.inr h)
      · intro k hkk
        rw [List.length_cons, List.take_succ_cons] at hkk
        rcases List.mem_cons.mp hkk with rfl | hkk
        · exact hk
        · exact h.notTwice k hkk
      · intro k hkk
        by_cases hke : k = me
        · subst hke
          exact ⟨self, by simp, by simp⟩
        · obtain ⟨v, hv, he⟩ := h.positional k ((List.mem_cons.mp hkk).resolve_left hke)
          have hb : (k == me) = false := by simpa using hke
          refine ⟨v, ?_, by simp only [if_neg hke]; exact he⟩
          rw [defaultOf_cons hke]
          simp only [List.zip_cons_cons, List.lookup, hb]
          exact hv
      · intro k hkk
        obtain ⟨v, hv, he⟩ := h.keyword k hkk
        exact ⟨v, hv, by simp only [if_neg (show k ≠ me from fun e => hme.2.1 (e ▸ hkk))]; exact he⟩
      · intro n hn
        have := h.star n hn
        rw [if_neg (show n ≠ me from fun e => hme.2.2.1 (e ▸ hn)), this]
        simp
      · intro n hn
        have := h.starStar n hn
        rw [if_neg (show n ≠ me from fun e => hme.2.2.2 (e ▸ hn)), this]
        congr 2
        funext k
        by_cases hke : k = me
        · subst hke; simp [hk]
        · simp [hke]
      · intro n e1 e2 e3 e4
        simp only [List.mem_cons, not_or] at e1
        rw [if_neg e1.1]
        exact h.onlyParameters n e1.2 e2 e3 e4
    · intro n
      rw [hs]
      simp only [List.head?_cons, Option.some.injEq]
      by_cases hn : n = me
      · subst hn
        rw [if_pos rfl]
        exact h.onlyParameters n hme.1 hme.2.1 hme.2.2.1 hme.2.2.2
      · rw [if_neg (fun e => hn e.symm), if_neg hn]
  · rintro ⟨full, h, henv⟩
    unfold Binds at h
    rw [hs] at h henv
    simp only [List.head?_cons, Option.some.injEq] at henv
    have henv' : ∀ n, n ≠ me → env n = full n := fun n hn => by rw [henv, if_neg (fun e => hn e.symm)]
    refine ⟨?_, ?_, ?_, ?_, ?_, ?_, ?_, ?_⟩
    · rcases h.notTooMany with h | h
      · left; simp only [List.length_cons] at h; omega
      · exact .inr h
    · intro k hkk
      rcases h.known k hkk with h | h | h
      · rcases List.mem_cons.mp h with rfl | h
        · exact absurd hk hkk
        · exact .inl h
      · exact .inr (.inl h)
      · exact .inr (.inr h)
    · intro k hkk
      exact h.notTwice k (by rw [List.length_cons, List.take_succ_cons]; exact .tail _ hkk)
    · intro k hkk
      have hke : k ≠ me := fun e => hme.1 (e ▸ hkk)
      have hb : (k == me) = false := by simpa using hke
      obtain ⟨v, hv, he⟩ := h.positional k (.tail _ hkk)
      refine ⟨v, ?_, by rw [henv' k hke]; exact he⟩
      rw [defaultOf_cons hke] at hv
      simp only [List.zip_cons_cons, List.lookup, hb] at hv
      exact hv
    · intro k hkk
      obtain ⟨v, hv, he⟩ := h.keyword k hkk
      exact ⟨v, hv, by rw [henv' k (fun e => hme.2.1 (e ▸ hkk))]; exact he⟩
    · intro n hn
      rw [henv' n (fun e => hme.2.2.1 (e ▸ hn)), h.star n hn]
      simp
    · intro n hn
      rw [henv' n (fun e => hme.2.2.2 (e ▸ hn)), h.starStar n hn]
      congr 2
      funext k
      by_cases hke : k = me
      · subst hke; simp [hk]
      · simp [hke]
    · intro n e1 e2 e3 e4
      by_cases hn : n = me
      · subst hn; rw [henv, if_pos rfl]
      · rw [henv' n hn]
        exact h.onlyParameters n (by simp [hn, e1]) e2 e3 e4

/-! ## C24 -/

theorem sameKey_iff {b b' : Dict (Value V)} : SameKey b b' ↔ sem b = sem b' :=
  ⟨fun h => funext h, fun h n => by rw [h]⟩

/-- **C24** for functions: two calls that Python accepts get equal keys exactly when Python binds them to the
same values.  The key that fbuild's decorators add is left out of the comparison.  Missing for the full claim:
functions with a parameter `kw` or `kwargs` that is not `**kwargs`, and instances of `PersistentObject`. -/
theorem C24_same_key_partial (ops : Ops V) (s : Sig V) (hf : s.method = false) (hwf : WF s) (hpl : Plain s)
    (as as' : List V) (kws kws' : Dict V) (hk : Keys kws) (hk' : Keys kws') (hI : InnerOk s kws)
    (hI' : InnerOk s kws') (env env' : Name → Option (Bound V))
    (h : Binds s as (Dict.erase kws inner) env) (h' : Binds s as' (Dict.erase kws' inner) env') :
    ∃ b b', bindArgs ops s as kws = .ok b ∧ bindArgs ops s as' kws' = .ok b' ∧ (SameKey b b' ↔ env = env') := by
  have hfn : s.fnArgs = s.args := by simp [Sig.fnArgs, hf]
  have one : ∀ as kws env, Keys kws → InnerOk s kws → Binds s as (Dict.erase kws inner) env →
      ∃ b, bindArgs ops s as kws = .ok b ∧ sem b = env := by
    intro as kws env hk hI h
    cases hb : bindArgs ops s as kws with
    | error e =>
      have := (bind_err ops hwf hpl hk hI hb).2
      rw [hfn] at this
      exact absurd ⟨env, h⟩ this
    | ok b =>
      have := bind_ok ops hwf hpl hk hI hb (by rw [hfn]; exact h.notTooMany)
      rw [hfn] at this
      exact ⟨b, rfl, this.unique h⟩
  obtain ⟨b, hb, he⟩ := one as kws env hk hI h
  obtain ⟨b', hb', he'⟩ := one as' kws' env' hk' hI' h'
  refine ⟨b, b', hb, hb', ?_⟩
  rw [sameKey_iff, he, he']

/-- **C24** for bound methods, where no keyword has the name of the object. -/
theorem C24_method_partial (ops : Ops V) (s : Sig V) (hm : s.method = true) (me : Name) (ps : List Name)
    (hs : s.args = me :: ps) (hme : me ∉ s.names) (hwf : WF s) (hpl : Plain s) (self self' : V)
    (as as' : List V) (kws kws' : Dict V) (hk : Keys kws) (hk' : Keys kws') (hI : InnerOk s kws)
    (hI' : InnerOk s kws') (hkme : kws.lookup me = none) (hkme' : kws'.lookup me = none)
    (env env' : Name → Option (Bound V))
    (h : MethodBinds s self as (Dict.erase kws inner) env)
    (h' : MethodBinds s self' as' (Dict.erase kws' inner) env') :
    ∃ b b', bindArgs ops s as kws = .ok b ∧ bindArgs ops s as' kws' = .ok b' ∧ (SameKey b b' ↔ env = env') := by
  have hfn : s.fnArgs = ps := by simp [Sig.fnArgs, hm, hs]
  have hme' : me ∉ ps ∧ me ∉ s.kwonly ∧ s.varargs ≠ some me ∧ s.varkw ≠ some me := by
    unfold Sig.names at hme
    simp only [List.mem_append, not_or, hfn] at hme
    exact ⟨hme.1.1.1, hme.1.1.2, fun h => hme.1.2 (by simp [h]), fun h => hme.2 (by simp [h])⟩
  have one : ∀ self as kws env, Keys kws → InnerOk s kws → kws.lookup me = none →
      MethodBinds s self as (Dict.erase kws inner) env → ∃ b, bindArgs ops s as kws = .ok b ∧ sem b = env := by
    intro self as kws env hk hI hkme h
    rw [← method_iff hs hme' self (by rw [lookup_erase]; split <;> simp [hkme])] at h
    cases hb : bindArgs ops s as kws with
    | error e =>
      have := (bind_err ops hwf hpl hk hI hb).2
      rw [hfn] at this
      exact absurd ⟨env, h⟩ this
    | ok b =>
      have := bind_ok ops hwf hpl hk hI hb (by rw [hfn]; exact h.notTooMany)
      rw [hfn] at this
      exact ⟨b, rfl, this.unique h⟩
  obtain ⟨b, hb, he⟩ := one self as kws env hk hI hkme h
  obtain ⟨b', hb', he'⟩ := one self' as' kws' env' hk' hI' hkme' h'
  refine ⟨b, b', hb, hb', ?_⟩
  rw [sameKey_iff, he, he']

/-! ## C25 -/

/-- **C25**: for functions without keyword-only parameters or with `*args`, `bind_args` raises `TypeError`
exactly when Python does, and nothing else. -/
theorem C25_rejects_partial (ops : Ops V) (s : Sig V) (hf : s.method = false) (hwf : WF s) (hpl : Plain s)
    (as : List V) (kws : Dict V) (hk : Keys kws) (hin : kws.lookup inner = none)
    (hs : s.kwonly = [] ∨ s.varargs ≠ none ∨ as.length ≤ s.args.length) :
    (bindArgs ops s as kws = .error .typeError ↔ ¬ ∃ env, Binds s as kws env) ∧
    ((∃ b, bindArgs ops s as kws = .ok b) ↔ ∃ env, Binds s as kws env) := by
  have hfn : s.fnArgs = s.args := by simp [Sig.fnArgs, hf]
  have hI : InnerOk s kws := fun h => absurd hin h
  have herase : ∀ env, BindsTo s.fnArgs s as (Dict.erase kws inner) env ↔ Binds s as kws env := by
    intro env
    unfold Binds
    rw [hfn]
    have : Dict.erase kws inner = kws := by
      unfold Dict.erase
      rw [List.filter_eq_self]
      rintro ⟨a, v⟩ hm
      have : inner ∉ kws.map Prod.fst := lookup_none.mp hin
      simp only [decide_eq_true_eq]
      rintro rfl
      exact this (List.mem_map.mpr ⟨_, hm, rfl⟩)
    rw [this]
  have hmany : (∃ b, bindArgs ops s as kws = .ok b) → as.length ≤ s.fnArgs.length ∨ s.varargs ≠ none := by
    rintro ⟨b, hb⟩
    rcases hs with h | h | h
    · by_cases hva : s.varargs = none
      · left
        cases hn : normalizeArgs s as kws with
        | error e =>
          unfold bindArgs at hb
          rw [hn] at hb
          simp [bind, Except.bind] at hb
        | ok r =>
          unfold normalizeArgs at hn
          split at hn
          · split at hn
            · simp at hn
            · rename_i hc
              simp only [ne_eq, not_or, Decidable.not_not] at hc
              simp [hc.1]
          · split at hn
            · simp at hn
            · rename_i hc
              rw [h] at hc
              simp only [List.length_nil, Nat.add_zero, hva, and_true, Nat.not_lt, gt_iff_lt] at hc
              exact hc
      · exact .inr hva
    · exact .inr h
    · rw [hfn]; exact .inl h
  cases hb : bindArgs ops s as kws with
  | error e =>
    obtain ⟨he, hno⟩ := bind_err ops hwf hpl hk hI hb
    have hno' : ¬ ∃ env, Binds s as kws env := by
      rintro ⟨env, h⟩
      exact hno ⟨env, (herase env).mpr h⟩
    subst he
    exact ⟨⟨fun _ => hno', fun _ => rfl⟩, ⟨fun ⟨b, h⟩ => by simp at h, fun h => absurd h hno'⟩⟩
  | ok b =>
    have hB := bind_ok ops hwf hpl hk hI hb (hmany ⟨b, hb⟩)
    have hyes : ∃ env, Binds s as kws env := ⟨sem b, (herase _).mp hB⟩
    exact ⟨⟨fun h => by simp at h, fun h => absurd hyes h⟩, ⟨fun _ => hyes, fun _ => ⟨b, rfl⟩⟩⟩

end

/-! ## Examples and violations -/

deriving instance DecidableEq for Except

/-- Arguments that are numbers. -/
def intOps : Ops Int := { probe := fun _ => .raises .typeError, isInner := fun _ => false }

/-- `def foo(a, b, c=10, *args, e, f=20, **kwargs)` -/
def foo : Sig Int :=
  { args := ["a", "b", "c"], defaults := [10], varargs := some "args", kwonly := ["e", "f"],
    kwdefaults := [("f", 20)], varkw := some "kwargs" }

theorem foo_wf : WF foo := ⟨by decide, by decide⟩
theorem foo_plain : Plain foo := by unfold Plain; decide

/-- `foo(1, 2, e=6)` and `foo(b=2, a=1, f=20, e=6, c=10)` have the same key, `foo(1, 2, 11, e=6)` another one. -/
example : ∃ env, Binds foo [1, 2] [("e", 6)] env ∧
    Binds foo [] [("b", 2), ("a", 1), ("f", 20), ("e", 6), ("c", 10)] env := by
  have h1 := ((C25_rejects_partial intOps foo rfl foo_wf foo_plain [1, 2] [("e", 6)] (by decide) (by decide)
    (.inr (.inl (by decide)))).2.mp ⟨[("a", .one 1), ("b", .one 2), ("c", .one 10), ("args", .tuple []),
      ("e", .one 6), ("f", .one 20), ("kwargs", .dict [])], by decide⟩)
  have h2 := ((C25_rejects_partial intOps foo rfl foo_wf foo_plain []
    [("b", 2), ("a", 1), ("f", 20), ("e", 6), ("c", 10)] (by decide) (by decide)
    (.inr (.inl (by decide)))).2.mp ⟨[("a", .one 1), ("b", .one 2), ("c", .one 10), ("args", .tuple []),
      ("e", .one 6), ("f", .one 20), ("kwargs", .dict [])], by decide⟩)
  obtain ⟨env, h1⟩ := h1
  obtain ⟨env', h2⟩ := h2
  have he1 : Dict.erase [("e", (6 : Int))] inner = [("e", 6)] := by decide
  have he2 : Dict.erase [("b", (2 : Int)), ("a", 1), ("f", 20), ("e", 6), ("c", 10)] inner =
      [("b", 2), ("a", 1), ("f", 20), ("e", 6), ("c", 10)] := by decide
  obtain ⟨b, b', hb, hb', hiff⟩ := C24_same_key_partial intOps foo rfl foo_wf foo_plain [1, 2] [] [("e", 6)]
    [("b", 2), ("a", 1), ("f", 20), ("e", 6), ("c", 10)] (by decide) (by decide)
    (fun h => absurd (by decide) h) (fun h => absurd (by decide) h) env env' (by rw [he1]; exact h1)
    (by rw [he2]; exact h2)
  have hbb : bindArgs intOps foo [1, 2] [("e", 6)] =
      bindArgs intOps foo [] [("b", 2), ("a", 1), ("f", 20), ("e", 6), ("c", 10)] := by decide
  rw [hb, hb'] at hbb
  simp only [Except.ok.injEq] at hbb
  have hee : env = env' := hiff.mp (hbb ▸ fun _ => rfl)
  exact ⟨env, h1, hee ▸ h2⟩

/-- Python rejects `foo(1, 2, a=3, e=4)`, and so does `bind_args`. -/
example : ¬ ∃ env, Binds foo [1, 2] [("a", 3), ("e", 4)] env :=
  (C25_rejects_partial intOps foo rfl foo_wf foo_plain [1, 2] [("a", 3), ("e", 4)] (by decide) (by decide)
    (.inr (.inl (by decide)))).1.mp (by decide)

/-- `def f(a, *, b=0)` -/
def keywordOnly : Sig Int := { args := ["a"], kwonly := ["b"], kwdefaults := [("b", 0)] }

/-- **C25** is false: `f(1, 2)` is accepted for `def f(a, *, b=0)`, with the key of `f(1)`. -/
theorem C25_surplus_violated :
    bindArgs intOps keywordOnly [1, 2] [] = .ok [("a", .one 1), ("b", .one 0)] ∧
    bindArgs intOps keywordOnly [1] [] = .ok [("a", .one 1), ("b", .one 0)] ∧
    ¬ ∃ env, Binds keywordOnly [1, 2] [] env := by
  refine ⟨by decide, by decide, ?_⟩
  rintro ⟨env, h⟩
  rcases h.notTooMany with h | h
  · exact absurd h (by decide)
  · exact h rfl

/-- **C25** is false: for `def f(kw)` the call `f(5)` is valid, but `bind_args` raises `TypeError`, since it
looks for a key in 5. -/
theorem C25_kw_violated :
    bindArgs intOps { args := ["kw"] } [5] [] = .error .typeError ∧
    ∃ env, Binds ({ args := ["kw"] } : Sig Int) [5] [] env := by
  refine ⟨by decide, fun n => if n = "kw" then some (.one 5) else none, ?_⟩
  refine ⟨.inl (by decide), by simp, by simp, ?_, by simp, by simp, by simp, ?_⟩
  · intro k hk
    simp only [List.mem_singleton] at hk
    subst hk
    exact ⟨5, by decide, rfl⟩
  · intro n hn _ _ _
    simp only [List.mem_singleton] at hn
    simp [hn]

/-- **C25** is false: for a method with `**kw` the keyword `self` is accepted. -/
theorem C25_self_violated :
    bindArgs intOps { args := ["self"], varkw := some "kw", method := true } [] [("self", 1)] =
      .ok [("kw", .dict [("self", 1)])] ∧
    ∀ self, ¬ ∃ env, MethodBinds ({ args := ["self"], varkw := some "kw", method := true } : Sig Int)
      self [] [("self", 1)] env := by
  refine ⟨by decide, ?_⟩
  rintro self ⟨env, full, h, _⟩
  have := h.notTwice "self" (by simp)
  exact absurd this (by decide)

/-- `PersistentMeta.__call_super__(cls, *args, **kwargs)` (db/__init__.py 119-120), a bound method, whose
arguments are the key of a `PersistentObject` -/
def callSuper : Sig Int := { args := ["cls"], varargs := some "args", varkw := some "kwargs", method := true }

/-- `def __init__(self, ctx, x)` -/
def init : Sig Int := { args := ["self", "ctx", "x"] }

/-- **C24** is false for `PersistentObject`: with `__init__(self, ctx, x)` the calls `Foo(ctx, 1)` and
`Foo(ctx, x=1)` bind `x` to the same value, but have different keys. -/
theorem C24_persistent_violated :
    (∃ env, Binds init [7, 8, 1] [] env ∧ Binds init [7, 8] [("x", 1)] env) ∧
    ∃ b b', bindArgs intOps callSuper [8, 1] [] = .ok b ∧ bindArgs intOps callSuper [8] [("x", 1)] = .ok b' ∧
      ¬ SameKey b b' := by
  constructor
  · let env : Name → Option (Bound Int) := fun n =>
      if n = "self" then some (.one 7) else if n = "ctx" then some (.one 8)
      else if n = "x" then some (.one 1) else none
    have hout : ∀ n, n ∉ ["self", "ctx", "x"] → env n = none := by
      intro n hn
      simp only [List.mem_cons, List.not_mem_nil, or_false, not_or] at hn
      simp [env, hn]
    refine ⟨env, ⟨.inl (by decide), by simp, by simp, ?_, by simp [init], by simp [init], by simp [init],
      fun n hn _ _ _ => hout n hn⟩, ⟨.inl (by decide), ?_, by decide, ?_, by simp [init], by simp [init],
      by simp [init], fun n hn _ _ _ => hout n hn⟩⟩
    · intro k hk
      simp only [init, List.mem_cons, List.not_mem_nil, or_false] at hk
      rcases hk with rfl | rfl | rfl
      · exact ⟨7, by decide, rfl⟩
      · exact ⟨8, by decide, rfl⟩
      · exact ⟨1, by decide, rfl⟩
    · intro k hk
      left
      by_cases hx : k = "x"
      · subst hx; decide
      · have hb : (k == "x") = false := by simpa using hx
        simp [List.lookup, hb] at hk
    · intro k hk
      simp only [init, List.mem_cons, List.not_mem_nil, or_false] at hk
      rcases hk with rfl | rfl | rfl
      · exact ⟨7, by decide, rfl⟩
      · exact ⟨8, by decide, rfl⟩
      · exact ⟨1, by decide, rfl⟩
  · refine ⟨[("args", .tuple [8, 1]), ("kwargs", .dict [])],
      [("args", .tuple [8]), ("kwargs", .dict [("x", 1)])], by decide, by decide, ?_⟩
    intro h
    have := h "args"
    simp [sem, List.lookup, Value.bound] at this

end Verif.Functools
