import Verif.Config.Core
/-!
# C75–C78: configuration tests

C75: the fields of a class of tests; C76: the names under which C++ tests look; C77: what a test returns;
C78: the listings of functions, macros and so on.
-/
namespace Verif.Config
open Verif (Dict)

/-! ## What is said about bodies of classes -/

/-- when the body has been executed, `k` is bound to `v` -/
def Holds (body : List Stmt) (k : Text) (v : Val) : Prop :=
  ∃ pre post, body = pre ++ .set k v :: post ∧ ∀ s ∈ post, s.key ≠ k

/-- no name is assigned again after it was deleted -/
def NoReset (body : List Stmt) : Prop :=
  ∀ pre k mid v post, body ≠ pre ++ .del k :: mid ++ .set k v :: post

/-- the attribute `k` of the last of several classes, each derived from the one before, is `v` -/
def Attribute (bodies : List (List Stmt)) (k : Text) (v : Val) : Prop :=
  ∃ l b r, bodies = l ++ b :: r ∧ Holds b k v ∧ ∀ c ∈ r, ∀ w, ¬ Holds c k w

/-- `a` stands before `b` -/
def Before (l : List Text) (a b : Text) : Prop := ∃ x y z, l = x ++ a :: y ++ b :: z

/-- the body assigns `a` for the first time before it assigns `b` for the first time -/
def Earlier (body : List Stmt) (a b : Text) : Prop :=
  ∃ pre v mid w post, body = pre ++ .set a v :: mid ++ .set b w :: post ∧
    (∀ x, .set b x ∉ pre) ∧ (∀ x, .set b x ∉ mid) ∧ a ≠ b

/-! ## The table of a body -/

theorem Table.run_append (t : Table) (a b : List Stmt) :
    t.run (a ++ b) = (t.run a).bind (fun t => t.run b) := by
  induction a generalizing t with
  | nil => rfl
  | cons s a ih =>
    simp only [List.cons_append, Table.run]
    cases t.step s with
    | none => rfl
    | some t => exact ih t

theorem snoc_ind {α : Type} {P : List α → Prop} (h0 : P []) (hs : ∀ l a, P l → P (l ++ [a])) : ∀ l, P l := by
  intro l
  have : ∀ l : List α, P l.reverse := by
    intro l
    induction l with
    | nil => exact h0
    | cons a l ih => rw [List.reverse_cons]; exact hs _ _ ih
  simpa using this l.reverse

theorem snoc_cases {α : Type} (l : List α) : l = [] ∨ ∃ l' a, l = l' ++ [a] := by
  rcases List.eq_nil_or_concat l with h | ⟨l', a, h⟩
  · exact .inl h
  · exact .inr ⟨l', a, by simpa using h⟩

theorem holds_snoc {body : List Stmt} {s : Stmt} {k : Text} {v : Val} :
    Holds (body ++ [s]) k v ↔ s = .set k v ∨ (s.key ≠ k ∧ Holds body k v) := by
  constructor
  · rintro ⟨pre, post, e, hp⟩
    rcases snoc_cases post with rfl | ⟨post', z, rfl⟩
    · obtain ⟨_, e2⟩ := List.append_inj' (by simpa using e : body ++ [s] = pre ++ [Stmt.set k v]) rfl
      simp only [List.cons.injEq, and_true] at e2
      exact .inl e2
    · have e' : body ++ [s] = (pre ++ .set k v :: post') ++ [z] := by simpa using e
      obtain ⟨e1, e2⟩ := List.append_inj' e' rfl
      simp only [List.cons.injEq, and_true] at e2
      subst e2
      exact .inr ⟨hp s (by simp), pre, post', e1, fun x hx => hp x (by simp [hx])⟩
  · rintro (rfl | ⟨hk, pre, post, rfl, hp⟩)
    · exact ⟨body, [], rfl, by simp⟩
    · refine ⟨pre, post ++ [s], by simp, ?_⟩
      intro x hx
      rcases List.mem_append.1 hx with hx | hx
      · exact hp x hx
      · simp only [List.mem_singleton] at hx; subst hx; exact hk

theorem Holds.unique {body : List Stmt} {k : Text} : ∀ {v w : Val}, Holds body k v → Holds body k w → v = w := by
  induction body using snoc_ind with
  | h0 => rintro v w ⟨pre, post, e, _⟩; simp at e
  | hs body s ih =>
    intro v w hv hw
    rcases holds_snoc.1 hv with hv | ⟨h1, hv⟩ <;> rcases holds_snoc.1 hw with hw | ⟨h2, hw⟩
    · rw [hv] at hw; cases hw; rfl
    · rw [hv] at h2; exact absurd rfl h2
    · rw [hw] at h1; exact absurd rfl h1
    · exact ih hv hw

theorem run_dict {body : List Stmt} : ∀ {t : Table}, Table.run {} body = some t →
    ∀ k v, t.dict.get? k = some v ↔ Holds body k v := by
  induction body using snoc_ind with
  | h0 =>
    intro t h k v
    simp only [Table.run, Option.some.injEq] at h
    subst h
    simp only [Dict.get?_nil, reduceCtorEq, false_iff]
    rintro ⟨pre, post, e, _⟩
    simp at e
  | hs body s ih =>
    intro t h k v
    rw [Table.run_append] at h
    cases h' : Table.run {} body with
    | none => simp [h'] at h
    | some t' =>
      simp only [h', Option.bind_some, Table.run] at h
      rw [holds_snoc, ← ih h' k v]
      cases s with
      | set k' v' =>
        simp only [Table.step, Option.some.injEq] at h
        subst h
        simp only [Dict.get?_set, Stmt.set.injEq, Stmt.key]
        split
        · rename_i hk; subst hk; simp
        · rename_i hk; simp [hk]
      | del k' =>
        simp only [Table.step] at h
        by_cases hk : (t'.dict.get? k').isSome = true
        · simp only [hk, if_true, Option.some.injEq] at h
          subst h
          · simp only [Dict.get?_erase, Stmt.key, reduceCtorEq, false_or]
            split
            · rename_i hk; subst hk; simp
            · rename_i hk; simp [hk]
        · simp [hk] at h

theorem run_names {body : List Stmt} : ∀ {t : Table}, Table.run {} body = some t →
    (∀ k, k ∈ t.names ↔ ∃ v, .set k v ∈ body) ∧ (NoReset body → t.names.Nodup) ∧
    (∀ a b, Earlier body a b → Before t.names a b) := by
  induction body using snoc_ind with
  | h0 =>
    intro t h
    simp only [Table.run, Option.some.injEq] at h
    subst h
    refine ⟨by simp, by simp, ?_⟩
    rintro a b ⟨pre, v, mid, w, post, e, _⟩
    simp at e
  | hs body s ih =>
    intro t h
    rw [Table.run_append] at h
    cases h' : Table.run {} body with
    | none => simp [h'] at h
    | some t' =>
      simp only [h', Option.bind_some, Table.run] at h
      obtain ⟨i1, i2, i3⟩ := ih h'
      have hbody : NoReset (body ++ [s]) → NoReset body := by
        intro hn pre k mid v post e
        exact hn pre k mid v (post ++ [s]) (by simp [e])
      -- the parts of `Earlier`
      have hearly : ∀ a b, Earlier (body ++ [s]) a b →
          Earlier body a b ∨ ((∃ w, s = .set b w) ∧ (∃ v, .set a v ∈ body) ∧ ∀ x, .set b x ∉ body) := by
        rintro a b ⟨pre, v, mid, w, post, e, hp, hm, hne⟩
        rcases snoc_cases post with rfl | ⟨post', z, rfl⟩
        · have e' : body ++ [s] = (pre ++ .set a v :: mid) ++ [Stmt.set b w] := by simpa using e
          obtain ⟨e1, e2⟩ := List.append_inj' e' rfl
          simp only [List.cons.injEq, and_true] at e2
          refine .inr ⟨⟨w, e2⟩, ⟨v, by rw [e1]; simp⟩, ?_⟩
          intro x hx
          rw [e1] at hx
          rcases List.mem_append.1 hx with hx | hx
          · exact hp x hx
          · rcases List.mem_cons.1 hx with hx | hx
            · cases hx; exact hne rfl
            · exact hm x hx
        · have e' : body ++ [s] = (pre ++ .set a v :: mid ++ .set b w :: post') ++ [z] := by simpa using e
          obtain ⟨e1, _⟩ := List.append_inj' e' rfl
          exact .inl ⟨pre, v, mid, w, post', e1, hp, hm, hne⟩
      cases s with
      | set k' v' =>
        simp only [Table.step, Option.some.injEq] at h
        subst h
        by_cases hk : (t'.dict.get? k').isSome = true
        · simp only [hk, if_true]
          obtain ⟨w, hw⟩ := Option.isSome_iff_exists.1 hk
          obtain ⟨pre, post, e, _⟩ := (run_dict h' k' w).1 hw
          have hmem : Stmt.set k' w ∈ body := by rw [e]; simp
          refine ⟨?_, fun hn => i2 (hbody hn), ?_⟩
          · intro k
            rw [i1]
            constructor
            · rintro ⟨v, hv⟩; exact ⟨v, by simp [hv]⟩
            · rintro ⟨v, hv⟩
              rcases List.mem_append.1 hv with hv | hv
              · exact ⟨v, hv⟩
              · simp only [List.mem_singleton, Stmt.set.injEq] at hv
                rw [hv.1]; exact ⟨w, hmem⟩
          · intro a b hab
            rcases hearly a b hab with h1 | ⟨⟨x, hx⟩, _, h3⟩
            · exact i3 a b h1
            · simp only [Stmt.set.injEq] at hx
              rw [hx.1] at hmem
              exact absurd hmem (h3 w)
        · simp only [hk, Bool.false_eq_true, if_false]
          have hnone : ∀ w, ¬ Holds body k' w := by
            intro w hw
            rw [← run_dict h'] at hw
            simp [hw] at hk
          refine ⟨?_, ?_, ?_⟩
          · intro k
            rw [List.mem_append, i1, List.mem_singleton]
            constructor
            · rintro (⟨v, hv⟩ | rfl)
              · exact ⟨v, by simp [hv]⟩
              · exact ⟨v', by simp⟩
            · rintro ⟨v, hv⟩
              rcases List.mem_append.1 hv with hv | hv
              · exact .inl ⟨v, hv⟩
              · simp only [List.mem_singleton, Stmt.set.injEq] at hv
                exact .inr hv.1
          · intro hn
            rw [List.nodup_append]
            refine ⟨i2 (hbody hn), by simp, ?_⟩
            intro a ha b hb hab
            simp only [List.mem_singleton] at hb
            subst hb; subst hab
            obtain ⟨w, hw⟩ := (i1 a).1 ha
            -- it was assigned and does not hold any more: there is a `del` after the last assignment
            have : ∀ l : List Stmt, .set a w ∈ l → (∀ x, ¬ Holds l a x) →
                ∃ pre mid, l = pre ++ .del a :: mid := by
              intro l
              induction l using snoc_ind with
              | h0 => simp
              | hs l s ihl =>
                intro hm hno
                by_cases hsk : s.key = a
                · cases s with
                  | set k x =>
                    simp only [Stmt.key] at hsk
                    subst hsk
                    exact absurd (holds_snoc.2 (.inl rfl)) (hno x)
                  | del k =>
                    simp only [Stmt.key] at hsk
                    subst hsk
                    exact ⟨l, [], rfl⟩
                · have hm' : Stmt.set a w ∈ l := by
                    rcases List.mem_append.1 hm with hm | hm
                    · exact hm
                    · simp only [List.mem_singleton] at hm
                      rw [← hm] at hsk; exact absurd rfl hsk
                  obtain ⟨pre, mid, e⟩ := ihl hm' (fun x hx => hno x (holds_snoc.2 (.inr ⟨hsk, hx⟩)))
                  exact ⟨pre, mid ++ [s], by simp [e]⟩
            obtain ⟨pre, mid, e⟩ := this body hw hnone
            exact hn pre a mid v' [] (by simp [e])
          · intro a b hab
            rcases hearly a b hab with h1 | ⟨⟨x, hx⟩, ⟨v, hv⟩, _⟩
            · obtain ⟨x, y, z, e⟩ := i3 a b h1
              exact ⟨x, y, z ++ [k'], by simp [e]⟩
            · simp only [Stmt.set.injEq] at hx
              obtain ⟨p, q, e⟩ := List.append_of_mem ((i1 a).2 ⟨v, hv⟩)
              exact ⟨p, q, [], by simp [e, hx.1]⟩
      | del k' =>
        simp only [Table.step] at h
        by_cases hk : (t'.dict.get? k').isSome = true
        · simp only [hk, if_true, Option.some.injEq] at h
          subst h
          · refine ⟨?_, fun hn => i2 (hbody hn), ?_⟩
            · intro k; rw [i1]; simp
            · intro a b hab
              rcases hearly a b hab with h1 | ⟨⟨x, hx⟩, _⟩
              · exact i3 a b h1
              · cases hx
        · simp [hk] at h

/-! ## Adding the attributes to the class -/

theorem addAll_names (attrs : Dict Text Val) : ∀ (names : List Text) (a : Adding),
    (addAll attrs names a).fieldNames = a.fieldNames ++
      names.filter (fun k => match attrs.get? k with | some v => v.isField | none => false) := by
  intro names
  induction names with
  | nil => intro a; simp [addAll]
  | cons k names ih =>
    intro a
    simp only [addAll]
    cases h : attrs.get? k with
    | none => simp [ih, List.filter_cons, h]
    | some v =>
      simp only [ih, List.filter_cons, h]
      cases v <;> simp [Adding.add, Val.isField]

theorem addAll_own (attrs : Dict Text Val) : ∀ (names : List Text) (a : Adding) (k : Text),
    (addAll attrs names a).own.get? k =
      if k ∈ names then (attrs.get? k).or (a.own.get? k) else a.own.get? k := by
  intro names
  induction names with
  | nil => intro a k; simp [addAll]
  | cons n names ih =>
    intro a k
    simp only [addAll]
    cases h : attrs.get? n with
    | none =>
      simp only [ih, List.mem_cons]
      by_cases hk : k = n
      · subst hk; simp [h]
      · simp [hk]
    | some v =>
      simp only [ih, List.mem_cons]
      have : (a.add n v).own.get? k = if n = k then some v else a.own.get? k := by
        cases v <;> simp [Adding.add]
      rw [this]
      by_cases hk : n = k
      · subst hk; simp [h]
      · have hk' : ¬ k = n := fun e => hk e.symm
        simp [hk, hk']

theorem Before.filter {l : List Text} {a b : Text} {f : Text → Bool} (h : Before l a b) (ha : f a = true)
    (hb : f b = true) : Before (l.filter f) a b := by
  obtain ⟨x, y, z, rfl⟩ := h
  refine ⟨x.filter f, y.filter f, z.filter f, ?_⟩
  simp [List.filter_append, List.filter_cons, ha, hb]

/-- what a class consists of -/
theorem newClass_spec {heap : Heap} {parents : List Cls} {rest : List (Dict Text Val)} {body : List Stmt}
    {heap' : Heap} {c : Cls} (h : newClass heap parents rest body = some (heap', c)) :
    ∃ own inherited mine, c.dicts = own :: rest ∧ c.fieldNames = inherited ++ mine ∧
      (∀ k v, own.get? k = some v ↔ Holds body k v) ∧
      (∃ f : Text → Bool, inherited = parents.flatMap (fun p => p.fieldNames.filter f) ∧
        ∀ k, f k = true ↔ ∀ v, ¬ Holds body k v) ∧
      (∀ k, k ∈ mine ↔ ∃ v, Holds body k v ∧ v.isField = true) ∧
      (NoReset body → mine.Nodup) ∧
      (∀ a b v w, Earlier body a b → Holds body a v → v.isField = true → Holds body b w → w.isField = true →
        Before mine a b) := by
  simp only [newClass] at h
  cases ht : Table.run {} body with
  | none => simp [ht] at h
  | some t =>
    simp only [ht, Option.some.injEq, Prod.mk.injEq] at h
    obtain ⟨-, rfl⟩ := h
    obtain ⟨n1, n2, n3⟩ := run_names ht
    have hd := run_dict ht
    refine ⟨_, _, _, rfl, addAll_names .., ?_, ⟨fun k => (t.dict.get? k).isNone, rfl, ?_⟩, ?_, ?_, ?_⟩
    · intro k v
      rw [addAll_own, ← hd]
      simp only [Dict.get?_nil, Option.or_none]
      split
      · exact Iff.rfl
      · rename_i hk
        simp only [reduceCtorEq, false_iff]
        rw [hd]
        rintro ⟨pre, post, e, _⟩
        exact hk ((n1 k).2 ⟨v, by rw [e]; simp⟩)
    · intro k
      simp only [Option.isNone_iff_eq_none]
      constructor
      · intro hk v hv
        rw [← hd, hk] at hv; cases hv
      · intro hk
        cases hg : t.dict.get? k with
        | none => rfl
        | some v => exact absurd ((hd k v).1 hg) (hk v)
    · intro k
      simp only [List.mem_filter]
      constructor
      · rintro ⟨_, h2⟩
        split at h2
        · rename_i v hv; exact ⟨v, (hd k v).1 hv, h2⟩
        · cases h2
      · rintro ⟨v, hv, hf⟩
        have hv' := (hd k v).2 hv
        obtain ⟨pre, post, e, _⟩ := hv
        exact ⟨(n1 k).2 ⟨v, by rw [e]; simp⟩, by simp [hv', hf]⟩
    · intro hn
      exact (n2 hn).sublist List.filter_sublist
    · intro a b v w he hv hvf hw hwf
      have hv' := (hd a v).2 hv
      have hw' := (hd b w).2 hw
      exact (n3 a b he).filter (by simp [hv', hvf]) (by simp [hw', hwf])

/-! ## C75 -/

theorem chain_snoc (b : List Stmt) : ∀ (bodies : List (List Stmt)) (heap : Heap) (c : Cls),
    chain heap c (bodies ++ [b]) = (chain heap c bodies).bind (fun p => subclass p.1 p.2 b) := by
  intro bodies
  induction bodies with
  | nil =>
    intro heap c
    simp only [List.nil_append, chain, Option.bind_some]
    cases subclass heap c b with
    | none => rfl
    | some p => rfl
  | cons b' bodies ih =>
    intro heap c
    simp only [List.cons_append, chain]
    cases subclass heap c b' with
    | none => rfl
    | some p => exact ih p.1 p.2

theorem attribute_snoc {bodies : List (List Stmt)} {b : List Stmt} {k : Text} {v : Val} :
    Attribute (bodies ++ [b]) k v ↔ Holds b k v ∨ ((∀ w, ¬ Holds b k w) ∧ Attribute bodies k v) := by
  constructor
  · rintro ⟨l, b', r, e, hb, hr⟩
    rcases snoc_cases r with rfl | ⟨r', z, rfl⟩
    · obtain ⟨_, e2⟩ := List.append_inj' (by simpa using e : bodies ++ [b] = l ++ [b']) rfl
      simp only [List.cons.injEq, and_true] at e2
      subst e2
      exact .inl hb
    · have e' : bodies ++ [b] = (l ++ b' :: r') ++ [z] := by simpa using e
      obtain ⟨e1, e2⟩ := List.append_inj' e' rfl
      simp only [List.cons.injEq, and_true] at e2
      subst e2
      exact .inr ⟨hr b (by simp), l, b', r', e1, hb, fun c hc => hr c (by simp [hc])⟩
  · rintro (h | ⟨h, l, b', r, e, hb, hr⟩)
    · exact ⟨bodies, b, [], rfl, h, by simp⟩
    · refine ⟨l, b', r ++ [b], by simp [e], hb, ?_⟩
      intro c hc
      rcases List.mem_append.1 hc with hc | hc
      · exact hr c hc
      · simp only [List.mem_singleton] at hc; subst hc; exact h

/-- **C75** for classes with one base: `fields()` lists each attribute that is a test, and nothing else, once, with the
value that the attribute has; inherited ones that are not defined again come first, then those of the class, in the
order in which the body assigns them. -/
theorem C75_fields_partial {heap heap' : Heap} {root c : Cls} {bodies : List (List Stmt)}
    (hroot : root.fieldNames = [] ∧ ∀ k v, getattr root.dicts k = some v → v.isField = false)
    (hc : chain heap root bodies = some (heap', c)) (hn : ∀ b ∈ bodies, NoReset b) :
    c.fieldNames.Nodup ∧
    (∀ k v, (k, some v) ∈ fields c ↔ Attribute bodies k v ∧ v.isField = true) ∧
    (∀ k, (k, none) ∉ fields c) ∧
    (∀ l b r j k v w, bodies = l ++ b :: r →
      Attribute l j v → v.isField = true → (∀ d ∈ b :: r, ∀ x, ¬ Holds d j x) →
      Holds b k w → w.isField = true → (∀ d ∈ r, ∀ x, ¬ Holds d k x) → Before c.fieldNames j k) ∧
    (∀ l b r j k v w, bodies = l ++ b :: r → Earlier b j k →
      Holds b j v → v.isField = true → (∀ d ∈ r, ∀ x, ¬ Holds d j x) →
      Holds b k w → w.isField = true → (∀ d ∈ r, ∀ x, ¬ Holds d k x) → Before c.fieldNames j k) := by
  have key : ∀ bodies : List (List Stmt), ∀ heap' c, chain heap root bodies = some (heap', c) →
      (∀ b ∈ bodies, NoReset b) →
      c.fieldNames.Nodup ∧
      (∀ k v, getattr c.dicts k = some v ↔
        Attribute bodies k v ∨ ((∀ w, ¬ Attribute bodies k w) ∧ getattr root.dicts k = some v)) ∧
      (∀ k, k ∈ c.fieldNames ↔ ∃ v, Attribute bodies k v ∧ v.isField = true) ∧
      (∀ l b r j k v w, bodies = l ++ b :: r →
        Attribute l j v → v.isField = true → (∀ d ∈ b :: r, ∀ x, ¬ Holds d j x) →
        Holds b k w → w.isField = true → (∀ d ∈ r, ∀ x, ¬ Holds d k x) → Before c.fieldNames j k) ∧
      (∀ l b r j k v w, bodies = l ++ b :: r → Earlier b j k →
        Holds b j v → v.isField = true → (∀ d ∈ r, ∀ x, ¬ Holds d j x) →
        Holds b k w → w.isField = true → (∀ d ∈ r, ∀ x, ¬ Holds d k x) → Before c.fieldNames j k) := by
    intro bodies
    induction bodies using snoc_ind with
    | h0 =>
      intro heap' c h _
      simp only [chain, Option.some.injEq, Prod.mk.injEq] at h
      obtain ⟨-, rfl⟩ := h
      have hno : ∀ k v, ¬ Attribute [] k v := by
        rintro k v ⟨l, b, r, e, _⟩
        simp at e
      refine ⟨by simp [hroot.1], ?_, ?_, ?_, ?_⟩
      · intro k v; simp [hno]
      · intro k; simp [hroot.1, hno]
      · intro l b r j k v w e; simp at e
      · intro l b r j k v w e; simp at e
    | hs bodies b ih =>
      intro heap' c h hn
      rw [chain_snoc] at h
      cases hch : chain heap root bodies with
      | none => simp [hch] at h
      | some p =>
        obtain ⟨heap1, c1⟩ := p
        simp only [hch, Option.bind_some] at h
        obtain ⟨i1, i2, i3, i4, i5⟩ := ih heap1 c1 hch (fun d hd => hn d (by simp [hd]))
        obtain ⟨own, inh, mine, s1, s2, s3, ⟨f, s4, s5⟩, s6, s7, s8⟩ := newClass_spec h
        have hinh : inh = c1.fieldNames.filter f := by simpa using s4
        have hmemi : ∀ k, k ∈ inh ↔ (∀ v, ¬ Holds b k v) ∧ ∃ v, Attribute bodies k v ∧ v.isField = true := by
          intro k
          rw [hinh, List.mem_filter, i3, s5]
          exact And.comm
        refine ⟨?_, ?_, ?_, ?_, ?_⟩
        · rw [s2, List.nodup_append]
          refine ⟨by rw [hinh]; exact i1.sublist List.filter_sublist, s7 (hn b (by simp)), ?_⟩
          intro x hx y hy hxy
          subst hxy
          obtain ⟨v, hv, _⟩ := (s6 x).1 hy
          exact ((hmemi x).1 hx).1 v hv
        · intro k v
          rw [s1]
          simp only [getattr]
          cases ho : own.get? k with
          | some v' =>
            have hv' := (s3 k v').1 ho
            simp only [Option.some.injEq, attribute_snoc]
            constructor
            · rintro rfl; exact .inl (.inl hv')
            · rintro (h1 | ⟨h1, _⟩)
              · rcases h1 with h1 | ⟨h1, _⟩
                · exact hv'.unique h1
                · exact absurd hv' (h1 v')
              · exact absurd (.inl hv') (h1 v')
          | none =>
            have hno : ∀ w, ¬ Holds b k w := by
              intro w hw
              rw [← s3, ho] at hw; cases hw
            simp only [attribute_snoc]
            rw [i2 k v]
            simp only [hno, false_or, not_false_eq_true, implies_true, true_and]
        · intro k
          rw [s2, List.mem_append, hmemi, s6]
          simp only [attribute_snoc]
          constructor
          · rintro (⟨h1, v, hv, hf⟩ | ⟨v, hv, hf⟩)
            · exact ⟨v, .inr ⟨h1, hv⟩, hf⟩
            · exact ⟨v, .inl hv, hf⟩
          · rintro ⟨v, hv | ⟨h1, hv⟩, hf⟩
            · exact .inr ⟨v, hv, hf⟩
            · exact .inl ⟨h1, v, hv, hf⟩
        · intro l b' r j k v w e hj hjf hjn hk hkf hkn
          rcases snoc_cases r with rfl | ⟨r', z, rfl⟩
          · obtain ⟨e1, e2⟩ := List.append_inj' (by simpa using e : bodies ++ [b] = l ++ [b']) rfl
            simp only [List.cons.injEq, and_true] at e2
            subst e2; subst e1
            obtain ⟨p, q, e3⟩ := List.append_of_mem ((hmemi j).2 ⟨hjn b (by simp), v, hj, hjf⟩)
            obtain ⟨p', q', e4⟩ := List.append_of_mem ((s6 k).2 ⟨w, hk, hkf⟩)
            exact ⟨p, q ++ p', q', by rw [s2, e3, e4]; simp⟩
          · have e' : bodies ++ [b] = (l ++ b' :: r') ++ [z] := by simpa using e
            obtain ⟨e1, e2⟩ := List.append_inj' e' rfl
            simp only [List.cons.injEq, and_true] at e2
            subst e2
            have hb := i4 l b' r' j k v w e1 hj hjf
              (fun d hd => hjn d (by
                rcases List.mem_cons.1 hd with hd | hd
                · simp [hd]
                · simp [hd])) hk hkf (fun d hd => hkn d (by simp [hd]))
            have := hb.filter (f := f) ((s5 j).2 (hjn b (by simp))) ((s5 k).2 (hkn b (by simp)))
            rw [← hinh] at this
            obtain ⟨x, y, z, e3⟩ := this
            exact ⟨x, y, z ++ mine, by rw [s2, e3]; simp⟩
        · intro l b' r j k v w e hjk hj hjf hjn hk hkf hkn
          rcases snoc_cases r with rfl | ⟨r', z, rfl⟩
          · obtain ⟨e1, e2⟩ := List.append_inj' (by simpa using e : bodies ++ [b] = l ++ [b']) rfl
            simp only [List.cons.injEq, and_true] at e2
            subst e2; subst e1
            obtain ⟨x, y, z, e3⟩ := s8 j k v w hjk hj hjf hk hkf
            exact ⟨inh ++ x, y, z, by rw [s2, e3]; simp⟩
          · have e' : bodies ++ [b] = (l ++ b' :: r') ++ [z] := by simpa using e
            obtain ⟨e1, e2⟩ := List.append_inj' e' rfl
            simp only [List.cons.injEq, and_true] at e2
            subst e2
            have hb := i5 l b' r' j k v w e1 hjk hj hjf
              (fun d hd => hjn d (by simp [hd])) hk hkf (fun d hd => hkn d (by simp [hd]))
            have := hb.filter (f := f) ((s5 j).2 (hjn b (by simp))) ((s5 k).2 (hkn b (by simp)))
            rw [← hinh] at this
            obtain ⟨x, y, z, e3⟩ := this
            exact ⟨x, y, z ++ mine, by rw [s2, e3]; simp⟩
  obtain ⟨k1, k2, k3, k4, k5⟩ := key bodies heap' c hc hn
  have hun : ∀ k v w, Attribute bodies k v → Attribute bodies k w → v = w := by
    intro k v w hv hw
    have h1 := (k2 k v).2 (.inl hv)
    have h2 := (k2 k w).2 (.inl hw)
    rw [h1] at h2
    simpa using h2
  refine ⟨k1, ?_, ?_, k4, k5⟩
  · intro k v
    simp only [fields, List.mem_map, Prod.mk.injEq]
    constructor
    · rintro ⟨k', hk, rfl, hv⟩
      obtain ⟨w, hw, hf⟩ := (k3 k').1 hk
      have := (k2 k' w).2 (.inl hw)
      rw [this] at hv
      simp only [Option.some.injEq] at hv
      subst hv
      exact ⟨hw, hf⟩
    · rintro ⟨hv, hf⟩
      exact ⟨k, (k3 k).2 ⟨v, hv, hf⟩, rfl, (k2 k v).2 (.inl hv)⟩
  · intro k hk
    simp only [fields, List.mem_map, Prod.mk.injEq] at hk
    obtain ⟨k', hk, rfl, hv⟩ := hk
    obtain ⟨w, hw, _⟩ := (k3 k').1 hk
    have := (k2 k' w).2 (.inl hw)
    rw [this] at hv
    cases hv

/-! ### A case for C75 -/

/-- a body that assigns these values -/
def assigns (l : List (Text × Val)) : List Stmt := l.map (fun p => .set p.1 p.2)

theorem noReset_of_sets {body : List Stmt} (h : ∀ s ∈ body, ∃ k v, s = .set k v) : NoReset body := by
  intro pre k mid v post e
  obtain ⟨k', v', h'⟩ := h (.del k) (by rw [e]; simp)
  cases h'

/-- two functions, and a class derived from it that defines one of them again and has one more; a helper is no field -/
def exBodies : List (List Stmt) :=
  [assigns [("sin".toList, .desc 0), ("helper".toList, .other 0), ("cos".toList, .desc 1)],
   assigns [("tan".toList, .desc 2), ("sin".toList, .desc 3)]]

def exHeap : Heap := fun _ => { kind := .function "double".toList ["double".toList] }

set_option maxRecDepth 20000 in
example : (chain exHeap {} exBodies).map (fun p => fields p.2) =
    some [("cos".toList, some (.desc 1)), ("tan".toList, some (.desc 2)), ("sin".toList, some (.desc 3))] := by
  decide +kernel

example : ∀ b ∈ exBodies, NoReset b := by
  intro b hb
  apply noReset_of_sets
  intro s hs
  simp only [exBodies, assigns, List.map_cons, List.map_nil, List.mem_cons, List.not_mem_nil, or_false] at hb
  rcases hb with rfl | rfl <;> simp only [List.mem_cons, List.not_mem_nil, or_false] at hs
  · rcases hs with rfl | rfl | rfl <;> exact ⟨_, _, rfl⟩
  · rcases hs with rfl | rfl <;> exact ⟨_, _, rfl⟩

/-- **C75** for several bases: no name is listed twice if no field is inherited from two of them. -/
theorem C75_bases_partial {heap heap' : Heap} {parents : List Cls} {rest : List (Dict Text Val)} {body : List Stmt}
    {c : Cls} (h : newClass heap parents rest body = some (heap', c)) (hn : NoReset body)
    (hp : (parents.flatMap Cls.fieldNames).Nodup) :
    c.fieldNames.Nodup ∧ ∀ k, k ∈ c.fieldNames ↔
      (∃ v, Holds body k v ∧ v.isField = true) ∨ ((∀ v, ¬ Holds body k v) ∧ ∃ p ∈ parents, k ∈ p.fieldNames) := by
  obtain ⟨own, inh, mine, s1, s2, s3, ⟨f, s4, s5⟩, s6, s7, s8⟩ := newClass_spec h
  have hinh : inh = (parents.flatMap Cls.fieldNames).filter f := by
    rw [s4]
    clear s4 hp h
    induction parents with
    | nil => rfl
    | cons p ps ih => simp [List.filter_append, ih]
  constructor
  · rw [s2, List.nodup_append]
    refine ⟨by rw [hinh]; exact hp.sublist List.filter_sublist, s7 hn, ?_⟩
    intro x hx y hy hxy
    subst hxy
    rw [hinh, List.mem_filter, s5] at hx
    obtain ⟨v, hv, _⟩ := (s6 x).1 hy
    exact hx.2 v hv
  · intro k
    rw [s2, List.mem_append, s6, hinh, List.mem_filter, s5, List.mem_flatMap]
    exact ⟨fun h => h.elim (fun h => .inr ⟨h.2, h.1⟩) .inl, fun h => h.elim .inr (fun h => .inl ⟨h.2, h.1⟩)⟩

set_option maxRecDepth 20000 in
example : (newClass exHeap [⟨[[("sin".toList, .desc 0)]], ["sin".toList]⟩, ⟨[[("cos".toList, .desc 1)]], ["cos".toList]⟩]
      [[("sin".toList, .desc 0)], [("cos".toList, .desc 1)]] (assigns [("sin".toList, .other 0)])).map
    (fun p => p.2.fieldNames) = some ["cos".toList] := by decide +kernel

set_option maxRecDepth 20000 in
/-- **C75** is false for a class that inherits a test of the same name from two bases, as `cmath` in
lib/fbuild/config/cxx/cmath.py:28 does with `isinf`: it is listed twice. -/
theorem C75_bases_violated :
    (newClass exHeap [⟨[[("isinf".toList, .desc 0)]], ["isinf".toList]⟩, ⟨[[("isinf".toList, .desc 1)]], ["isinf".toList]⟩]
      [[("isinf".toList, .desc 0)], [("isinf".toList, .desc 1)]] []).map (fun p => fields p.2) =
    some [("isinf".toList, some (.desc 0)), ("isinf".toList, some (.desc 0))] := by decide +kernel

set_option maxRecDepth 20000 in
/-- **C75** is false for a name that is deleted in the body and assigned again. -/
theorem C75_del_violated :
    (newClass exHeap [] [] [.set "sin".toList (.desc 0), .del "sin".toList, .set "sin".toList (.desc 1)]).map
      (fun p => fields p.2) = some [("sin".toList, some (.desc 1)), ("sin".toList, some (.desc 1))] := by
  decide +kernel

/-! ## C76 -/

theorem run_sets : ∀ (body : List Stmt), (∀ s ∈ body, ∃ k v, s = .set k v) → ∀ t : Table, ∃ t', t.run body = some t' := by
  intro body
  induction body with
  | nil => intro _ t; exact ⟨t, rfl⟩
  | cons s body ih =>
    intro h t
    obtain ⟨k, v, rfl⟩ := h s (List.mem_cons_self ..)
    simp only [Table.run, Table.step]
    exact ih (fun x hx => h x (List.mem_cons_of_mem _ hx)) _

theorem add_heap_of_ne {a : Adding} {k : Text} {v : Val} {i : Nat} (h : v ≠ .desc i) :
    (a.add k v).heap i = a.heap i := by
  cases v with
  | desc j =>
    have : ¬ i = j := fun e => h (by rw [e])
    simp [Adding.add, Heap.set, this]
  | prop j => rfl
  | other j => rfl

theorem addAll_heap {attrs : Dict Text Val}
    (hinj : ∀ k k' i, attrs.get? k = some (.desc i) → attrs.get? k' = some (.desc i) → k = k') :
    ∀ (names : List Text) (a : Adding), names.Nodup → ∀ i,
      (∀ k ∈ names, attrs.get? k = some (.desc i) → (addAll attrs names a).heap i = (a.heap i).contribute k) ∧
      ((∀ k ∈ names, attrs.get? k ≠ some (.desc i)) → (addAll attrs names a).heap i = a.heap i) := by
  intro names
  induction names with
  | nil => intro a _ i; exact ⟨by simp, fun _ => rfl⟩
  | cons n names ih =>
    intro a hnd i
    obtain ⟨hn, hnd⟩ := List.nodup_cons.1 hnd
    simp only [addAll]
    cases hg : attrs.get? n with
    | none =>
      obtain ⟨h1, h2⟩ := ih a hnd i
      refine ⟨?_, fun h => h2 (fun k hk => h k (List.mem_cons_of_mem _ hk))⟩
      intro k hk hki
      rcases List.mem_cons.1 hk with rfl | hk
      · rw [hg] at hki; cases hki
      · exact h1 k hk hki
    | some v =>
      obtain ⟨h1, h2⟩ := ih (a.add n v) hnd i
      constructor
      · intro k hk hki
        rcases List.mem_cons.1 hk with rfl | hk
        · rw [hg, Option.some.injEq] at hki
          subst hki
          have := h2 (fun k' hk' hki' => hn (by rw [hinj k k' i hg hki']; exact hk'))
          simp only [] at this ⊢
          rw [this]
          simp [Adding.add, Heap.set]
        · have hne : v ≠ .desc i := by
            rintro rfl
            exact hn (by rw [hinj n k i hg hki]; exact hk)
          have := h1 k hk hki
          rw [add_heap_of_ne hne] at this
          exact this
      · intro h
        have hne : v ≠ .desc i := by
          rintro rfl
          exact h n (List.mem_cons_self ..) hg
        have := h2 (fun k hk => h k (List.mem_cons_of_mem _ hk))
        rw [add_heap_of_ne hne] at this
        exact this

theorem prefixAll_spec (ns : Text) : ∀ (L : List (Text × Nat)) (heap : Heap), (L.map Prod.snd).Nodup →
    (∀ p ∈ L, ∃ n, (heap p.2).name = some n) →
    ∃ heap', prefixAll ns (L.map (fun p => (p.1, some (Val.desc p.2)))) heap = some heap' ∧
      ∀ i, (i ∉ L.map Prod.snd → heap' i = heap i) ∧
        (i ∈ L.map Prod.snd → ∀ n, (heap i).name = some n →
          heap' i = if (heap i).kind = .macro then heap i else { heap i with name := some (ns ++ "::".toList ++ n) }) := by
  intro L
  induction L with
  | nil => intro heap _ _; exact ⟨heap, rfl, fun i => ⟨fun _ => rfl, by simp⟩⟩
  | cons p L ih =>
    intro heap hnd hname
    obtain ⟨k, j⟩ := p
    simp only [List.map_cons, List.nodup_cons] at hnd
    obtain ⟨n, hn⟩ := hname (k, j) (List.mem_cons_self ..)
    simp only at hn
    by_cases hm : (heap j).kind = .macro
    · obtain ⟨heap', h1, h2⟩ := ih heap hnd.2 (fun p hp => hname p (List.mem_cons_of_mem _ hp))
      refine ⟨heap', by simpa only [List.map_cons, prefixAll, hm] using h1, ?_⟩
      intro i
      simp only [List.map_cons, List.mem_cons, not_or]
      refine ⟨fun h => (h2 i).1 h.2, ?_⟩
      rintro (rfl | h) n' hn'
      · rw [(h2 i).1 hnd.1, if_pos hm]
      · exact (h2 i).2 h n' hn'
    · let heap1 : Heap := heap.set j { heap j with name := some (ns ++ "::".toList ++ n) }
      have hstep : prefixAll ns (((k, j) :: L).map (fun p => (p.1, some (Val.desc p.2)))) heap =
          prefixAll ns (L.map (fun p => (p.1, some (Val.desc p.2)))) heap1 := by
        simp only [List.map_cons, prefixAll]
        split
        · rename_i h; exact absurd h hm
        · rename_i n' hn' _
          rw [hn, Option.some.injEq] at hn'
          subst hn'
          rfl
        · rename_i hn' _; rw [hn] at hn'; cases hn'
      have hother : ∀ i, i ≠ j → heap1 i = heap i := by
        intro i hi; simp [heap1, Heap.set, hi]
      have hne : ∀ i ∈ L.map Prod.snd, i ≠ j := fun i hi e => hnd.1 (e ▸ hi)
      obtain ⟨heap', h1, h2⟩ := ih heap1 hnd.2 (by
        intro p hp
        rw [hother p.2 (hne p.2 (List.mem_map.2 ⟨p, hp, rfl⟩))]
        exact hname p (List.mem_cons_of_mem _ hp))
      refine ⟨heap', by rw [hstep]; exact h1, ?_⟩
      intro i
      simp only [List.map_cons, List.mem_cons, not_or]
      refine ⟨fun h => by rw [(h2 i).1 h.2, hother i h.1], ?_⟩
      rintro (rfl | h) n' hn'
      · rw [hn, Option.some.injEq] at hn'
        subst hn'
        rw [(h2 i).1 hnd.1, if_neg hm]
        simp [heap1, Heap.set]
      · rw [← hother i (hne i h)] at hn' ⊢
        exact (h2 i).2 h n' hn'

/-- a name in a namespace -/
def Qualified (ns : Option Text) (n : Text) : Text :=
  match ns with
  | none => n
  | some ns => ns ++ [':', ':'] ++ n

/-- **C76** for a class whose bases have no tests (or that has no namespace), with tests made by descriptors other than
struct tests, each used for one name: each test looks for its own name, or the one it was given, in the namespace
of the class, and macros for the plain name.  No other test is changed. -/
theorem C76_namespace_partial (heap : Heap) (parents : List Cls) (rest : List (Dict Text Val)) (ns : Option Text)
    (body : List Stmt) (hset : ∀ s ∈ body, ∃ k v, s = .set k v)
    (hp : ns = none ∨ ∀ p ∈ parents, p.fieldNames = [])
    (hval : ∀ k i, ¬ Holds body k (.prop i))
    (hinj : ∀ k k' i, Holds body k (.desc i) → Holds body k' (.desc i) → k = k') :
    ∃ heap' c, newCxxClass heap parents rest ns body = some (heap', c) ∧
      (∀ k i, Holds body k (.desc i) → (∀ ms, (heap i).kind ≠ .struct ms) →
        (heap' i).kind = (heap i).kind ∧ (heap' i).key = some k ∧
        (heap' i).name = some
          (if (heap i).kind = .macro then (heap i).name.getD k else Qualified ns ((heap i).name.getD k))) ∧
      (∀ i, (∀ k, ¬ Holds body k (.desc i)) → heap' i = heap i) := by
  obtain ⟨t, ht⟩ := run_sets body hset {}
  obtain ⟨n1, n2, _⟩ := run_names ht
  have hnd := n2 (noReset_of_sets hset)
  have hd := run_dict ht
  have hheap := fun (a : Adding) => addAll_heap (attrs := t.dict)
    (fun k k' i h h' => hinj k k' i ((hd k _).1 h) ((hd k' _).1 h')) t.names a hnd
  have hmem : ∀ k v, t.dict.get? k = some v → k ∈ t.names := by
    intro k v h
    obtain ⟨pre, post, e, _⟩ := (hd k v).1 h
    exact (n1 k).2 ⟨v, by rw [e]; simp⟩
  cases hnc : newClass heap parents rest body with
  | none => simp [newClass, ht] at hnc
  | some p =>
    obtain ⟨heap1, c⟩ := p
    have h1 : ∀ k i, Holds body k (.desc i) → heap1 i = (heap i).contribute k := by
      intro k i h
      have h' := (hd k _).2 h
      simp only [newClass, ht, Option.some.injEq, Prod.mk.injEq] at hnc
      rw [← hnc.1]
      exact (hheap _ i).1 k (hmem k _ h') h'
    have h2 : ∀ i, (∀ k, ¬ Holds body k (.desc i)) → heap1 i = heap i := by
      intro i h
      simp only [newClass, ht, Option.some.injEq, Prod.mk.injEq] at hnc
      rw [← hnc.1]
      exact (hheap _ i).2 (fun k _ hk => h k ((hd k _).1 hk))
    have hcon : ∀ k i, (∀ ms, (heap i).kind ≠ .struct ms) →
        ((heap i).contribute k).name = some ((heap i).name.getD k) := by
      intro k i h
      simp only [Desc.contribute]
      split
      · rename_i hn; simp [hn]
      · rename_i ms _ hk; exact absurd hk (h ms)
      · rename_i hn _; simp [hn]
    have hsome : ∀ k i, ∃ n, ((heap i).contribute k).name = some n := by
      intro k i
      simp only [Desc.contribute]
      split <;> exact ⟨_, rfl⟩
    cases ns with
    | none =>
      refine ⟨heap1, c, by simp [newCxxClass, hnc], ?_, h2⟩
      intro k i h hs
      rw [h1 k i h]
      refine ⟨rfl, rfl, ?_⟩
      rw [hcon k i hs]
      simp [Qualified]
    | some ns =>
      have hp' : ∀ p ∈ parents, p.fieldNames = [] := by
        rcases hp with hp | hp
        · cases hp
        · exact hp
      obtain ⟨own, inh, mine, s1, s2, s3, ⟨f, s4, s5⟩, s6, s7, s8⟩ := newClass_spec hnc
      have hinh : inh = [] := by
        rw [s4, List.flatMap_eq_nil_iff]
        intro p hpp
        rw [hp' p hpp]; rfl
      subst hinh
      simp only [List.nil_append] at s2
      -- the fields are descriptors
      have hfield : ∀ k ∈ mine, ∃ i, Holds body k (.desc i) := by
        intro k hk
        obtain ⟨v, hv, hf⟩ := (s6 k).1 hk
        cases v with
        | desc i => exact ⟨i, hv⟩
        | prop i => exact absurd hv (hval k i)
        | other i => cases hf
      have hL : ∃ L : List (Text × Nat), L.map Prod.fst = mine ∧ ∀ p ∈ L, Holds body p.1 (.desc p.2) := by
        clear s7 s8 s6 s2
        induction mine with
        | nil => exact ⟨[], rfl, by simp⟩
        | cons k ks ih =>
          obtain ⟨L, e, h⟩ := ih (fun k hk => hfield k (List.mem_cons_of_mem _ hk))
          obtain ⟨i, hi⟩ := hfield k (List.mem_cons_self ..)
          refine ⟨(k, i) :: L, by simp [e], ?_⟩
          intro p hp
          rcases List.mem_cons.1 hp with rfl | hp
          · exact hi
          · exact h p hp
      obtain ⟨L, hL1, hL2⟩ := hL
      have hfields : fields c = L.map (fun p => (p.1, some (Val.desc p.2))) := by
        simp only [fields, s2, ← hL1, List.map_map]
        apply List.map_congr_left
        intro p hp
        have := (s3 _ _).2 (hL2 p hp)
        simp [s1, getattr, this]
      have hLnd : (L.map Prod.snd).Nodup := by
        have hk : (L.map Prod.fst).Nodup := by rw [hL1]; exact s7 (noReset_of_sets hset)
        clear hfields hL1
        induction L with
        | nil => simp
        | cons p L ih =>
          simp only [List.map_cons, List.nodup_cons] at hk ⊢
          refine ⟨?_, ih (fun q hq => hL2 q (List.mem_cons_of_mem _ hq)) hk.2⟩
          intro hmem
          obtain ⟨q, hq, e⟩ := List.mem_map.1 hmem
          have hpd := hL2 p (List.mem_cons_self ..)
          have hqd := hL2 q (List.mem_cons_of_mem _ hq)
          rw [e] at hqd
          exact hk.1 (List.mem_map.2 ⟨q, hq, hinj _ _ _ hqd hpd⟩)
      obtain ⟨heap2, g1, g2⟩ := prefixAll_spec ns L heap1 hLnd (by
        intro p hp
        rw [h1 p.1 p.2 (hL2 p hp)]
        exact hsome _ _)
      refine ⟨heap2, c, by simp [newCxxClass, hnc, hfields, g1], ?_, ?_⟩
      · intro k i h hs
        have hi : i ∈ L.map Prod.snd := by
          have hk : k ∈ mine := (s6 k).2 ⟨_, h, rfl⟩
          rw [← hL1] at hk
          obtain ⟨p, hp, e⟩ := List.mem_map.1 hk
          have := (hL2 p hp)
          rw [e] at this
          have := this.unique h
          simp only [Val.desc.injEq] at this
          exact List.mem_map.2 ⟨p, hp, this⟩
        have hn : (heap1 i).name = some ((heap i).name.getD k) := by rw [h1 k i h]; exact hcon k i hs
        have := (g2 i).2 hi _ hn
        rw [this, h1 k i h]
        by_cases hm : (heap i).kind = .macro
        · have hm' : ((heap i).contribute k).kind = .macro := hm
          simp only [hm', if_true, hm]
          exact ⟨trivial, rfl, hcon k i hs⟩
        · have hm' : ¬ ((heap i).contribute k).kind = .macro := hm
          simp only [hm', if_false, hm]
          exact ⟨rfl, rfl, rfl⟩
      · intro i h
        have hi : i ∉ L.map Prod.snd := by
          intro hi
          obtain ⟨p, hp, e⟩ := List.mem_map.1 hi
          have := hL2 p hp
          rw [e] at this
          exact h _ this
        rw [(g2 i).1 hi, h2 i h]

/-- `HUGE_VAL`, a macro, and `sin` of `cmath` (lib/fbuild/config/cxx/cxx03.py:17-31) -/
def exCmath : Heap := fun i => if i = 0 then { kind := .macro } else { kind := .function "double".toList ["double".toList] }

set_option maxRecDepth 20000 in
example : (newCxxClass exCmath [] [] (some "std".toList) (assigns [("HUGE_VAL".toList, .desc 0), ("sin".toList, .desc 1)])).map
    (fun p => ((p.1 0).name, (p.1 1).name)) = some (some "HUGE_VAL".toList, some "std::sin".toList) := by decide +kernel

theorem mem_of_holds {l : List (Text × Val)} {k : Text} {v : Val} (h : Holds (assigns l) k v) : (k, v) ∈ l := by
  obtain ⟨pre, post, e, _⟩ := h
  have : Stmt.set k v ∈ assigns l := by rw [e]; simp
  obtain ⟨p, hp, e'⟩ := List.mem_map.1 this
  cases e'
  exact hp

example : ∃ heap' c, newCxxClass exCmath [] [] (some "std".toList)
      (assigns [("HUGE_VAL".toList, .desc 0), ("sin".toList, .desc 1)]) = some (heap', c) ∧
    ∀ i, 2 ≤ i → heap' i = exCmath i := by
  obtain ⟨heap', c, h, _, h2⟩ := C76_namespace_partial exCmath [] [] (some "std".toList)
    (assigns [("HUGE_VAL".toList, .desc 0), ("sin".toList, .desc 1)])
    (fun s hs => by obtain ⟨p, _, e⟩ := List.mem_map.1 hs; exact ⟨_, _, e.symm⟩)
    (.inr (by simp))
    (fun k i h => by have := mem_of_holds h; simp at this)
    (fun k k' i h h' => by
      have a := mem_of_holds h
      have b := mem_of_holds h'
      simp only [List.mem_cons, Prod.mk.injEq, Val.desc.injEq, List.not_mem_nil, or_false] at a b
      rcases a with ⟨rfl, rfl⟩ | ⟨rfl, rfl⟩ <;> rcases b with ⟨rfl, e⟩ | ⟨rfl, e⟩ <;> simp_all)
  refine ⟨heap', c, h, fun i hi => h2 i (fun k hk => ?_)⟩
  have := mem_of_holds hk
  simp only [List.mem_cons, Prod.mk.injEq, Val.desc.injEq, List.not_mem_nil, or_false] at this
  omega

set_option maxRecDepth 20000 in
/-- **C76** is false for a class that adds tests to one with a namespace, as lib/fbuild/config/cxx/iterator.py:8-10
does: the namespace is not inherited, and the new test looks for `forward_iterator`, not `std::forward_iterator`. -/
theorem C76_inherited_violated :
    let h : Heap := fun _ => { kind := .template ["int".toList, "int".toList] }
    let p := newCxxClass h [] [] (some "std".toList) (assigns [("iterator".toList, .desc 0)])
    p.bind (fun p => (newCxxClass p.1 [p.2] p.2.dicts none (assigns [("forward_iterator".toList, .desc 1)])).map
      (fun q => ((q.1 0).name, (q.1 1).name))) = some (some "std::iterator".toList, some "forward_iterator".toList) := by
  decide +kernel

set_option maxRecDepth 20000 in
/-- **C76** is false for a class with a namespace derived from one with another: the tests of the base look for
`b::a::f` from then on, also those of the base itself. -/
theorem C76_base_violated :
    let h : Heap := fun _ => { kind := .function "void".toList [] }
    let p := newCxxClass h [] [] (some "a".toList) (assigns [("f".toList, .desc 0)])
    p.bind (fun p => (newCxxClass p.1 [p.2] p.2.dicts (some "b".toList) []).map
      (fun q => (getattr p.2.dicts "f".toList, (p.1 0).name, (q.1 0).name))) =
    some (some (.desc 0), some "a::f".toList, some "b::a::f".toList) := by
  decide +kernel

set_option maxRecDepth 20000 in
/-- **C76** is false for a class with a namespace that inherits a test from two bases: the namespace is put in front
twice. -/
theorem C76_twice_violated :
    let h : Heap := fun _ => { kind := .function "void".toList [], name := some "f".toList }
    (newCxxClass h [⟨[[("f".toList, .desc 0)]], ["f".toList]⟩, ⟨[[("f".toList, .desc 0)]], ["f".toList]⟩]
      [[("f".toList, .desc 0)]] (some "std".toList) []).map (fun q => (q.1 0).name) = some (some "std::std::f".toList) := by
  decide +kernel

set_option maxRecDepth 20000 in
/-- **C76** is false for a struct test of C in a class with a namespace: it declares a `std::struct tm`. -/
theorem C76_struct_violated :
    (newCxxClass (fun _ => { kind := .struct [] }) [] [] (some "std".toList) (assigns [("tm".toList, .desc 0)])).map
      (fun q => (q.1 0).name) = some (some "std::struct tm".toList) := by decide +kernel

set_option maxRecDepth 20000 in
/-- **C76** is false for a class with a namespace and a test written as a function: the class cannot be created. -/
theorem C76_property_violated :
    (newCxxClass (fun _ => { kind := .macro }) [] [] (some "std".toList) (assigns [("works".toList, .prop 0)])).isNone := by
  decide +kernel

end Verif.Config
