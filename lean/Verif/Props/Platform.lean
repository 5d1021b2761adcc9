import Verif.Platform.Core
import Verif.Platform.Spec
/-!
# Platforms: properties

C47 (platform matchers) and C48 (platform options).
-/
namespace Verif.Platform

open Spec (Data Table)

/-- **C47**: a platform matcher matches exactly when all plain names are in the platform and no name with `!` is. -/
theorem C47_match (platform matcher : List Text) :
    platformMatch platform matcher = true ↔ Spec.Matches platform matcher := by
  unfold platformMatch Spec.Matches
  simp only [Bool.and_eq_true, List.all_eq_true, Bool.not_eq_true', List.any_eq_false, List.mem_filter,
    decide_eq_true_eq, List.mem_map, not_exists, not_and, and_imp]
  constructor
  · rintro ⟨h1, h2⟩
    exact ⟨h1, fun q hq hp => h2 q hp _ hq rfl rfl⟩
  · rintro ⟨h1, h2⟩
    refine ⟨h1, ?_⟩
    intro q hp p hm hh hd
    cases p with
    | nil => simp at hh
    | cons c p =>
      simp only [List.head?_cons, Option.some.injEq] at hh
      subst hh
      simp only [List.drop_succ_cons, List.drop_zero] at hd
      exact h2 q (hd ▸ hm) hp

example : platformMatch ["posix".toList, "linux".toList] ["posix".toList, "!darwin".toList] = true := by decide
example : platformMatch ["posix".toList, "linux".toList] ["posix".toList, "!linux".toList] = false := by decide

/-! ## Dictionaries -/

theorem lookup_set (d : Dict) (k : Text) (v : Val) (k' : Text) :
    (Dict.set d k v).lookup k' = if k' = k then some v else d.lookup k' := by
  unfold Dict.set
  split
  · rename_i h
    induction d with
    | nil => simp at h
    | cons x d ih =>
      obtain ⟨a, w⟩ := x
      simp only [List.map_cons]
      by_cases hak : a = k
      · subst hak
        simp only [if_true, List.lookup_cons]
        by_cases hk : k' = a
        · subst hk; simp
        · have hk' : (k' == a) = false := by simp [hk]
          simp only [hk', hk, if_false]
          clear ih h
          induction d with
          | nil => simp
          | cons y d ih2 =>
            obtain ⟨b, u⟩ := y
            simp only [List.map_cons]
            by_cases hb : b = a
            · subst hb
              simp only [if_true, List.lookup_cons, hk']
              exact ih2
            · simp only [hb, if_false, List.lookup_cons]
              rw [ih2]
      · simp only [hak, if_false, List.lookup_cons]
        have h' : (List.lookup k d).isSome = true := by
          have : (k == a) = false := by simp [Ne.symm hak]
          simpa [List.lookup_cons, this] using h
        rw [ih h']
        by_cases hk : k' = k
        · subst hk
          have : (k' == a) = false := by simp [Ne.symm hak]
          simp [this]
        · simp only [hk, if_false]
  · rename_i h
    simp only [Option.isSome_iff_ne_none, ne_eq, Decidable.not_not] at h
    rw [List.lookup_append]
    by_cases hk : k' = k
    · subst hk; simp [h]
    · have : (k' == k) = false := by simp [hk]
      simp [List.lookup_cons, this, hk]

/-- the options of the matching entries -/
def matching (platform : List Text) (po : List (List Text × List (Text × Val))) : List (Text × Val) :=
  ((po.filter (fun e => platformMatch platform e.1)).map (·.2)).flatten

theorem options_append (as bs : List (Text × Val)) (kw : Dict) (h : Heap) :
    options (as ++ bs) kw h = match options as kw h with
      | .error e => .error e
      | .ok (kw, h) => options bs kw h := by
  induction as generalizing kw h with
  | nil => simp [options]
  | cons a as ih =>
    obtain ⟨k, m⟩ := a
    simp only [List.cons_append, options]
    cases option kw h k m with
    | error e => rfl
    | ok r => obtain ⟨kw', h'⟩ := r; exact ih kw' h'

theorem parse_eq (platform : List Text) (po) (kw : Dict) (h : Heap) :
    parse platform po kw h = options (matching platform po) kw h := by
  induction po generalizing kw h with
  | nil => simp [parse, matching, options]
  | cons e po ih =>
    obtain ⟨m, os⟩ := e
    simp only [parse]
    by_cases hm : platformMatch platform m = true
    · rw [if_pos hm]
      have : matching platform ((m, os) :: po) = os ++ matching platform po := by simp [matching, hm]
      rw [this, options_append]
      cases options os kw h with
      | error e => rfl
      | ok r => obtain ⟨kw', h'⟩ := r; exact ih kw' h'
    · rw [if_neg hm, ih]
      simp [matching, hm]

/-! ## Plain data -/

/-- the plain data of a value -/
def denote (h : Heap) : Val → Data
  | .none => .none
  | .str s => .str s
  | .list r => .list (h.getD r [])
  | .tuple xs => .tuple xs
  | .set xs => .set xs
  | .other n => .other n

/-- the plain data of the keyword arguments -/
def table (h : Heap) (kw : Dict) : Table := fun k => (kw.lookup k).map (denote h)

/-- the options as plain data -/
def plain (h : Heap) (opts : List (Text × Val)) : List (Text × Data) := opts.map (fun o => (o.1, denote h o.2))

def ref : Val → Option Nat
  | .list r => some r
  | _ => none

/-- No list object is given twice, and all exist. -/
structure Separate (kw : Dict) (h : Heap) (opts : List (Text × Val)) : Prop where
  args : ∀ k k' r, kw.lookup k = some (.list r) → kw.lookup k' = some (.list r) → k = k'
  once : (opts.filterMap (fun o => ref o.2)).Nodup
  both : ∀ k r, kw.lookup k = some (.list r) → r ∉ opts.filterMap (fun o => ref o.2)
  argsIn : ∀ k r, kw.lookup k = some (.list r) → r < h.length
  optsIn : ∀ r ∈ opts.filterMap (fun o => ref o.2), r < h.length

theorem denote_ext {h h' : Heap} {v : Val} (e : ∀ r, v = .list r → h'.getD r [] = h.getD r []) :
    denote h' v = denote h v := by
  cases v <;> simp [denote]
  rename_i r
  simpa using e r rfl

theorem infix_char (c : Char) (s : Text) : infixOf [c] s = decide (c ∈ s) := by
  unfold infixOf
  induction s with
  | nil => simp [ends, List.isPrefixOf]
  | cons d s ih =>
    simp only [ends, List.any_cons, ih]
    simp only [List.isPrefixOf, Bool.and_true]
    by_cases h : c = d <;> simp [h]

theorem getD_append_left (h : Heap) (x : List Text) {r : Nat} (hr : r < h.length) :
    (h ++ [x]).getD r [] = h.getD r [] := by
  simp [List.getD_eq_getElem?_getD, List.getElem?_append_left hr]

theorem getD_append_new (h : Heap) (x : List Text) : (h ++ [x]).getD h.length [] = x := by
  simp [List.getD_eq_getElem?_getD]

theorem getD_set_ne (h : Heap) (x : List Text) {r r' : Nat} (hr : r ≠ r') :
    (h.set r' x).getD r [] = h.getD r [] := by
  simp [List.getD_eq_getElem?_getD, List.getElem?_set_ne (Ne.symm hr)]

theorem getD_set_eq (h : Heap) (x : List Text) {r : Nat} (hr : r < h.length) :
    (h.set r x).getD r [] = x := by
  simp [List.getD_eq_getElem?_getD, hr]

/-- What one `+` or `-` may do: the value is the one asked for, only its own list is new or changed. -/
structure Done (kw : Dict) (h h' : Heap) (k : Text) (m v : Val) (d : Data) : Prop where
  value : denote h' v = d
  grows : h.length ≤ h'.length
  own : ∀ r, v = .list r → (kw.lookup k = some (.list r) ∨ h.length ≤ r ∨ m = .list r) ∧ r < h'.length
  frame : ∀ r, r < h.length → kw.lookup k ≠ some (.list r) → h'.getD r [] = h.getD r []

theorem Separate.put {kw : Dict} {h h' : Heap} {k : Text} {v : Val} {d : Data} {k0 : Text} {m : Val}
    {rest : List (Text × Val)} (s : Separate kw h ((k0, m) :: rest)) (hd : Done kw h h' k m v d) :
    Separate (Dict.set kw k v) h' rest ∧ table h' (Dict.set kw k v) = Spec.put (table h kw) k d ∧
      plain h' rest = plain h rest := by
  have hrest : ∀ r, r ∈ rest.filterMap (fun o => ref o.2) → r ∈ ((k0, m) :: rest).filterMap (fun o => ref o.2) := by
    intro r hr
    rw [List.filterMap_cons]
    split
    · exact hr
    · exact .tail _ hr
  have hm : ∀ r, m = .list r → r ∈ ((k0, m) :: rest).filterMap (fun o => ref o.2) := by
    rintro r rfl
    simp [ref]
  refine ⟨⟨?_, ?_, ?_, ?_, ?_⟩, ?_, ?_⟩
  · intro a b r ha hb
    rw [lookup_set] at ha hb
    by_cases h1 : a = k <;> by_cases h2 : b = k
    · rw [h1, h2]
    · rw [if_pos h1] at ha
      rw [if_neg h2] at hb
      simp only [Option.some.injEq] at ha
      rcases (hd.own r ha).1 with h3 | h3 | h3
      · exact h1.trans (s.args k b r h3 hb)
      · exact absurd (s.argsIn b r hb) (by omega)
      · exact absurd (hm r h3) (s.both b r hb)
    · rw [if_neg h1] at ha
      rw [if_pos h2] at hb
      simp only [Option.some.injEq] at hb
      rcases (hd.own r hb).1 with h3 | h3 | h3
      · exact (s.args a k r ha h3).trans h2.symm
      · exact absurd (s.argsIn a r ha) (by omega)
      · exact absurd (hm r h3) (s.both a r ha)
    · rw [if_neg h1] at ha
      rw [if_neg h2] at hb
      exact s.args a b r ha hb
  · have := s.once
    rw [List.filterMap_cons] at this
    split at this
    · exact this
    · exact (List.nodup_cons.mp this).2
  · intro a r ha hmem
    rw [lookup_set] at ha
    split at ha
    · simp only [Option.some.injEq] at ha
      rcases (hd.own r ha).1 with h3 | h3 | h3
      · exact s.both k r h3 (hrest r hmem)
      · exact absurd (s.optsIn r (hrest r hmem)) (by omega)
      · have := s.once
        rw [h3] at this
        simp only [List.filterMap_cons, ref, List.nodup_cons] at this
        exact this.1 hmem
    · exact s.both a r ha (hrest r hmem)
  · intro a r ha
    rw [lookup_set] at ha
    split at ha
    · simp only [Option.some.injEq] at ha
      exact (hd.own r ha).2
    · exact Nat.lt_of_lt_of_le (s.argsIn a r ha) hd.grows
  · intro r hr
    exact Nat.lt_of_lt_of_le (s.optsIn r (hrest r hr)) hd.grows
  · funext a
    simp only [table, Spec.put, lookup_set]
    split
    · simp [hd.value]
    · rename_i hak
      cases hl : kw.lookup a with
      | none => rfl
      | some w =>
        simp only [Option.map_some, Option.some.injEq]
        apply denote_ext
        rintro r rfl
        exact hd.frame r (s.argsIn a r hl) (fun h2 => hak (s.args a k r hl h2))
  · unfold plain
    apply List.map_congr_left
    intro o ho
    simp only [Prod.mk.injEq, true_and]
    apply denote_ext
    intro r hr
    have hm : r ∈ rest.filterMap (fun o => ref o.2) := List.mem_filterMap.mpr ⟨o, ho, by rw [hr]; rfl⟩
    exact hd.frame r (s.optsIn r (hrest r hm)) (fun h2 => s.both k r h2 (hrest r hm))

/-- the value an operation starts from -/
theorem current_done {kw : Dict} {h : Heap} {k k0 : Text} {m : Val} {rest : List (Text × Val)}
    (s : Separate kw h ((k0, m) :: rest)) :
    denote (current h kw k m).2 (current h kw k m).1 = Spec.value (table h kw) k (denote h m) ∧
    h.length ≤ (current h kw k m).2.length ∧
    (∀ r, (current h kw k m).1 = .list r →
      (kw.lookup k = some (.list r) ∨ h.length ≤ r) ∧ r < (current h kw k m).2.length) ∧
    ∀ r, r < h.length → (current h kw k m).2.getD r [] = h.getD r [] := by
  have hfresh : denote (fresh h m).2 (fresh h m).1 = (denote h m).empty ∧ h.length ≤ (fresh h m).2.length ∧
      (∀ r, (fresh h m).1 = .list r → h.length ≤ r ∧ r < (fresh h m).2.length) ∧
      ∀ r, r < h.length → (fresh h m).2.getD r [] = h.getD r [] := by
    cases m with
    | list r =>
      refine ⟨?_, by simp [fresh], ?_, fun r hr => getD_append_left h [] hr⟩
      · simp only [fresh, denote, Data.empty, getD_append_new]
      · intro r' hr
        simp only [fresh, Val.list.injEq] at hr
        subst hr
        simp [fresh]
    | _ => simp [fresh, denote, Data.empty]
  unfold current Spec.value table
  cases hl : kw.lookup k with
  | none =>
    simp only [Option.map_none]
    exact ⟨hfresh.1, hfresh.2.1, fun r hr => ⟨.inr (hfresh.2.2.1 r hr).1, (hfresh.2.2.1 r hr).2⟩, hfresh.2.2.2⟩
  | some v =>
    cases v with
    | none =>
      simp only [Option.map_some, denote]
      exact ⟨hfresh.1, hfresh.2.1, fun r hr => ⟨.inr (hfresh.2.2.1 r hr).1, (hfresh.2.2.1 r hr).2⟩, hfresh.2.2.2⟩
    | list r =>
      refine ⟨by simp [denote], Nat.le_refl _, ?_, fun _ _ => rfl⟩
      intro r' hr
      simp only [Val.list.injEq] at hr
      subst hr
      exact ⟨.inl rfl, s.argsIn k r hl⟩
    | _ => exact ⟨by simp [denote], Nat.le_refl _, by simp, fun _ _ => rfl⟩

/-- `+` appends -/
theorem plus_done {h : Heap} {v m : Val} {d : Data} (hv : ∀ r, v = .list r → r < h.length)
    (hm : ∀ xs, m ≠ .set xs) (ha : Spec.append (denote h v) (denote h m) = some d) :
    ∃ v' h', plus h v m = .ok (v', h') ∧ denote h' v' = d ∧ h.length ≤ h'.length ∧
      (∀ r, v' = .list r → v = .list r ∧ r < h'.length) ∧
      ∀ r, v ≠ .list r → h'.getD r [] = h.getD r [] := by
  cases v with
  | str a =>
    cases m with
    | str b => exact ⟨.str (a ++ b), h, rfl, by simpa [denote, Spec.append] using ha, Nat.le_refl _, by simp, fun _ _ => rfl⟩
    | _ => simp [denote, Spec.append] at ha
  | tuple a =>
    cases m with
    | tuple b => exact ⟨.tuple (a ++ b), h, rfl, by simpa [denote, Spec.append] using ha, Nat.le_refl _, by simp, fun _ _ => rfl⟩
    | _ => simp [denote, Spec.append] at ha
  | list r =>
    have hr := hv r rfl
    have key : ∀ ys, iter h m = some ys → (denote h m).elems = some ys →
        ∃ v' h', plus h (.list r) m = .ok (v', h') ∧ denote h' v' = d ∧ h.length ≤ h'.length ∧
          (∀ r', v' = .list r' → Val.list r = .list r' ∧ r' < h'.length) ∧
          ∀ r', Val.list r ≠ .list r' → h'.getD r' [] = h.getD r' [] := by
      intro ys hi he
      refine ⟨.list r, h.set r (h.getD r [] ++ ys), by simp only [plus, hi], ?_, by simp, ?_, ?_⟩
      · have h1 : Spec.append (.list (h.getD r [])) (denote h m) = some (.list (h.getD r [] ++ ys)) := by
          simp [Spec.append, he]
        have h2 : Spec.append (.list (h.getD r [])) (denote h m) = some d := ha
        rw [h1] at h2
        simp only [denote, getD_set_eq h _ hr]
        exact Option.some.inj h2
      · intro r' h'
        simp only [Val.list.injEq] at h'
        subst h'
        simp [hr]
      · intro r' hne
        exact getD_set_ne h _ (fun e => hne (by rw [e]))
    cases m with
    | list r2 => exact key _ rfl rfl
    | tuple ys => exact key _ rfl rfl
    | set ys => exact key _ rfl rfl
    | _ => simp [denote, Spec.append, Data.elems] at ha
  | set a =>
    cases m with
    | set b => exact absurd rfl (hm b)
    | _ => simp [denote, Spec.append] at ha
  | none => simp [denote, Spec.append] at ha
  | other n => simp [denote, Spec.append] at ha

theorem contains_elems (h : Heap) (m : Val) {ys : List Text} (he : (denote h m).elems = some ys) (x : Text) :
    contains h x m = decide (x ∈ ys) := by
  cases m <;> simp_all [denote, Data.elems, contains]

theorem chars_filter (s : Text) (p : Text → Bool) :
    ((chars s).filter p).flatten = s.filter (fun c => p [c]) := by
  induction s with
  | nil => rfl
  | cons c s ih =>
    simp only [chars, List.map_cons, List.filter_cons] at ih ⊢
    split <;> simp [ih]

/-- `-` removes -/
theorem minus_done {h : Heap} {v m : Val} {d : Data} (ha : Spec.remove (denote h v) (denote h m) = some d) :
    ∃ v' h', minus h v m = .ok (v', h') ∧ denote h' v' = d ∧ h.length ≤ h'.length ∧
      (∀ r, v' = .list r → h.length ≤ r ∧ r < h'.length) ∧
      ∀ r, r < h.length → h'.getD r [] = h.getD r [] := by
  have key : ∀ (xs : List Text) (ys : List Text), (denote h m).elems = some ys →
      xs.filter (fun x => !contains h x m) = xs.filter (fun x => x ∉ ys) := by
    intro xs ys he
    apply List.filter_congr
    intro x _
    simp [contains_elems h m he]
  cases v with
  | str a =>
    refine ⟨_, h, rfl, ?_, Nat.le_refl _, by simp, fun _ _ => rfl⟩
    simp only [denote]
    rw [chars_filter]
    have hs : ∀ ys, (denote h m).elems = some ys → Spec.remove (.str a) (denote h m) = some (.str (a.filter (fun c => [c] ∉ ys))) →
        Data.str (a.filter (fun c => !contains h [c] m)) = d := by
      intro ys he h1
      have h2 : Spec.remove (.str a) (denote h m) = some d := ha
      rw [h1] at h2
      rw [← Option.some.inj h2]
      congr 1
      apply List.filter_congr
      intro c _
      simp [contains_elems h m he]
    cases m with
    | str b =>
      simp only [denote, Spec.remove, Option.some.injEq] at ha
      rw [← ha]
      congr 1
      apply List.filter_congr
      intro c _
      simp [contains, infix_char]
    | list r => exact hs _ rfl rfl
    | tuple ys => exact hs _ rfl rfl
    | set ys => exact hs _ rfl rfl
    | none => simp [denote, Spec.remove, Data.elems] at ha
    | other n => simp [denote, Spec.remove, Data.elems] at ha
  | list r =>
    simp only [denote, Spec.remove, Option.map_eq_some_iff] at ha
    obtain ⟨ys, he, ha⟩ := ha
    refine ⟨_, _, rfl, ?_, by simp, ?_, fun r hr => getD_append_left h _ hr⟩
    · simp only [denote, getD_append_new, key _ ys he]
      exact ha
    · intro r' h'
      simp only [Val.list.injEq] at h'
      subst h'
      simp
  | tuple xs =>
    simp only [denote, Spec.remove, Option.map_eq_some_iff] at ha
    obtain ⟨ys, he, ha⟩ := ha
    refine ⟨_, h, rfl, ?_, Nat.le_refl _, by simp, fun _ _ => rfl⟩
    simp only [denote, key _ ys he]
    exact ha
  | set xs =>
    simp only [denote, Spec.remove, Option.map_eq_some_iff] at ha
    obtain ⟨ys, he, ha⟩ := ha
    refine ⟨_, h, rfl, ?_, Nat.le_refl _, by simp, fun _ _ => rfl⟩
    simp only [denote, key _ ys he]
    exact ha
  | none => simp [denote, Spec.remove] at ha
  | other n => simp [denote, Spec.remove] at ha

/-- one option -/
theorem option_done {kw : Dict} {h : Heap} {k : Text} {m : Val} {rest : List (Text × Val)} {t : Table}
    (s : Separate kw h ((k, m) :: rest)) (hset : k.getLast? = some '+' → ∀ xs, m ≠ .set xs)
    (ht : Spec.apply (table h kw) k (denote h m) = some t) :
    ∃ kw' h', option kw h k m = .ok (kw', h') ∧ Separate kw' h' rest ∧ table h' kw' = t ∧
      plain h' rest = plain h rest := by
  obtain ⟨c1, c2, c3, c4⟩ := current_done (k := k.dropLast) s
  have hmden : denote (current h kw k.dropLast m).2 m = denote h m := by
    apply denote_ext
    rintro r rfl
    exact c4 r (s.optsIn r (by simp [ref]))
  unfold Spec.apply at ht
  unfold option
  split at ht
  · simp at ht
  · rename_i hk
    simp only [Option.map_eq_some_iff] at ht
    obtain ⟨d, hd, rfl⟩ := ht
    rw [← c1, ← hmden] at hd
    have hsup : supported m = true := by
      rw [hmden] at hd
      cases m <;> simp [supported]
      all_goals
        generalize denote (current h kw k.dropLast _).2 _ = x at hd
        cases x <;> simp [denote, Spec.append, Data.elems] at hd
    obtain ⟨v', h', p1, p2, p3, p4, p5⟩ := plus_done (fun r hr => (c3 r hr).2) (hset hk) hd
    have hdone : Done kw h h' k.dropLast m v' d := by
      refine ⟨p2, Nat.le_trans c2 p3, ?_, ?_⟩
      · intro r hr
        obtain ⟨q1, q2⟩ := p4 r hr
        rcases (c3 r q1).1 with q | q
        · exact ⟨.inl q, q2⟩
        · exact ⟨.inr (.inl q), q2⟩
      · intro r hr hl
        rw [p5 r, c4 r hr]
        intro e
        rcases (c3 r e).1 with q | q
        · exact hl q
        · omega
    obtain ⟨s1, s2, s3⟩ := s.put hdone
    refine ⟨_, h', ?_, s1, s2, s3⟩
    simp [hk, hsup, p1]
  · rename_i hk
    simp only [Option.map_eq_some_iff] at ht
    obtain ⟨d, hd, rfl⟩ := ht
    rw [← c1, ← hmden] at hd
    have hsup : supported m = true := by
      rw [hmden] at hd
      cases m <;> simp [supported]
      all_goals
        generalize denote (current h kw k.dropLast _).2 _ = x at hd
        cases x <;> simp [denote, Spec.remove, Data.elems] at hd
    obtain ⟨v', h', p1, p2, p3, p4, p5⟩ := minus_done hd
    have hdone : Done kw h h' k.dropLast m v' d := by
      refine ⟨p2, Nat.le_trans c2 p3, ?_, ?_⟩
      · intro r hr
        obtain ⟨q1, q2⟩ := p4 r hr
        exact ⟨.inr (.inl (Nat.le_trans c2 q1)), q2⟩
      · intro r hr hl
        rw [p5 r (Nat.lt_of_lt_of_le hr c2), c4 r hr]
    obtain ⟨s1, s2, s3⟩ := s.put hdone
    refine ⟨_, h', ?_, s1, s2, s3⟩
    simp [hk, hsup, p1]
  · rename_i c h1 h2 hk1
    simp only [Option.some.injEq] at ht
    subst ht
    have hdone : Done kw h h k m m (denote h m) := by
      refine ⟨rfl, Nat.le_refl _, ?_, fun _ _ _ => rfl⟩
      rintro r rfl
      exact ⟨.inr (.inr rfl), s.optsIn r (by simp [ref])⟩
    obtain ⟨s1, s2, s3⟩ := s.put hdone
    refine ⟨_, h, ?_, s1, s2, s3⟩
    have h1 : ¬ c = '+' := h1
    have h2 : ¬ c = '-' := h2
    simp [hk1, h1, h2]

theorem options_done (opts : List (Text × Val)) (kw : Dict) (h : Heap) (t : Table) (s : Separate kw h opts)
    (hset : ∀ o ∈ opts, o.1.getLast? = some '+' → ∀ xs, o.2 ≠ .set xs)
    (ht : Spec.applyAll (plain h opts) (table h kw) = some t) :
    ∃ kw' h', options opts kw h = .ok (kw', h') ∧ table h' kw' = t := by
  induction opts generalizing kw h with
  | nil => exact ⟨kw, h, rfl, by simpa [plain, Spec.applyAll] using ht⟩
  | cons o rest ih =>
    obtain ⟨k, m⟩ := o
    simp only [plain, List.map_cons, Spec.applyAll, Option.bind_eq_some_iff] at ht
    obtain ⟨t1, ht1, ht⟩ := ht
    obtain ⟨kw1, h1, e1, s1, e2, e3⟩ := option_done s (hset _ (.head _)) ht1
    have hrest : Spec.applyAll (plain h1 rest) (table h1 kw1) = some t := by rw [e2, e3]; exact ht
    obtain ⟨kw2, h2, e4, e5⟩ := ih kw1 h1 s1 (fun o ho => hset o (.tail _ ho)) hrest
    exact ⟨kw2, h2, by simp only [options, e1, e4], e5⟩

/-- **C48**, the result: the options of the matching entries are applied in order; `key` sets, `key+` appends,
`key-` removes, other keyword arguments are left alone.  Partial: no list object is given twice, and no set is
added to. -/
theorem C48_result_partial (platform : List Text) (po : List (List Text × List (Text × Val))) (kw : Dict) (h : Heap)
    (t : Table) (opts : List (Text × Val))
    (hopts : opts = ((po.filter (fun e => platformMatch platform e.1)).map (·.2)).flatten)
    (s : Separate kw h opts) (hset : ∀ o ∈ opts, o.1.getLast? = some '+' → ∀ xs, o.2 ≠ .set xs)
    (ht : Spec.applyAll (plain h opts) (table h kw) = some t) :
    ∃ kw' h', parse platform po kw h = .ok (kw', h') ∧ table h' kw' = t := by
  rw [parse_eq]
  subst hopts
  exact options_done _ kw h t s hset ht

/-- what one option does to list objects -/
theorem option_frame {kw kw' : Dict} {h h' : Heap} {k : Text} {m : Val} (e : option kw h k m = .ok (kw', h')) :
    h.length ≤ h'.length ∧
    (∀ r, r < h.length → h'.getD r [] ≠ h.getD r [] →
      k.getLast? = some '+' ∧ kw.lookup k.dropLast = some (.list r)) ∧
    ∀ k' r, r < h.length → kw'.lookup k' = some (.list r) →
      kw.lookup k' = some (.list r) ∨ (k' = k ∧ m = .list r) := by
  unfold option at e
  have hcur : ∀ k0, h.length ≤ (current h kw k0 m).2.length ∧
      (∀ r, r < h.length → (current h kw k0 m).2.getD r [] = h.getD r []) ∧
      ∀ r, r < h.length → (current h kw k0 m).1 = .list r → kw.lookup k0 = some (.list r) := by
    intro k0
    have hfresh : h.length ≤ (fresh h m).2.length ∧ (∀ r, r < h.length → (fresh h m).2.getD r [] = h.getD r []) ∧
        ∀ r, r < h.length → (fresh h m).1 ≠ .list r := by
      cases m with
      | list r =>
        refine ⟨by simp [fresh], fun r hr => getD_append_left h [] hr, ?_⟩
        intro r hr e
        simp only [fresh, Val.list.injEq] at e
        omega
      | _ => simp [fresh]
    unfold current
    cases hl : kw.lookup k0 with
    | none => exact ⟨hfresh.1, hfresh.2.1, fun r hr e => absurd e (hfresh.2.2 r hr)⟩
    | some v =>
      cases v with
      | none => exact ⟨hfresh.1, hfresh.2.1, fun r hr e => absurd e (hfresh.2.2 r hr)⟩
      | _ => exact ⟨Nat.le_refl _, fun _ _ => rfl, fun r _ e => by rw [← e]⟩
  split at e
  · simp at e
  · rename_i c hk
    obtain ⟨c1, c2, c3⟩ := hcur k.dropLast
    split at e
    · split at e
      · dsimp only at e
        generalize current h kw k.dropLast m = cur at *
        obtain ⟨v, h1⟩ := cur
        dsimp only at *
        have hput : ∀ w, (∀ r, r < h.length → w = .list r → kw.lookup k.dropLast = some (.list r)) →
            ∀ k' r, r < h.length → (Dict.set kw k.dropLast w).lookup k' = some (.list r) →
              kw.lookup k' = some (.list r) ∨ (k' = k ∧ m = .list r) := by
          intro w hw k' r hr hl
          rw [lookup_set] at hl
          split at hl
          · rename_i hk'
            rw [hk']
            exact .inl (hw r hr (Option.some.inj hl))
          · exact .inl hl
        by_cases hc : c = '+'
        · rw [if_pos hc] at e
          have hp : ∀ w h2, plus h1 v m = .ok (w, h2) → h1.length ≤ h2.length ∧ (∀ r, w = .list r → v = .list r) ∧
              ∀ r, h2.getD r [] ≠ h1.getD r [] → v = .list r := by
            intro w h2 hp
            unfold plus at hp
            split at hp
            · split at hp
              · simp only [Except.ok.injEq, Prod.mk.injEq] at hp
                obtain ⟨rfl, rfl⟩ := hp
                exact ⟨Nat.le_refl _, by simp, fun _ h => absurd rfl h⟩
              · simp at hp
            · split at hp
              · simp only [Except.ok.injEq, Prod.mk.injEq] at hp
                obtain ⟨rfl, rfl⟩ := hp
                refine ⟨by simp, fun _ h => h, ?_⟩
                intro r' hne
                rename_i r _ _ _
                by_cases hr : r' = r
                · rw [hr]
                · exact absurd (getD_set_ne h1 _ hr) hne
              · simp at hp
            · split at hp
              · simp only [Except.ok.injEq, Prod.mk.injEq] at hp
                obtain ⟨rfl, rfl⟩ := hp
                exact ⟨Nat.le_refl _, by simp, fun _ h => absurd rfl h⟩
              · simp at hp
            all_goals simp at hp
          cases hp' : plus h1 v m with
          | error x => rw [hp'] at e; simp at e
          | ok x =>
            obtain ⟨w, h2⟩ := x
            rw [hp'] at e
            simp only [Except.ok.injEq, Prod.mk.injEq] at e
            obtain ⟨rfl, rfl⟩ := e
            obtain ⟨p1, p2, p3⟩ := hp w h2 hp'
            refine ⟨Nat.le_trans c1 p1, ?_, hput w (fun r hr hw => c3 r hr (p2 r hw))⟩
            intro r hr hne
            refine ⟨by rw [hk, hc], c3 r hr (p3 r ?_)⟩
            rw [c2 r hr]; exact hne
        · rw [if_neg hc] at e
          have hp : ∀ w h2, minus h1 v m = .ok (w, h2) → h1.length ≤ h2.length ∧ (∀ r, w = .list r → h1.length ≤ r) ∧
              ∀ r, r < h1.length → h2.getD r [] = h1.getD r [] := by
            intro w h2 hp
            unfold minus at hp
            split at hp
            · simp only [Except.ok.injEq, Prod.mk.injEq] at hp
              obtain ⟨rfl, rfl⟩ := hp
              exact ⟨Nat.le_refl _, by simp, fun _ _ => rfl⟩
            · simp only [Except.ok.injEq, Prod.mk.injEq] at hp
              obtain ⟨rfl, rfl⟩ := hp
              refine ⟨by simp, ?_, fun r hr => getD_append_left h1 _ hr⟩
              intro r hr
              simp only [Val.list.injEq] at hr
              omega
            · simp only [Except.ok.injEq, Prod.mk.injEq] at hp
              obtain ⟨rfl, rfl⟩ := hp
              exact ⟨Nat.le_refl _, by simp, fun _ _ => rfl⟩
            · simp only [Except.ok.injEq, Prod.mk.injEq] at hp
              obtain ⟨rfl, rfl⟩ := hp
              exact ⟨Nat.le_refl _, by simp, fun _ _ => rfl⟩
            all_goals simp at hp
          cases hp' : minus h1 v m with
          | error x => rw [hp'] at e; simp at e
          | ok x =>
            obtain ⟨w, h2⟩ := x
            rw [hp'] at e
            simp only [Except.ok.injEq, Prod.mk.injEq] at e
            obtain ⟨rfl, rfl⟩ := e
            obtain ⟨p1, p2, p3⟩ := hp w h2 hp'
            refine ⟨Nat.le_trans c1 p1, ?_, hput w (fun r hr hw => absurd (p2 r hw) (by omega))⟩
            intro r hr hne
            exact absurd ((p3 r (by omega)).trans (c2 r hr)) hne
      · simp at e
    · simp only [Except.ok.injEq, Prod.mk.injEq] at e
      obtain ⟨rfl, rfl⟩ := e
      refine ⟨Nat.le_refl _, fun _ _ h => absurd rfl h, ?_⟩
      intro k' r hr hl
      rw [lookup_set] at hl
      split at hl
      · rename_i hk'
        exact .inr ⟨hk', Option.some.inj hl⟩
      · exact .inl hl

theorem options_frame (opts : List (Text × Val)) (kw kw' : Dict) (h h' : Heap) (e : options opts kw h = .ok (kw', h'))
    (r : Nat) (hr : r < h.length) (hne : h'.getD r [] ≠ h.getD r []) :
    ∃ k, k ++ ['+'] ∈ opts.map (·.1) ∧ (kw.lookup k = some (.list r) ∨ (k, Val.list r) ∈ opts) := by
  induction opts generalizing kw h with
  | nil =>
    simp only [options, Except.ok.injEq, Prod.mk.injEq] at e
    exact absurd (by rw [e.2]) hne
  | cons o rest ih =>
    obtain ⟨k, m⟩ := o
    simp only [options] at e
    cases h1 : option kw h k m with
    | error x => rw [h1] at e; simp at e
    | ok x =>
      obtain ⟨kw1, h2⟩ := x
      rw [h1] at e
      obtain ⟨f1, f2, f3⟩ := option_frame h1
      by_cases hch : h2.getD r [] = h.getD r []
      · rw [← hch] at hne
        obtain ⟨k1, q1, q2⟩ := ih kw1 h2 e (Nat.lt_of_lt_of_le hr f1) hne
        refine ⟨k1, List.mem_map.mpr ?_, ?_⟩
        · obtain ⟨o, ho, ho'⟩ := List.mem_map.mp q1
          exact ⟨o, .tail _ ho, ho'⟩
        · rcases q2 with q2 | q2
          · rcases f3 k1 r hr q2 with q3 | ⟨rfl, rfl⟩
            · exact .inl q3
            · exact .inr (.head _)
          · exact .inr (.tail _ q2)
      · obtain ⟨q1, q2⟩ := f2 r hr hch
        refine ⟨k.dropLast, ?_, .inl q2⟩
        have : k.dropLast ++ ['+'] = k := by
          obtain ⟨hne', hl⟩ := List.getLast?_eq_some_iff.mp q1
          rw [hl]; simp
        rw [this]
        simp

/-- **C48**, the caller's values: a list given by the caller is changed only if it is given for a key `k` (as keyword
argument or by an option that sets `k`) and some matching entry has the option `k+`. -/
theorem C48_caller_partial (platform : List Text) (po : List (List Text × List (Text × Val))) (kw kw' : Dict)
    (h h' : Heap) (e : parse platform po kw h = .ok (kw', h')) (opts : List (Text × Val))
    (hopts : opts = ((po.filter (fun e => platformMatch platform e.1)).map (·.2)).flatten)
    (r : Nat) (hr : r < h.length) (hne : h'.getD r [] ≠ h.getD r []) :
    ∃ k, k ++ ['+'] ∈ opts.map (·.1) ∧ (kw.lookup k = some (.list r) ∨ (k, Val.list r) ∈ opts) := by
  rw [parse_eq] at e
  subst hopts
  exact options_frame _ kw kw' h h' e r hr hne

/-! A list of flags for all systems, and more flags for Linux. -/

def exFlags : List (List Text × List (Text × Val)) :=
  [(["posix".toList], [("flags".toList, .list 0)]), (["linux".toList], [("flags+".toList, .list 1)]),
   (["darwin".toList], [("flags".toList, .str [])])]

def exHeap : Heap := [["-g".toList], ["-fPIC".toList], ["-O2".toList, "-g".toList]]

def exLinux : List Text := ["posix".toList, "linux".toList]

example : ∃ kw' h', parse exLinux exFlags [("x".toList, .list 2)] exHeap = .ok (kw', h') ∧
    table h' kw' = Spec.put (Spec.put (table exHeap [("x".toList, .list 2)]) "flags".toList (.list ["-g".toList]))
      "flags".toList (.list ["-g".toList, "-fPIC".toList]) := by
  refine C48_result_partial _ _ _ _ _ _ rfl ⟨?_, by decide, ?_, ?_, by decide⟩ ?_ ?_
  · intro k k' r h1 h2
    simp only [List.lookup_cons, List.lookup_nil] at h1 h2
    split at h1 <;> split at h2 <;> simp_all
  · intro k r h1
    simp only [List.lookup_cons, List.lookup_nil] at h1
    split at h1
    · simp only [Option.some.injEq, Val.list.injEq] at h1
      subst h1
      decide
    · simp at h1
  · intro k r h1
    simp only [List.lookup_cons, List.lookup_nil] at h1
    split at h1
    · simp only [Option.some.injEq, Val.list.injEq] at h1
      subst h1
      decide
    · simp at h1
  · intro o ho hl xs
    have ho' : o ∈ [("flags".toList, Val.list 0), ("flags+".toList, Val.list 1)] := ho
    simp only [List.mem_cons, List.not_mem_nil, or_false] at ho'
    rcases ho' with rfl | rfl <;> simp
  · rfl

/-- **C48** fails for the caller's values: the list an entry sets is appended to in place, so the options themselves
change, and the same call gives other flags the second time. -/
theorem C48_grows_violated :
    ∃ kw1 h1 kw2 h2, parse exLinux exFlags [] exHeap = .ok (kw1, h1) ∧ parse exLinux exFlags [] h1 = .ok (kw2, h2) ∧
      table exHeap [("o".toList, .list 0)] "o".toList = some (.list ["-g".toList]) ∧
      table h1 [("o".toList, .list 0)] "o".toList = some (.list ["-g".toList, "-fPIC".toList]) ∧
      table h1 kw1 "flags".toList = some (.list ["-g".toList, "-fPIC".toList]) ∧
      table h2 kw2 "flags".toList = some (.list ["-g".toList, "-fPIC".toList, "-fPIC".toList]) := by
  refine ⟨[("flags".toList, .list 0)], [["-g".toList, "-fPIC".toList], ["-fPIC".toList], ["-O2".toList, "-g".toList]],
    [("flags".toList, .list 0)],
    [["-g".toList, "-fPIC".toList, "-fPIC".toList], ["-fPIC".toList], ["-O2".toList, "-g".toList]], ?_⟩
  exact ⟨rfl, rfl, rfl, rfl, rfl, rfl⟩

/-- **C48** fails for the caller's arguments: a list given as keyword argument is changed. -/
theorem C48_argument_violated :
    ∃ kw1 h1, parse exLinux [(["linux".toList], [("flags+".toList, .list 1)])] [("flags".toList, .list 2)] exHeap =
        .ok (kw1, h1) ∧
      exHeap.getD 2 [] = ["-O2".toList, "-g".toList] ∧
      h1.getD 2 [] = ["-O2".toList, "-g".toList, "-fPIC".toList] :=
  ⟨_, _, rfl, rfl, rfl⟩

/-- **C48** fails for sets: `key+` raises `TypeError`, although the code lists `set` among the types that support it. -/
theorem C48_set_violated :
    parse exLinux [(["linux".toList], [("defs+".toList, .set ["A".toList])])] [("defs".toList, .set ["B".toList])] [] =
      .error .typeError ∧
    parse exLinux [(["linux".toList], [("defs+".toList, .set ["A".toList])])] [] [] = .error .typeError ∧
    supported (.set ["A".toList]) = true :=
  ⟨rfl, rfl, rfl⟩

/-- **C48**: a text as `key-` for a list removes all elements that are a part of this text. -/
theorem C48_text_violated :
    ∃ kw1 h1, parse exLinux [(["linux".toList], [("flags-".toList, .str "-fPIC".toList)])]
        [("flags".toList, .list 0)] [["-f".toList, "-O2".toList, "-fPIC".toList]] = .ok (kw1, h1) ∧
      table h1 kw1 "flags".toList = some (.list ["-O2".toList]) :=
  ⟨_, _, rfl, rfl⟩

end Verif.Platform
