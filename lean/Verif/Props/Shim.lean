import Verif.Options.Shim
/-!
# C137: options of `optparse` given to fbuild's parser
-/
namespace Verif.Options.Shim
open Verif.Options (Str)

/-! ### Specification -/

/-- lists and tuples are not distinguished -/
def listedItem : Item → Item
  | .tuple as => .list as
  | i => i

def listed : Val → Val
  | .item i => .item (listedItem i)
  | .bool b => .bool b
  | .items is => .items (is.map listedItem)

/-- What `C137_partial` asks for: no callbacks, no `help` and `version`, no `long`, a `metavar` only for options that take one. -/
structure Ordinary (o : OptOption) : Prop where
  action : o.action ≠ .callback ∧ o.action ≠ .help ∧ o.action ≠ .version
  type : o.type ≠ some .long
  nargs : o.nargs ≠ some 0
  metavar : o.metavar = none ∨ (o.action ≠ .storeTrue ∧ o.action ≠ .storeFalse ∧ o.action ≠ .count)

/-- a use of the option has the right number of arguments; integers do not begin with a zero -/
structure Fits (o : OptOption) (args : List Str) : Prop where
  number : args.length = o.nargs.getD 0
  zero : o.type = some .int → ∀ s ∈ args, s.head? ≠ some '0'

/-- a default that is a text needs no conversion; flags are used or have a default -/
structure Started (o : OptOption) (uses : List (List Str)) : Prop where
  text : ∀ s, o.default = some (.item (.one (.text s))) → o.type = none ∨ o.type = some .string
  flag : uses ≠ [] ∨ o.default.isSome ∨ (o.action ≠ .storeTrue ∧ o.action ≠ .storeFalse)

/-- What is asked for if options share a destination: the first option of it has the default, and the others have the same or none; a flag
has a default if it is the first option of its destination; texts as defaults need no conversion. -/
structure Shared (opts : List OptOption) : Prop where
  defaults : opts.Pairwise fun p q => p.dest = q.dest → q.default = none ∨ q.default = p.default
  flags : ∀ (i : Nat) (o : OptOption), opts[i]? = some o → o.action = .storeTrue ∨ o.action = .storeFalse → o.default = none →
    ∃ (j : Nat) (o' : OptOption), j < i ∧ opts[j]? = some o' ∧ o'.dest = o.dest
  text : ∀ o ∈ opts, ∀ o' ∈ opts, ∀ s, o.dest = o'.dest → o.default = some (.item (.one (.text s))) →
    o'.type = none ∨ o'.type = some .string

/-- the values of all destinations -/
def values (f : Space) : Str → Option Val := fun d => (f d).map listed

/-! ### Lemmas -/

theorem optStrings_mem : ∀ (ss : List Str) {sh lo : List Str}, optStrings ss = some (sh, lo) → ∀ s, s ∈ sh ++ lo ↔ s ∈ ss
  | [], sh, lo, h, s => by
    simp only [optStrings, Option.some.injEq, Prod.mk.injEq] at h
    obtain ⟨rfl, rfl⟩ := h
    simp
  | x :: rest, sh, lo, h, s => by
    unfold optStrings at h
    cases hr : optStrings rest with
    | none => rw [hr] at h; simp at h
    | some p =>
      obtain ⟨sh', lo'⟩ := p
      have ih := optStrings_mem rest hr s
      rw [hr] at h
      match x, h with
      | [], h => simp at h
      | [c], h => simp at h
      | [c, d], h =>
        simp only at h
        split at h
        · simp only [Option.some.injEq, Prod.mk.injEq] at h
          obtain ⟨rfl, rfl⟩ := h
          simp only [List.cons_append, List.mem_cons, ih]
        · cases h
      | c :: d :: e :: t, h =>
        simp only at h
        split at h
        · simp only [Option.some.injEq, Prod.mk.injEq] at h
          obtain ⟨rfl, rfl⟩ := h
          simp only [List.mem_append, List.mem_cons] at ih ⊢
          rw [← ih]
          constructor
          · rintro (h | h | h)
            · exact .inr (.inl h)
            · exact .inl h
            · exact .inr (.inr h)
          · rintro (h | h | h)
            · exact .inr (.inl h)
            · exact .inl h
            · exact .inr (.inr h)
        · cases h

/-- what the constructor of `optparse.Option` makes sure -/
structure Made (names : List Str) (o : OptOption) : Prop where
  names : ∀ s, s ∈ o.short ++ o.long ↔ s ∈ names ∧ s ≠ []
  some : o.short ++ o.long ≠ []
  typed : o.action ≠ .callback → (o.type.isSome = true ↔ o.action.alwaysTyped = true)
  choices : o.type = .some .choice ↔ o.choices.isSome = true
  dest : o.action.stores = true → o.dest.isSome = true
  const : o.action.takesConst = false → o.const = .none
  nargs : o.action.typed = false → o.nargs = none
  nargs' : o.action.typed = true → o.nargs.isSome = true

theorem gleanDest_some {sh lo : List Str} (h : ¬ (sh = [] ∧ lo = [])) : (gleanDest sh lo).isSome = true := by
  unfold gleanDest
  cases lo with
  | cons l t => rfl
  | nil =>
    cases sh with
    | cons s t => rfl
    | nil => exact absurd ⟨rfl, rfl⟩ h

theorem make_made {names : List Str} {a : Attrs} {o : OptOption} (h : make names a = some o) : Made names o := by
  unfold make at h
  cases hs : optStrings (names.filter fun s => s ≠ []) with
  | none => rw [hs] at h; cases h
  | some p =>
    obtain ⟨sh, lo⟩ := p
    rw [hs] at h
    simp only at h
    generalize hty : makeType a (a.action.getD .store) = ty at h
    generalize hde : makeDest a (a.action.getD .store) ty sh lo = de at h
    split at h
    · cases h
    rename_i h0
    split at h
    · cases h
    rename_i h1
    split at h
    · cases h
    rename_i h2
    split at h
    · cases h
    rename_i h3
    split at h
    · cases h
    split at h
    · cases h
    have hmem := optStrings_mem _ hs
    simp only [Option.some.injEq] at h
    subst h
    refine ⟨?_, ?_, ?_, ?_, ?_, ?_, ?_, ?_⟩
    · intro s
      simp only [hmem, List.mem_filter, decide_not, Bool.not_eq_true', decide_eq_false_iff_not]
    · intro he
      exact h0 (List.append_eq_nil_iff.1 he)
    · intro hc
      simp only at hc ⊢
      rw [← hty]
      unfold makeType
      cases ht : a.type with
      | none =>
        simp only
        split
        · rename_i h; simp [h]
        · rename_i h; simp [h]
      | some t =>
        simp only [Option.isSome_some, true_iff]
        rw [ht] at h1
        simp only [Option.isSome_some, true_and, Bool.not_eq_false] at h1
        generalize a.action.getD .store = act at *
        cases act <;> simp_all [Act.typed, Act.alwaysTyped]
    · simp only [ne_eq, Decidable.not_not] at h2
      simp only
      rw [← h2, decide_eq_true_eq]
    · intro hst
      simp only at hst ⊢
      rw [← hde]
      unfold makeDest
      cases a.dest with
      | some d => rfl
      | none =>
        simp only [hst, true_or, if_true]
        exact gleanDest_some h0
    · intro hc
      simp only at hc ⊢
      exact Decidable.byContradiction fun hne => h3 ⟨hc, hne⟩
    · intro ht
      simp only at ht ⊢
      simp [ht]
    · intro ht
      simp only at ht ⊢
      simp [ht]

theorem make_attrs {names : List Str} {a : Attrs} {o : OptOption} (h : make names a = some o) :
    o.action = a.action.getD .store ∧ o.type = makeType a (a.action.getD .store) ∧ o.default = a.default ∧ o.metavar = a.metavar ∧
    o.help = a.help := by
  unfold make at h
  cases hs : optStrings (names.filter fun s => s ≠ []) with
  | none => rw [hs] at h; cases h
  | some p =>
    obtain ⟨sh, lo⟩ := p
    rw [hs] at h
    simp only at h
    generalize hty : makeType a (a.action.getD .store) = ty at h
    generalize hde : makeDest a (a.action.getD .store) ty sh lo = de at h
    split at h
    · cases h
    split at h
    · cases h
    split at h
    · cases h
    split at h
    · cases h
    split at h
    · cases h
    split at h
    · cases h
    simp only [Option.some.injEq] at h
    subst h
    exact ⟨rfl, rfl, rfl, rfl, rfl⟩

theorem push_listed {i j : Item} {v w : Val} (h : listed v = listed w) (hi : listedItem i = listedItem j) :
    (push i v).map listed = (push j w).map listed := by
  cases v with
  | bool b =>
    cases w with
    | bool b' => rfl
    | item j' => simp [listed] at h
    | items js => simp [listed] at h
  | items is =>
    cases w with
    | bool b' => simp [listed] at h
    | item j' => simp [listed] at h
    | items js =>
      simp only [listed, Val.items.injEq] at h
      simp [push, listed, h, hi]
  | item i' =>
    cases w with
    | bool b' => simp [listed] at h
    | items js => simp [listed] at h
    | item j' =>
      cases i' <;> cases j' <;> simp [listed, listedItem] at h <;> simp [push, listed, hi]

theorem more_listed {v w : Val} (h : listed v = listed w) : (more v).map listed = (more w).map listed := by
  cases v with
  | bool b =>
    cases w with
    | bool b' => simp only [listed, Val.bool.injEq] at h; rw [h]
    | item j' => simp [listed] at h
    | items js => simp [listed] at h
  | items is =>
    cases w with
    | bool b' => simp [listed] at h
    | item j' => simp [listed] at h
    | items js => rfl
  | item i' =>
    cases w with
    | bool b' => simp [listed] at h
    | items js => simp [listed] at h
    | item j' =>
      cases i' <;> cases j' <;> simp [listed, listedItem] at h
      · rfl
      · rw [h]
      · rfl
      · rfl
      · rfl
      · rfl

theorem convAll_congr {f g : Str → Option Atom} : ∀ {ss : List Str}, (∀ s ∈ ss, f s = g s) → convAll f ss = convAll g ss
  | [], _ => rfl
  | s :: ss, h => by
    simp only [convAll, h s List.mem_cons_self, convAll_congr fun x hx => h x (List.mem_cons_of_mem _ hx)]

/-- the argument that the shim makes -/
theorem addOption_ok {names : List Str} {o : OptOption} (hm : Made names o) (ho : Ordinary o) {taken : List Str}
    (hfree : ∀ s ∈ o.short ++ o.long, s ∉ taken) :
    ∃ ty, (∀ t, o.type = some t → typeMap t = .ok (ty.getD .str)) ∧ (ty.isSome = o.type.isSome) ∧ (∀ s, ty ≠ some (.text s)) ∧
    addOption taken o = .ok ⟨o.short ++ o.long, o.dest, o.action,
      if o.action.alwaysTyped then (if o.nargs = some 1 then none else o.nargs) else some 0, o.const,
      o.default.getD (classDefault o.action), ty, o.choices, o.help, o.metavar⟩ := by
  obtain ⟨hc, hh, hv⟩ := ho.action
  have hst : o.action.stores = true := by cases h : o.action <;> simp_all [Act.stores]
  obtain ⟨d, hd⟩ := Option.isSome_iff_exists.1 (hm.dest hst)
  have hkw : ∃ ty, (∀ t, o.type = some t → typeMap t = .ok (ty.getD .str)) ∧ (ty.isSome = o.type.isSome) ∧
      (∀ s, ty ≠ some (PyTy.text s)) ∧ shimKw o = .ok ⟨some o.action, ty, o.dest, o.default, if o.nargs = some 1 then none else o.nargs,
        o.const, o.choices, o.help, o.metavar⟩ := by
    unfold shimKw
    cases ht : o.type with
    | none => exact ⟨none, by simp, rfl, by simp, rfl⟩
    | some t =>
      have hl := ho.type
      rw [ht] at hl
      cases t with
      | long => exact absurd rfl hl
      | string => exact ⟨some .str, by intro t h; cases h; rfl, rfl, by simp, rfl⟩
      | int => exact ⟨some .int, by intro t h; cases h; rfl, rfl, by simp, rfl⟩
      | float => exact ⟨some .float, by intro t h; cases h; rfl, rfl, by simp, rfl⟩
      | complex => exact ⟨some .complex, by intro t h; cases h; rfl, rfl, by simp, rfl⟩
      | choice => exact ⟨some .str, by intro t h; cases h; rfl, rfl, by simp, rfl⟩
  obtain ⟨ty, k1, k2, k3, k4⟩ := hkw
  refine ⟨ty, k1, k2, k3, ?_⟩
  have hty := hm.typed hc
  have hacc : accepts o.action ⟨some o.action, ty, o.dest, o.default, if o.nargs = some 1 then none else o.nargs,
        o.const, o.choices, o.help, o.metavar⟩ = true := by
    have hn := hm.nargs
    have hco := hm.const
    have hch := hm.choices
    have hmv := ho.metavar
    cases ha : o.action with
    | store => rfl
    | append => rfl
    | callback => exact absurd ha hc
    | help => exact absurd ha hh
    | version => exact absurd ha hv
    | storeConst =>
      rw [ha] at hn hty
      have h1 : o.type = none := by cases h : o.type with | none => rfl | some t => simp [h, Act.alwaysTyped] at hty
      have h2 : o.choices = none := by cases h : o.choices with | none => rfl | some t => simp [h, h1] at hch
      have h3 : ty = none := by rw [h1] at k2; simpa using k2
      simp [accepts, hn rfl, h2, h3]
    | appendConst =>
      rw [ha] at hn hty
      have h1 : o.type = none := by cases h : o.type with | none => rfl | some t => simp [h, Act.alwaysTyped] at hty
      have h2 : o.choices = none := by cases h : o.choices with | none => rfl | some t => simp [h, h1] at hch
      have h3 : ty = none := by rw [h1] at k2; simpa using k2
      simp [accepts, hn rfl, h2, h3]
    | storeTrue =>
      rw [ha] at hn hty hco hmv
      have h1 : o.type = none := by cases h : o.type with | none => rfl | some t => simp [h, Act.alwaysTyped] at hty
      have h2 : o.choices = none := by cases h : o.choices with | none => rfl | some t => simp [h, h1] at hch
      have h3 : ty = none := by rw [h1] at k2; simpa using k2
      have h4 : o.metavar = none := by simpa using hmv
      simp [accepts, hn rfl, h2, h3, h4, hco rfl]
    | storeFalse =>
      rw [ha] at hn hty hco hmv
      have h1 : o.type = none := by cases h : o.type with | none => rfl | some t => simp [h, Act.alwaysTyped] at hty
      have h2 : o.choices = none := by cases h : o.choices with | none => rfl | some t => simp [h, h1] at hch
      have h3 : ty = none := by rw [h1] at k2; simpa using k2
      have h4 : o.metavar = none := by simpa using hmv
      simp [accepts, hn rfl, h2, h3, h4, hco rfl]
    | count =>
      rw [ha] at hn hty hco hmv
      have h1 : o.type = none := by cases h : o.type with | none => rfl | some t => simp [h, Act.alwaysTyped] at hty
      have h2 : o.choices = none := by cases h : o.choices with | none => rfl | some t => simp [h, h1] at hch
      have h3 : ty = none := by rw [h1] at k2; simpa using k2
      have h4 : o.metavar = none := by simpa using hmv
      simp [accepts, hn rfl, h2, h3, h4, hco rfl]
  have hn0 : ¬ (o.action.alwaysTyped = true ∧ (if o.nargs = some 1 then none else o.nargs) = some 0) := by
    rintro ⟨_, h⟩
    split at h
    · cases h
    · exact ho.nargs h
  have hco : ¬ (o.action.alwaysTyped = true ∧ o.const ≠ .none) := by
    rintro ⟨h, h'⟩
    refine h' (hm.const ?_)
    cases ha : o.action <;> simp_all [Act.alwaysTyped, Act.takesConst]
  have hfr : (o.short ++ o.long).any (fun s => s ∈ taken) = false := by
    rw [List.any_eq_false]
    intro s hs
    simpa using hfree s hs
  unfold addOption
  rw [k4]
  rw [hd] at hacc
  simp only [addArgument, Option.getD_some, if_neg hc, hacc, Bool.true_eq_false, if_false, if_neg hn0, if_neg hco, hd]
  cases ty with
  | none => simp only [hfr, Bool.false_eq_true, if_false]
  | some p =>
    cases p with
    | text s => exact absurd rfl (k3 s)
    | _ => simp only [hfr, Bool.false_eq_true, if_false]

/-- the conversions agree -/
theorem value_same {names : List Str} {o : OptOption} (hm : Made names o) (ho : Ordinary o) {a : Arg} {ty : Option PyTy}
    (k1 : ∀ t, o.type = some t → typeMap t = .ok (ty.getD .str)) (k2 : ty.isSome = o.type.isSome) (ha : a.type = ty)
    (hch : a.choices = o.choices) (cv : Conv) {s : Str} (hz : o.type = some .int → s.head? ≠ some '0') :
    checkedValue cv a s = checkValue cv o s := by
  have hl := ho.type
  have hchoice := hm.choices
  unfold checkedValue getValue checkValue
  rw [ha, hch]
  cases ht : o.type with
  | none =>
    rw [ht] at k2 hchoice
    have h1 : ty = none := by simpa using k2
    have h2 : o.choices = none := by cases h : o.choices with | none => rfl | some t => simp [h] at hchoice
    simp [h1, h2]
  | some t =>
    have k := k1 t ht
    rw [ht] at k2 hl hchoice
    obtain ⟨p, hp⟩ := Option.isSome_iff_exists.1 (k2.trans rfl)
    rw [hp] at k ⊢
    simp only [Option.getD_some] at k
    have none_of : t ≠ .choice → o.choices = none := by
      intro hne
      cases h : o.choices with
      | none => rfl
      | some c => simp [h, hne] at hchoice
    cases t with
    | long => exact absurd rfl hl
    | string => simp only [typeMap, Except.ok.injEq] at k; subst k; simp [none_of (by simp)]
    | float =>
      simp only [typeMap, Except.ok.injEq] at k; subst k
      simp only [none_of (by simp)]
      cases cv.float s <;> rfl
    | complex =>
      simp only [typeMap, Except.ok.injEq] at k; subst k
      simp only [none_of (by simp)]
      cases cv.complex s <;> rfl
    | int =>
      simp only [typeMap, Except.ok.injEq] at k; subst k
      have hz := hz ht
      have : parseNum cv s = cv.int 10 s := by
        unfold parseNum
        split <;> first | rfl | simp at hz
      simp only [none_of (by simp), this]
      cases cv.int 10 s <;> rfl
    | choice =>
      simp only [typeMap, Except.ok.injEq] at k; subst k
      have : o.choices.isSome = true := hchoice.1 rfl
      obtain ⟨cs, hcs⟩ := Option.isSome_iff_exists.1 this
      simp [hcs]

/-- the argument that is added, and what a use of it does -/
theorem added {names : List Str} {attrs : Attrs} {o : OptOption} (hm : make names attrs = some o) (ho : Ordinary o)
    {taken : List Str} (hfree : ∀ s ∈ names, s ∉ taken) :
    ∃ a, addOption taken o = .ok a ∧ (∀ s, s ∈ a.names ↔ s ∈ names ∧ s ≠ []) ∧ a.dest.isSome = true ∧ a.dest = o.dest ∧
      a.help = o.help ∧ a.metavar = o.metavar ∧ a.action = o.action ∧ a.default = o.default.getD (classDefault o.action) ∧
      (o.type = none ∨ o.type = some .string → a.type = none ∨ a.type = some .str) ∧
      ∀ (cv : Conv) args, Fits o args → ∀ v w, listed v = listed w → (argUse cv a args v).map listed = (optUse cv o args w).map listed := by
  have hM := make_made hm
  obtain ⟨ty, k1, k2, k3, k4⟩ := addOption_ok hM ho (taken := taken) fun s hs => hfree s ((hM.names s).1 hs).1
  have hst : o.action.stores = true := by
    obtain ⟨hc, hh, hv⟩ := ho.action
    cases h : o.action <;> simp_all [Act.stores]
  refine ⟨_, k4, hM.names, hM.dest hst, rfl, rfl, rfl, rfl, rfl, ?_, ?_⟩
  · intro hty
    simp only
    rcases hty with h | h
    · rw [h] at k2; left; simpa using k2
    · have := k1 _ h
      rw [h] at k2
      obtain ⟨p, hp⟩ := Option.isSome_iff_exists.1 (k2.trans rfl)
      rw [hp] at this ⊢
      simp only [typeMap, Option.getD_some, Except.ok.injEq] at this
      right; rw [this]
  intro cv
  generalize ha : (⟨o.short ++ o.long, o.dest, o.action, if o.action.alwaysTyped then (if o.nargs = some 1 then none else o.nargs) else some 0,
    o.const, o.default.getD (classDefault o.action), ty, o.choices, o.help, o.metavar⟩ : Arg) = a
  have hsame : ∀ s, (o.type = some .int → s.head? ≠ some '0') → checkedValue cv a s = checkValue cv o s := fun s hz =>
    value_same hM ho k1 k2 (by rw [← ha]) (by rw [← ha]) cv hz
  have hvalues : ∀ args, Fits o args → o.action.alwaysTyped = true →
      (getValues cv a args).map listedItem = (convertValue cv o args).map listedItem := by
    intro args hf hty
    have hn : a.nargs = if o.nargs = some 1 then none else o.nargs := by rw [← ha]; simp [hty]
    have hisn : o.nargs.isSome = true := hM.nargs' (by cases h : o.action <;> simp_all [Act.alwaysTyped, Act.typed])
    obtain ⟨k, hk⟩ := Option.isSome_iff_exists.1 hisn
    unfold getValues convertValue
    rw [hn]
    by_cases h1 : o.nargs = some 1
    · simp only [h1, if_true]
      have hlen := hf.number
      rw [h1] at hlen
      match args, hlen with
      | [s], _ => simp only [hsame s fun h => hf.zero h s List.mem_cons_self]
    · simp only [if_neg h1]
      rw [hk]
      simp only
      rw [convAll_congr fun s hs => hsame s fun h => hf.zero h s hs]
      cases convAll (checkValue cv o) args <;> rfl
  have hact : a.action = o.action := by rw [← ha]
  have hconst : a.const = o.const := by rw [← ha]
  intro args hf v w hvw
  unfold argUse optUse
  rw [hact, hconst]
  cases hA : o.action with
  | store =>
    have := hvalues args hf (by rw [hA]; rfl)
    cases h1 : getValues cv a args <;> cases h2 : convertValue cv o args <;> rw [h1, h2] at this <;> simp_all [listed]
  | storeConst => rfl
  | storeTrue => rfl
  | storeFalse => rfl
  | append =>
    have := hvalues args hf (by rw [hA]; rfl)
    cases h1 : getValues cv a args with
    | none => cases h2 : convertValue cv o args <;> rw [h1, h2] at this <;> simp_all
    | some i =>
      cases h2 : convertValue cv o args with
      | none => rw [h1, h2] at this; simp at this
      | some j =>
        rw [h1, h2] at this
        exact push_listed hvw (by simpa using this)
  | appendConst => exact push_listed hvw rfl
  | count => exact more_listed hvw
  | callback => rfl
  | help => rfl
  | version => rfl

/-- **C137**: an option made with `optparse` and given to `add_option` or `add_options` keeps its names, has the same destination, and
gets the same value for every sequence of uses (tuples become lists).  Partial: see `Ordinary`, `Fits` and `Started`, and the
`C137_..._violated` below for each of these conditions. -/
theorem C137_partial {names : List Str} {attrs : Attrs} {o : OptOption} (hm : make names attrs = some o) (ho : Ordinary o)
    {taken : List Str} (hfree : ∀ s ∈ names, s ∉ taken) :
    ∃ a, addOption taken o = .ok a ∧ (∀ s, s ∈ a.names ↔ s ∈ names ∧ s ≠ []) ∧ a.dest.isSome = true ∧ a.dest = o.dest ∧
      a.help = o.help ∧ a.metavar = o.metavar ∧
      ∀ (cv : Conv) (uses : List (List Str)), (∀ args ∈ uses, Fits o args) → Started o uses →
        (argRun cv a uses).map listed = (optRun cv o uses).map listed := by
  obtain ⟨a, h1, h2, h3, h4, h5, h6, hact, hdef, hplain, huse⟩ := added hm ho hfree
  refine ⟨a, h1, h2, h3, h4, h5, h6, ?_⟩
  intro cv uses hfits hstart
  have huse := huse cv
  have hfold : ∀ (us : List (List Str)), (∀ args ∈ us, Fits o args) → ∀ v w : Option Val, v.map listed = w.map listed →
      (us.foldl (fun v args => v.bind (argUse cv a args)) v).map listed = (us.foldl (fun v args => v.bind (optUse cv o args)) w).map listed := by
    intro us
    induction us with
    | nil => intro _ v w h; exact h
    | cons args us ih =>
      intro hf v w h
      refine ih (fun x hx => hf x (List.mem_cons_of_mem _ hx)) _ _ ?_
      cases v with
      | none => cases w with
        | none => rfl
        | some w => simp at h
      | some v => cases w with
        | none => simp at h
        | some w => exact huse args (hf args List.mem_cons_self) v w (by simpa using h)
  have hoStart : ∀ v, o.default = some v → optStart cv o = some v := by
    intro v hv
    unfold optStart
    rw [hv]
    split
    · rename_i s h
      cases h
      have := hstart.text s hv
      rcases this with h | h <;> simp [checkValue, h]
    · rename_i h; cases h; rfl
    · rename_i h; cases h
  cases hd : o.default with
  | some v =>
    rw [hd] at hdef
    simp only [Option.getD_some] at hdef
    unfold argRun optRun
    rw [hoStart v hd, hdef]
    split
    · rename_i s
      have hty := hstart.text s hd
      have hat := hplain hty
      rcases hat with h | h <;> simp [getValue, h]
    · exact hfold _ hfits _ _ rfl
  | none =>
    rw [hd] at hdef
    simp only [Option.getD_none] at hdef
    have h0 : optStart cv o = some .none := by unfold optStart; rw [hd]
    have hrun : argRun cv a uses = uses.foldl (fun v args => v.bind (argUse cv a args)) (some (classDefault o.action)) := by
      unfold argRun
      rw [hdef]
      split
      · rename_i h
        obtain ⟨hc, hh, hv⟩ := ho.action
        cases hA : o.action <;> rw [hA] at h <;> simp [classDefault] at h
        · exact absurd hA hh
        · exact absurd hA hv
      · rfl
    unfold optRun
    rw [h0, hrun]
    cases uses with
    | nil =>
      have hfl := hstart.flag
      rw [hd] at hfl
      simp only [ne_eq, not_true_eq_false, Option.isSome_none, Bool.false_eq_true, false_or] at hfl
      obtain ⟨hc, hh, hv⟩ := ho.action
      cases hA : o.action <;> simp_all [classDefault]
    | cons args us =>
      simp only [List.foldl_cons]
      refine hfold us (fun x hx => hfits x (List.mem_cons_of_mem _ hx)) _ _ ?_
      by_cases hflag : o.action = .storeTrue ∨ o.action = .storeFalse
      · have h1 : ∀ v, argUse cv a args v = some (.bool (decide (o.action = .storeTrue))) := by
          intro v; unfold argUse; rw [hact]; rcases hflag with h | h <;> simp [h]
        have h2 : ∀ v, optUse cv o args v = some (.bool (decide (o.action = .storeTrue))) := by
          intro v; unfold optUse; rcases hflag with h | h <;> simp [h]
        simp only [Option.bind_some, h1, h2]
      · have hcd : classDefault o.action = .none := by
          obtain ⟨hc, hh, hv⟩ := ho.action
          cases hA : o.action <;> simp_all [classDefault]
        rw [hcd]
        exact huse args (hfits args List.mem_cons_self) _ _ rfl

theorem addOption_names {taken : List Str} {o : OptOption} {a : Arg} (h : addOption taken o = .ok a) :
    a.names = o.short ++ o.long ∧ ∀ s ∈ o.short ++ o.long, s ∉ taken := by
  unfold addOption at h
  split at h
  · cases h
  · unfold addArgument at h
    simp only at h
    split at h
    · cases h
    split at h
    · cases h
    split at h
    · cases h
    split at h
    · cases h
    split at h
    · cases h
    split at h
    · cases h
    · rename_i hany
      cases h
      refine ⟨rfl, fun s hs hm => hany ?_⟩
      rw [List.any_eq_true]
      exact ⟨s, hs, by simpa using hm⟩

/-- **C137**: a list of options is taken only as a whole: one argument for each option, in this order, with its names, and no name is used
twice or belongs to an option that the parser already has. -/
theorem C137_whole : ∀ (os : List OptOption) (taken : List Str) (as : List Arg), addOptions taken os = .ok as →
    as.map (fun a => a.names) = os.map (fun o => o.short ++ o.long) ∧ (∀ o ∈ os, ∀ s ∈ o.short ++ o.long, s ∉ taken) ∧
      os.Pairwise (fun o o' => ∀ s ∈ o.short ++ o.long, s ∉ o'.short ++ o'.long)
  | [], _, as, h => by
    cases h
    exact ⟨rfl, by simp, List.Pairwise.nil⟩
  | o :: os, taken, as, h => by
    rw [addOptions] at h
    split at h
    · cases h
    rename_i a ha
    split at h
    · cases h
    rename_i as' has
    cases h
    obtain ⟨hn, ht⟩ := addOption_names ha
    obtain ⟨h1, h2, h3⟩ := C137_whole os _ as' has
    refine ⟨by rw [List.map_cons, List.map_cons, hn, h1], ?_, List.Pairwise.cons ?_ h3⟩
    · intro o' ho'
      rcases List.mem_cons.1 ho' with rfl | ho'
      · exact ht
      · exact fun s hs hm => h2 o' ho' s hs (List.mem_append_left _ hm)
    · intro o' ho' s hs hs'
      exact h2 o' ho' s hs' (List.mem_append_right _ (hn ▸ hs))

/-- `add_options`: all options are added, in the order of the list, if no name is used twice -/
theorem C137_many_partial : ∀ (opts : List (List Str × OptOption)) (taken : List Str),
    (∀ p ∈ opts, (∃ attrs, make p.1 attrs = some p.2) ∧ Ordinary p.2 ∧ ∀ s ∈ p.1, s ∉ taken) →
    opts.Pairwise (fun p q => ∀ s ∈ p.1, s ∉ q.1) →
    ∃ as, addOptions taken (opts.map (·.2)) = .ok as ∧ as.length = opts.length ∧
      ∀ i (h : i < opts.length) (h' : i < as.length), (∀ s, s ∈ as[i].names ↔ s ∈ opts[i].1 ∧ s ≠ []) ∧ as[i].dest = opts[i].2.dest ∧
        ∀ (cv : Conv) (uses : List (List Str)), (∀ args ∈ uses, Fits opts[i].2 args) → Started opts[i].2 uses →
          (argRun cv as[i] uses).map listed = (optRun cv opts[i].2 uses).map listed
  | [], taken, _, _ => ⟨[], rfl, rfl, fun i h => absurd h (by simp)⟩
  | p :: ps, taken, hall, hpw => by
    obtain ⟨⟨attrs, hm⟩, ho, hfree⟩ := hall p List.mem_cons_self
    obtain ⟨a, ha, hn, _, hd, _, _, hrun⟩ := C137_partial hm ho hfree
    rw [List.pairwise_cons] at hpw
    obtain ⟨as, has, hlen, hrest⟩ := C137_many_partial ps (taken ++ a.names)
      (by
        intro q hq
        obtain ⟨h1, h2, h3⟩ := hall q (List.mem_cons_of_mem _ hq)
        refine ⟨h1, h2, fun s hs hmem => ?_⟩
        rcases List.mem_append.1 hmem with h | h
        · exact h3 s hs h
        · exact hpw.1 q hq s ((hn s).1 h).1 hs)
      hpw.2
    refine ⟨a :: as, ?_, by simp [hlen], ?_⟩
    · simp only [List.map_cons, addOptions, ha, has]
    · intro i h h'
      cases i with
      | zero => exact ⟨hn, hd, hrun⟩
      | succ i => exact hrest i (by simpa using h) (by simpa using h')

/-! ### Several options -/

/-- the argument is what `added` says -/
structure RelArg (o : OptOption) (a : Arg) : Prop where
  isSome : o.dest.isSome = true
  dest : a.dest = o.dest
  ordinary : o.action ≠ .help ∧ o.action ≠ .version
  action : a.action = o.action
  default : a.default = o.default.getD (classDefault o.action)
  type : o.type = none ∨ o.type = some .string → a.type = none ∨ a.type = some .str
  use : ∀ (cv : Conv) args, Fits o args → ∀ v w, listed v = listed w → (argUse cv a args v).map listed = (optUse cv o args w).map listed

inductive AllRel : List OptOption → List Arg → Prop
  | nil : AllRel [] []
  | cons {o os a as} : RelArg o a → AllRel os as → AllRel (o :: os) (a :: as)

theorem AllRel.get {os : List OptOption} {as : List Arg} (h : AllRel os as) : ∀ {i : Nat} {o : OptOption}, os[i]? = some o →
    ∃ a, as[i]? = some a ∧ RelArg o a := by
  induction h with
  | nil => intro i o h; simp at h
  | cons hr _ ih =>
    intro i o h
    cases i with
    | zero =>
      simp only [List.getElem?_cons_zero, Option.some.injEq] at h
      exact ⟨_, rfl, h ▸ hr⟩
    | succ i => simpa using ih (by simpa using h)

theorem addOptions_rel : ∀ (opts : List (List Str × OptOption)) (taken : List Str),
    (∀ p ∈ opts, (∃ attrs, make p.1 attrs = some p.2) ∧ Ordinary p.2 ∧ ∀ s ∈ p.1, s ∉ taken) →
    opts.Pairwise (fun p q => ∀ s ∈ p.1, s ∉ q.1) →
    ∃ as, addOptions taken (opts.map (·.2)) = .ok as ∧ AllRel (opts.map (·.2)) as
  | [], taken, _, _ => ⟨[], rfl, .nil⟩
  | p :: ps, taken, hall, hpw => by
    obtain ⟨⟨attrs, hm⟩, ho, hfree⟩ := hall p List.mem_cons_self
    obtain ⟨a, ha, hn, hs, hd, _, _, hact, hdef, hty, huse⟩ := added hm ho hfree
    rw [List.pairwise_cons] at hpw
    obtain ⟨as, has, hrest⟩ := addOptions_rel ps (taken ++ a.names)
      (by
        intro q hq
        obtain ⟨h1, h2, h3⟩ := hall q (List.mem_cons_of_mem _ hq)
        refine ⟨h1, h2, fun s hs hmem => ?_⟩
        rcases List.mem_append.1 hmem with h | h
        · exact h3 s hs h
        · exact hpw.1 q hq s ((hn s).1 h).1 hs)
      hpw.2
    refine ⟨a :: as, ?_, .cons ⟨hd ▸ hs, hd, ho.action.2, hact, hdef, hty, huse⟩ hrest⟩
    simp only [List.map_cons, addOptions, ha, has]

theorem Space.set_self {f : Space} {d : Str} {v : Val} (h : f d = some v) : f.set d v = f := by
  funext x
  unfold Space.set
  split
  · rename_i hx; rw [hx, h]
  · rfl

theorem Space.set_get (f : Space) (d : Str) (v : Val) : f.set d v d = some v := by simp [Space.set]

theorem start_same {os : List OptOption} {as : List Arg} (h : AllRel os as) : ∀ (f : Space),
    os.Pairwise (fun p q => p.dest = q.dest → q.default = none ∨ q.default = p.default) →
    (∀ d v, f d = some v → ∀ o ∈ os, o.dest = some d → o.default = none ∨ o.default = some v) →
    (∀ (i : Nat) (o : OptOption), os[i]? = some o → o.action = .storeTrue ∨ o.action = .storeFalse → o.default = none →
      (∃ d, o.dest = some d ∧ (f d).isSome = true) ∨ ∃ (j : Nat) (o' : OptOption), j < i ∧ os[j]? = some o' ∧ o'.dest = o.dest) →
    argDefaults as f = optDefaults os f := by
  induction h with
  | nil => intro f _ _ _; rfl
  | @cons o os a as hr hrest ih =>
    intro f hpw hv hfl
    rw [List.pairwise_cons] at hpw
    obtain ⟨d, hd⟩ := Option.isSome_iff_exists.1 hr.isSome
    have hnh : ¬ ((a.action = .help ∨ a.action = .version) ∧ a.default = classDefault a.action) := by
      rw [hr.action]
      rintro ⟨h | h, _⟩
      · exact hr.ordinary.1 h
      · exact hr.ordinary.2 h
    -- the first option does the same
    obtain ⟨f', ho, ha, hkeep, hnew⟩ : ∃ f' : Space,
        optAdd f o = f' ∧ argAdd f a = f' ∧
        (∀ x v, f x = some v → f' x = some v) ∧
        (∀ x v, f' x = some v → f x = some v ∨ (x = d ∧ f x = none ∧ v = o.default.getD .none)) ∧ (f' d).isSome = true := by
      unfold optAdd argAdd
      rw [hr.dest, hd]
      simp only [hnh, or_false]
      cases hf : f d with
      | some v =>
        refine ⟨f, ?_, by simp, fun x v h => h, fun x v h => .inl h, by rw [hf]; rfl⟩
        cases hdef : o.default with
        | none => simp [hf]
        | some w =>
          have := hv d v hf o List.mem_cons_self hd
          rw [hdef] at this
          have hw : w = v := by
            rcases this with h | h
            · cases h
            · cases h; rfl
          simp only [hw]
          rw [Space.set_self hf]
      | none =>
        refine ⟨f.set d (o.default.getD .none), ?_, ?_, ?_, ?_, by simp [Space.set_get]⟩
        · cases hdef : o.default with
          | none => simp [hf]
          | some w => rfl
        · have hdefault : a.default = o.default.getD .none := by
            rw [hr.default]
            cases hdef : o.default with
            | some w => rfl
            | none =>
              simp only [Option.getD_none]
              have hno : ¬ (o.action = .storeTrue ∨ o.action = .storeFalse) := by
                intro h
                rcases hfl 0 o rfl h hdef with ⟨d', h1, h2⟩ | ⟨j, _, h1, _⟩
                · rw [hd] at h1
                  cases h1
                  rw [hf] at h2; cases h2
                · omega
              have := hr.ordinary
              cases hA : o.action <;> simp_all [classDefault]
          rw [hdefault]
          simp
        · intro x v hx
          unfold Space.set
          split
          · rename_i h; rw [h, hf] at hx; cases hx
          · exact hx
        · intro x v hx
          unfold Space.set at hx
          split at hx
          · rename_i h
            cases hx
            exact .inr ⟨h, h ▸ hf, rfl⟩
          · exact .inl hx
    obtain ⟨hnew, hsome⟩ := hnew
    have e1 : optDefaults (o :: os) f = optDefaults os f' := by rw [← ho]; rfl
    have e2 : argDefaults (a :: as) f = argDefaults as f' := by rw [← ha]; rfl
    rw [e1, e2]
    refine ih f' hpw.2 ?_ ?_
    · intro x v hx q hq hqd
      rcases hnew x v hx with h | ⟨rfl, _, rfl⟩
      · exact hv x v h q (List.mem_cons_of_mem _ hq) hqd
      · rcases hpw.1 q hq (hd.trans hqd.symm) with h | h
        · exact .inl h
        · cases hdef : o.default with
          | none => rw [hdef] at h; exact .inl h
          | some w => rw [hdef] at h; exact .inr h
    · intro i q hq hA hqd
      rcases hfl (i + 1) q (by simpa using hq) hA hqd with ⟨d', h1, h2⟩ | ⟨j, o', hj, h1, h2⟩
      · obtain ⟨v, hv'⟩ := Option.isSome_iff_exists.1 h2
        exact .inl ⟨d', h1, by rw [hkeep d' v hv']; rfl⟩
      · cases j with
        | zero =>
          simp only [List.getElem?_cons_zero, Option.some.injEq] at h1
          subst h1
          exact .inl ⟨d, h2 ▸ hd, hsome⟩
        | succ j => exact .inr ⟨j, o', by omega, by simpa using h1, h2⟩

theorem optDefaults_from : ∀ (os : List OptOption) (f : Space) (d : Str) (v : Val), optDefaults os f d = some v →
    f d = some v ∨ v = .none ∨ ∃ o ∈ os, o.dest = some d ∧ o.default = some v
  | [], f, d, v, h => .inl h
  | o :: os, f, d, v, h => by
    have h : optDefaults os (optAdd f o) d = some v := h
    rcases optDefaults_from os _ d v h with h | h | ⟨q, hq, h⟩
    · unfold optAdd at h
      cases hd : o.dest with
      | none => rw [hd] at h; exact .inl h
      | some e =>
        rw [hd] at h
        cases hdef : o.default with
        | some w =>
          rw [hdef] at h
          simp only [Space.set] at h
          split at h
          · rename_i he
            exact .inr (.inr ⟨o, List.mem_cons_self, by rw [hd, he], by rw [hdef, h]⟩)
          · exact .inl h
        | none =>
          rw [hdef] at h
          simp only at h
          split at h
          · exact .inl h
          · simp only [Space.set] at h
            split at h
            · cases h; exact .inr (.inl rfl)
            · exact .inl h
    · exact .inr (.inl h)
    · exact .inr (.inr ⟨q, List.mem_cons_of_mem _ hq, h⟩)

theorem optConvert_same (cv : Conv) : ∀ (os : List OptOption) (f : Space),
    (∀ o ∈ os, ∀ d s, o.dest = some d → f d = some (.item (.one (.text s))) → o.type = none ∨ o.type = some .string) →
    optConvert cv os f = some f
  | [], f, _ => rfl
  | o :: os, f, h => by
    have ih := optConvert_same cv os f fun q hq => h q (List.mem_cons_of_mem _ hq)
    unfold optConvert
    cases hd : o.dest with
    | none => exact ih
    | some d =>
      simp only
      split
      · rename_i s hf
        have : checkValue cv o s = some (.text s) := by
          rcases h o List.mem_cons_self d s hd hf with h | h <;> simp [checkValue, h]
        rw [this]
        simp only
        rw [Space.set_self hf]
        exact ih
      · exact ih

theorem argConvert_same (cv : Conv) (uses : List (Nat × List Str)) {os : List OptOption} {as : List Arg} (h : AllRel os as) :
    (∀ o ∈ os, ∀ s, o.default = some (.item (.one (.text s))) → o.type = none ∨ o.type = some .string) →
    ∀ i f, argConvert cv uses i as f = some f := by
  induction h with
  | nil => intro _ i f; rfl
  | @cons o os a as hr hrest ih =>
    intro hp i f
    have ih := ih (fun q hq => hp q (List.mem_cons_of_mem _ hq)) (i + 1) f
    unfold argConvert
    split
    · rename_i d s hd hs
      split
      · exact ih
      · rename_i hf
        rw [not_or] at hf
        have hf2 : f d = some (.item (.one (.text s))) := Decidable.not_not.1 hf.2
        have hdef : o.default = some (.item (.one (.text s))) := by
          have := hr.default
          rw [hs] at this
          cases hdef : o.default with
          | some w => rw [hdef] at this; rw [this]; rfl
          | none =>
            rw [hdef] at this
            have hno := hr.ordinary
            cases hA : o.action <;> simp_all [classDefault]
        have : getValue cv a s = some (.text s) := by
          rcases hr.type (hp o List.mem_cons_self s hdef) with h | h <;> simp [getValue, h]
        rw [this]
        simp only
        rw [Space.set_self hf2]
        exact ih
    · exact ih

/-- **C137** for options that may share destinations: after all options were added, each command line gives all destinations the values that
`optparse` gives them.  A use is the number of the option and its arguments. -/
theorem C137_shared_partial (opts : List (List Str × OptOption)) (taken : List Str)
    (hall : ∀ p ∈ opts, (∃ attrs, make p.1 attrs = some p.2) ∧ Ordinary p.2 ∧ ∀ s ∈ p.1, s ∉ taken)
    (hpw : opts.Pairwise (fun p q => ∀ s ∈ p.1, s ∉ q.1)) (hs : Shared (opts.map (·.2))) :
    ∃ as, addOptions taken (opts.map (·.2)) = .ok as ∧
      ∀ (cv : Conv) (uses : List (Nat × List Str)), (∀ u ∈ uses, ∃ o, (opts.map (·.2))[u.1]? = some o ∧ Fits o u.2) →
        (argParse cv as uses).map values = (optParse cv (opts.map (·.2)) uses).map values := by
  obtain ⟨as, has, hrel⟩ := addOptions_rel opts taken hall hpw
  refine ⟨as, has, ?_⟩
  intro cv uses hu
  generalize opts.map (·.2) = os at *
  have h0 : argDefaults as (fun _ => none) = optDefaults os fun _ => none :=
    start_same hrel _ hs.defaults (by intro d v h; cases h) fun i o h1 h2 h3 => .inr (hs.flags i o h1 h2 h3)
  have h1 : optConvert cv os (optDefaults os fun _ => none) = some (optDefaults os fun _ => none) := by
    refine optConvert_same cv os _ fun o ho d s hd hf => ?_
    rcases optDefaults_from os _ d _ hf with h | h | ⟨q, hq, h2, h3⟩
    · cases h
    · cases h
    · exact hs.text q hq o ho s (h2.trans hd.symm) h3
  unfold argParse optParse
  rw [h1, h0]
  have hc : ∀ f : Option Space, f.bind (argConvert cv uses 0 as) = f := by
    intro f
    cases f with
    | none => rfl
    | some f => exact argConvert_same cv uses hrel (fun o ho s h => hs.text o ho o ho s rfl h) 0 f
  rw [hc]
  have hstep : ∀ u f g, (∃ o, os[u.1]? = some o ∧ Fits o u.2) → values f = values g →
      (argStep cv as f u).map values = (optStep cv os g u).map values := by
    rintro u f g ⟨o, ho, hfit⟩ hfg
    obtain ⟨a, ha, hr⟩ := hrel.get ho
    unfold argStep optStep
    rw [ho, ha]
    simp only
    obtain ⟨d, hd⟩ := Option.isSome_iff_exists.1 hr.isSome
    rw [hr.dest, hd]
    simp only
    have hl : listed ((f d).getD .none) = listed ((g d).getD .none) := by
      have := congrFun hfg d
      unfold values at this
      cases hf : f d <;> cases hg : g d <;> rw [hf, hg] at this <;> simp_all
    have := hr.use cv u.2 hfit _ _ hl
    cases hA : argUse cv a u.2 ((f d).getD .none) with
    | none => cases hO : optUse cv o u.2 ((g d).getD .none) with
      | none => rfl
      | some w => rw [hA, hO] at this; simp at this
    | some v => cases hO : optUse cv o u.2 ((g d).getD .none) with
      | none => rw [hA, hO] at this; simp at this
      | some w =>
        rw [hA, hO] at this
        simp only [Option.map_some, Option.some.injEq] at this ⊢
        funext x
        unfold values Space.set
        split
        · simp [this]
        · exact congrFun hfg x
  have hfold : ∀ (us : List (Nat × List Str)) (f g : Option Space), (∀ u ∈ us, ∃ o, os[u.1]? = some o ∧ Fits o u.2) →
      f.map values = g.map values →
      (us.foldl (fun f u => f.bind fun f => argStep cv as f u) f).map values =
        (us.foldl (fun f u => f.bind fun f => optStep cv os f u) g).map values := by
    intro us
    induction us with
    | nil => intro f g _ h; exact h
    | cons u us ih =>
      intro f g hu h
      refine ih _ _ (fun x hx => hu x (List.mem_cons_of_mem _ hx)) ?_
      cases f with
      | none => cases g with
        | none => rfl
        | some g => simp at h
      | some f => cases g with
        | none => simp at h
        | some g => exact hstep u f g (hu u List.mem_cons_self) (by simpa using h)
  exact hfold uses _ _ hu rfl

/-! ### Where options do not mean the same -/

/-- a flag that is not used is `None` with `optparse`, and `False` (`True` for `store_false`) here -/
theorem C137_flag_violated {names : List Str} {attrs : Attrs} {o : OptOption} (hm : make names attrs = some o)
    (ha : attrs.action = some .storeTrue ∨ attrs.action = some .storeFalse) (hd : attrs.default = none) (hv : attrs.metavar = none) :
    ∃ a, addOption [] o = .ok a ∧ ∀ cv, optRun cv o [] = some .none ∧ argRun cv a [] = some (.bool (decide (attrs.action = some .storeFalse))) := by
  have hM := make_made hm
  have hact : o.action = attrs.action.getD .store ∧ o.default = attrs.default ∧ o.metavar = attrs.metavar := by
    exact ⟨(make_attrs hm).1, (make_attrs hm).2.2.1, (make_attrs hm).2.2.2.1⟩
  have ho : Ordinary o := by
    have hty : o.type = none := by
      have := hM.typed (by rw [hact.1]; rcases ha with h | h <;> simp [h])
      rw [hact.1] at this
      rcases ha with h | h <;> simpa [h, Act.alwaysTyped] using this
    refine ⟨?_, by simp [hty], ?_, .inl (hact.2.2.trans hv)⟩
    · rw [hact.1]; rcases ha with h | h <;> simp [h]
    · rw [hM.nargs (by rw [hact.1]; rcases ha with h | h <;> simp [h, Act.typed])]; simp
  obtain ⟨ty, _, _, _, k4⟩ := addOption_ok hM ho (taken := []) (by simp)
  refine ⟨_, k4, fun cv => ⟨?_, ?_⟩⟩
  · simp [optRun, optStart, hact.2.1, hd]
  · rcases ha with h | h <;> simp [argRun, hact.1, hact.2.1, hd, h, classDefault]

/-- two defaults for one destination: the last one counts with `optparse`, and the first one here -/
theorem C137_defaults_violated (n m d : Str) (v w : Val) (hn : optStrings [n] = some ([], [n])) (hm : optStrings [m] = some ([], [m])) (hne : n ≠ m)
    (hn0 : n ≠ []) (hm0 : m ≠ []) (hv : ∀ s, v ≠ .item (.one (.text s))) (hw : ∀ s, w ≠ .item (.one (.text s))) :
    ∃ o o' as, make [n] { dest := some d, default := some v } = some o ∧ make [m] { dest := some d, default := some w } = some o' ∧
      addOptions [] [o, o'] = .ok as ∧ ∀ cv, (argParse cv as []).bind (· d) = some v ∧ (optParse cv [o, o'] []).bind (· d) = some w := by
  refine ⟨⟨[], [n], .store, some .string, some d, some v, some 1, .none, none, none, none⟩,
    ⟨[], [m], .store, some .string, some d, some w, some 1, .none, none, none, none⟩,
    [⟨[n], some d, .store, none, .none, v, some .str, none, none, none⟩, ⟨[m], some d, .store, none, .none, w, some .str, none, none, none⟩], ?_, ?_, ?_, ?_⟩
  · simp [make, hn, hn0, makeType, makeDest, Act.alwaysTyped, Act.typed]
  · simp [make, hm, hm0, makeType, makeDest, Act.alwaysTyped, Act.typed]
  · simp [addOptions, addOption, shimKw, typeMap, addArgument, accepts, Act.alwaysTyped, hne.symm]
  · intro cv
    constructor
    · have h1 : argDefaults [⟨[n], some d, .store, none, .none, v, some .str, none, none, none⟩,
          ⟨[m], some d, .store, none, .none, w, some .str, none, none, none⟩] (fun _ => none) = Space.set (fun _ => none) d v := by
        simp [argDefaults, argAdd, Space.set]
      have h2 : ∀ (a : Arg) (as : List Arg) i f, (∀ s, a.default ≠ .item (.one (.text s))) → argConvert cv [] i (a :: as) f = argConvert cv [] (i + 1) as f := by
        intro a as i f h
        rw [argConvert]
        split
        · rename_i s _ hs; exact absurd hs (h _)
        · rfl
      simp only [argParse, List.foldl_nil, h1, Option.bind_some]
      rw [h2 _ _ _ _ hv, h2 _ _ _ _ hw]
      simp [argConvert, Space.set]
    · have h1 : optDefaults [⟨[], [n], .store, some .string, some d, some v, some 1, .none, none, none, none⟩,
          ⟨[], [m], .store, some .string, some d, some w, some 1, .none, none, none, none⟩] (fun _ => none) =
          (Space.set (fun _ => none) d v).set d w := by
        simp [optDefaults, optAdd]
      simp only [optParse, List.foldl_nil, h1]
      rw [optConvert_same]
      · simp [Space.set]
      · intro o ho d' s hd hf
        simp only [Space.set] at hf
        split at hf
        · cases hf; exact absurd rfl (hw s)
        · cases hf

/-- One argument, asked for by keywords with `nargs=1`: as with `optparse` the value is the argument itself, not a list of it; without
a use it is the default. -/
theorem C137_nargs {taken names : List Str} {kw : Kw} (hk : kw.action = none ∧ kw.type = none ∧ kw.choices = none ∧ kw.const = .none)
    (hn : kw.nargs = some 1) (hfree : ∀ s ∈ names, s ∉ taken) :
    ∃ a, addKeywords taken names kw = .ok a ∧ a.names = names ∧ (∀ cv, argRun cv a [] = some (kw.default.getD .none)) ∧
      ∀ cv s, argRun cv a [[s]] = some (.item (.one (.text s))) := by
  obtain ⟨h1, h2, h3, h4⟩ := hk
  have hany : names.any (fun s => decide (s ∈ taken)) = false := by
    rw [List.any_eq_false]
    intro s hs
    simpa using hfree s hs
  refine ⟨_, by simp [addKeywords, addArgument, accepts, Act.alwaysTyped, h1, h2, h4, hn, hany]; rfl, rfl, ?_, ?_⟩
  · intro cv
    simp only [argRun, List.foldl_nil, getValue]
    split
    · rename_i h
      show _ = some (kw.default.getD (classDefault .store))
      rw [h]
      rfl
    · rename_i uses _ h
      first | rfl | (cases uses <;> rfl) | simp_all
  · intro cv s
    simp [argRun, argUse, getValues, checkedValue, getValue, h3]

/-- such keywords -/
example : ∃ a, addKeywords [] [['-', '-', 'x']] { nargs := some 1, default := some (.bool true) } = .ok a ∧ a.names = [['-', '-', 'x']] :=
  let ⟨a, h1, h2, _⟩ := C137_nargs (taken := []) (names := [['-', '-', 'x']]) (kw := { nargs := some 1, default := some (.bool true) })
    ⟨rfl, rfl, rfl, rfl⟩ rfl (by simp)
  ⟨a, h1, h2⟩

/-- integers that begin with a zero: `010` is eight with `optparse` and ten here, and `0x10` is refused here;
the same for a text as the default -/
theorem C137_int_violated {cv : Conv} (h8 : cv.int 8 ['0', '1', '0'] = some 8) (h10 : cv.int 10 ['0', '1', '0'] = some 10)
    (hx : cv.int 16 ['0', 'x', '1', '0'] = some 16) (hx' : cv.int 10 ['0', 'x', '1', '0'] = none) :
    ∃ o a, make [['-', 'n']] { type := some .int } = some o ∧ addOption [] o = .ok a ∧
      optRun cv o [[['0', '1', '0']]] = some (.item (.one (.int 8))) ∧ argRun cv a [[['0', '1', '0']]] = some (.item (.one (.int 10))) ∧
      optRun cv o [[['0', 'x', '1', '0']]] = some (.item (.one (.int 16))) ∧ argRun cv a [[['0', 'x', '1', '0']]] = none ∧
      ∃ o' a', make [['-', 'n']] { type := some .int, default := some (.item (.one (.text ['0', '1', '0']))) } = some o' ∧
        addOption [] o' = .ok a' ∧ optRun cv o' [] = some (.item (.one (.int 8))) ∧ argRun cv a' [] = some (.item (.one (.int 10))) := by
  refine ⟨⟨[['-', 'n']], [], .store, some .int, some ['n'], none, some 1, .none, none, none, none⟩,
    ⟨[['-', 'n']], some ['n'], .store, none, .none, .none, some .int, none, none, none⟩, by decide +kernel, rfl, ?_, ?_, ?_, ?_,
    ⟨[['-', 'n']], [], .store, some .int, some ['n'], some (.item (.one (.text ['0', '1', '0']))), some 1, .none, none, none, none⟩,
    ⟨[['-', 'n']], some ['n'], .store, none, .none, .item (.one (.text ['0', '1', '0'])), some .int, none, none, none⟩,
    by decide +kernel, rfl, ?_, ?_⟩
  · simp [optRun, optStart, optUse, convertValue, checkValue, parseNum, h8]
  · simp [argRun, argUse, getValues, checkedValue, getValue, h10]
  · simp [optRun, optStart, optUse, convertValue, checkValue, parseNum, hx]
  · simp [argRun, argUse, getValues, checkedValue, getValue, hx']
  · simp [optRun, optStart, checkValue, parseNum, h8]
  · simp [argRun, getValue, h10]

/-- the type `long` is missing from the table: `KeyError` -/
theorem C137_long_violated {names : List Str} {attrs : Attrs} {o : OptOption} (hm : make names attrs = some o) (ht : attrs.type = some .long)
    (taken : List Str) : addOption taken o = .error .key := by
  have hty : o.type = some .long := by
    rw [(make_attrs hm).2.1]; simp [makeType, ht]
  simp [addOption, shimKw, hty, typeMap]

/-- options with a callback are refused: `ValueError` -/
theorem C137_callback_violated {names : List Str} {attrs : Attrs} {o : OptOption} (hm : make names attrs = some o)
    (hc : attrs.action = some .callback) (hl : attrs.type ≠ some .long) (taken : List Str) : addOption taken o = .error .value := by
  have hact : o.action = .callback ∧ o.type ≠ some .long := by
    rw [(make_attrs hm).1, (make_attrs hm).2.1]
    refine ⟨by simp [hc], ?_⟩
    cases h : attrs.type with
    | none => simp [makeType, h, hc, Act.alwaysTyped]
    | some t => simpa [makeType, h] using fun e => hl (by rw [h, e])
  unfold addOption shimKw
  cases h : o.type with
  | none => simp [addArgument, hact.1]
  | some t =>
    cases t <;> first | exact absurd h hact.2 | simp [typeMap, addArgument, hact.1]

/-- flags with a `metavar` are refused: `TypeError` -/
theorem C137_metavar_violated {names : List Str} {attrs : Attrs} {o : OptOption} (hm : make names attrs = some o)
    (ha : attrs.action = some .storeTrue ∨ attrs.action = some .storeFalse ∨ attrs.action = some .count) (hv : attrs.metavar ≠ none)
    (taken : List Str) : addOption taken o = .error .type := by
  have hM := make_made hm
  have hact : o.action = attrs.action.getD .store ∧ o.metavar = attrs.metavar := by
    exact ⟨(make_attrs hm).1, (make_attrs hm).2.2.2.1⟩
  have hty : o.type = none := by
    have := hM.typed (by rw [hact.1]; rcases ha with h | h | h <;> simp [h])
    rw [hact.1] at this
    rcases ha with h | h | h <;> simpa [h, Act.alwaysTyped] using this
  obtain ⟨m, hmv⟩ := Option.ne_none_iff_exists'.1 hv
  unfold addOption shimKw
  rw [hty]
  rcases ha with h | h | h <;> simp [addArgument, hact.1, hact.2, h, hmv, accepts]

/-- The keywords of `optparse` without an `Option`: the table is not used, and a type that is a text is refused: `ValueError`. -/
theorem C137_keyword_violated (taken names : List Str) (t : Str) :
    addKeywords taken names { type := some (.text t) } = .error .value := by
  simp [addKeywords, addArgument, accepts, Act.alwaysTyped]

/-- options that `optparse` leaves out of the help (`SUPPRESS_HELP` is the text `SUPPRESSHELP`) are in the help of fbuild, which leaves out
those with the text `==SUPPRESS==` -/
theorem C137_hidden_violated {names : List Str} {attrs : Attrs} {o : OptOption} (hm : make names attrs = some o) (ho : Ordinary o)
    (hh : attrs.help = some "SUPPRESSHELP".toList) : ∃ a, addOption [] o = .ok a ∧ a.help ≠ some "==SUPPRESS==".toList := by
  obtain ⟨a, h1, _, _, _, h2, _⟩ := C137_partial hm ho (taken := []) (by simp)
  refine ⟨a, h1, ?_⟩
  rw [h2, (make_attrs hm).2.2.2.2, hh]
  decide +kernel

/-! ### Examples -/

namespace Ex

/-- numbers of digits, as far as the examples need them -/
def digits (base : Int) : Str → Option Int
  | [] => none
  | s => s.foldl (fun v c => v.bind fun v => if c.isDigit ∧ ((c.toNat : Int) - 48) < base then some (v * base + ((c.toNat : Int) - 48)) else none) (some 0)

def cv : Conv :=
  ⟨fun base s =>
    match base, s with
    | 16, '0' :: 'x' :: r => digits 16 r
    | b, s => digits b s,
   some, some⟩

/-- two integers, again and again: `Option('-n', '--num', type='int', nargs=2, action='append')` -/
def num : OptOption :=
  ⟨[['-', 'n']], ["--num".toList], .append, some .int, some "num".toList, none, some 2, .none, none, none, none⟩

def uses : List (List Str) := [[['1'], ['2']], [['3'], "44".toList]]

example : make [['-', 'n'], "--num".toList] { type := some .int, nargs := some 2, action := some .append } = some num := by decide +kernel
example : Ordinary num := ⟨by simp [num], by simp [num], by simp [num], .inl rfl⟩
example : ∀ args ∈ uses, Fits num args := by
  intro args h
  simp only [uses, List.mem_cons, List.not_mem_nil, or_false] at h
  rcases h with rfl | rfl
  · exact ⟨rfl, fun _ => by decide⟩
  · exact ⟨rfl, fun _ => by decide +kernel⟩
example : Started num uses := ⟨fun s h => by simp [num] at h, .inl (by simp [uses])⟩
example : optRun cv num uses = some (.items [.tuple [.int 1, .int 2], .tuple [.int 3, .int 44]]) := by decide +kernel

/-- a choice, a flag and a count beside it -/
def list : List (List Str × OptOption) :=
  [([['-', 'n'], "--num".toList], num),
   (["--mode".toList], ⟨[], ["--mode".toList], .store, some .choice, some "mode".toList, some (.item (.one (.text ['a']))), some 1, .none,
      some [['a'], ['b']], none, none⟩),
   ([['-', 'v']], ⟨[['-', 'v']], [], .count, none, some ['v'], none, none, .none, none, none, none⟩)]

example : (∀ p ∈ list, (∃ attrs, make p.1 attrs = some p.2) ∧ Ordinary p.2 ∧ ∀ s ∈ p.1, s ∉ [['-', 'j']]) ∧
    list.Pairwise (fun p q => ∀ s ∈ p.1, s ∉ q.1) := by
  refine ⟨?_, by decide +kernel⟩
  intro p hp
  simp only [list, List.mem_cons, List.not_mem_nil, or_false] at hp
  rcases hp with rfl | rfl | rfl
  · exact ⟨⟨{ type := some .int, nargs := some 2, action := some .append }, by decide +kernel⟩, ⟨by decide, by decide, by decide, .inl rfl⟩, by decide +kernel⟩
  · exact ⟨⟨{ choices := some [['a'], ['b']], default := some (.item (.one (.text ['a']))) }, by decide +kernel⟩,
      ⟨by decide, by decide, by decide, .inl rfl⟩, by decide +kernel⟩
  · exact ⟨⟨{ action := some .count }, by decide +kernel⟩, ⟨by decide, by decide, by decide, .inl rfl⟩, by decide +kernel⟩

/-- the flags `-v` and `-q` for one destination, as in the documentation of `optparse` -/
def flags : List (List Str × OptOption) :=
  [([['-', 'v']], ⟨[['-', 'v']], [], .storeTrue, none, some ['x'], some (.bool true), none, .none, none, none, none⟩),
   ([['-', 'q']], ⟨[['-', 'q']], [], .storeFalse, none, some ['x'], none, none, .none, none, none, none⟩)]

example : (∀ p ∈ flags, (∃ attrs, make p.1 attrs = some p.2) ∧ Ordinary p.2 ∧ ∀ s ∈ p.1, s ∉ [['-', 'j']]) ∧
    flags.Pairwise (fun p q => ∀ s ∈ p.1, s ∉ q.1) := by
  refine ⟨?_, by decide +kernel⟩
  intro p hp
  simp only [flags, List.mem_cons, List.not_mem_nil, or_false] at hp
  rcases hp with rfl | rfl
  · exact ⟨⟨{ action := some .storeTrue, dest := some ['x'], default := some (.bool true) }, by decide +kernel⟩,
      ⟨by decide, by decide, by decide, .inl rfl⟩, by decide +kernel⟩
  · exact ⟨⟨{ action := some .storeFalse, dest := some ['x'] }, by decide +kernel⟩, ⟨by decide, by decide, by decide, .inl rfl⟩, by decide +kernel⟩
example : Shared (flags.map (·.2)) := by
  refine ⟨by simp [flags], ?_, ?_⟩
  · intro i o h _ hd
    match i, h with
    | 0, h => cases h; cases hd
    | 1, h => cases h; exact ⟨0, _, by decide, rfl, rfl⟩
  · intro o ho o' _ s _ hd
    simp only [flags, List.map_cons, List.map_nil, List.mem_cons, List.not_mem_nil, or_false] at ho
    rcases ho with rfl | rfl <;> cases hd
example : ((optParse cv (flags.map (·.2)) [(0, []), (1, [])]).bind (· ['x'])) = some (.bool false) := by decide +kernel
example : optStrings ["--aa".toList] = some ([], ["--aa".toList]) := by decide +kernel

example : (make [['-', 'v']] { action := some .storeTrue }).isSome = true ∧ (make [['-', 'v']] { type := some .long }).isSome = true ∧
    (make [['-', 'v']] { action := some .callback, callback := true }).isSome = true ∧
    (make [['-', 'v']] { action := some .storeTrue, metavar := some ['X'] }).isSome = true ∧
    (make [['-', 'v']] { help := some "SUPPRESSHELP".toList }).isSome = true := by decide +kernel
example : cv.int 8 ['0', '1', '0'] = some 8 ∧ cv.int 10 ['0', '1', '0'] = some 10 ∧ cv.int 16 ['0', 'x', '1', '0'] = some 16 ∧
    cv.int 10 ['0', 'x', '1', '0'] = none := by decide +kernel

end Ex

end Verif.Options.Shim
