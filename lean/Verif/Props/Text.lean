import Verif.Text.Core
/-!
# Text builders: properties

C60.
-/
namespace Verif.Text

/-! ### Specification -/

/-- what is assumed about `\w` -/
structure WordChars (w : Char → Bool) : Prop where
  at_ : w '@' = false
  nl : w '\n' = false
  blank : w ' ' = false

/-- the text of a piece in the template -/
def Piece.source : Piece → Text
  | .char c => [c]
  | .sub name => '@' :: name ++ ['@']
  | .undef k name => "#undef".toList ++ List.replicate (k + 1) ' ' ++ name

/-- an identifier -/
def Ident (w : Char → Bool) (name : Text) : Prop := name ≠ [] ∧ ∀ c ∈ name, w c = true

/-- an occurrence of `@name@` or (in a header, as a whole line) of `#undef name` at the start of the text -/
def Occurs (w : Char → Bool) (header bol : Bool) (t : Text) (p : Piece) (rest : Text) : Prop :=
  t = p.source ++ rest ∧
  match p with
  | .char _ => False
  | .sub name => Ident w name
  | .undef _ name => header = true ∧ bol = true ∧ Ident w name ∧ (rest = [] ∨ ∃ r, rest = '\n' :: r)

/-- The template is cut into pieces from left to right: an occurrence where there is one, a character where there is none. -/
inductive Cut (w : Char → Bool) (header : Bool) : Bool → Text → List Piece → Prop
  | nil (bol : Bool) : Cut w header bol [] []
  | occ {bol : Bool} {t : Text} {p : Piece} {rest : Text} {ps : List Piece} (h : Occurs w header bol t p rest)
      (hr : Cut w header false rest ps) : Cut w header bol t (p :: ps)
  | char {bol : Bool} {c : Char} {r : Text} {ps : List Piece} (h : ∀ p rest, ¬ Occurs w header bol (c :: r) p rest)
      (hr : Cut w header (c == '\n') r ps) : Cut w header bol (c :: r) (.char c :: ps)

/-- the names that need a definition -/
def Piece.name : Piece → Option Text
  | .char _ => none
  | .sub name => some name
  | .undef _ name => some name

/-- how a value is shown: as Python shows it, the items of a list with blanks between them -/
def shown : Val → Text
  | .str s => s
  | .bool true => "True".toList
  | .bool false => "False".toList
  | .iter l => [' '].intercalate l
  | .other s _ => s

/-- what a macro is defined as: true is `1`; nothing, if the value is false or has no text -/
def defined : Val → Option Text
  | .bool true => some "1".toList
  | .bool false => none
  | .other s truthy => if truthy then some s else none
  | v => if shown v = [] then none else some (shown v)

/-- what a piece becomes -/
def Piece.expand (defs : Defs) : Piece → Text
  | .char c => [c]
  | .sub name => ((defs name).map shown).getD []
  | .undef _ name =>
    match (defs name).bind defined with
    | some s => "#define ".toList ++ name ++ ' ' :: s
    | none => "/* #undef ".toList ++ name ++ " */".toList

theorem joinSpace_eq (l : List Text) : joinSpace l = [' '].intercalate l := by
  induction l with
  | nil => rfl
  | cons a l ih =>
    cases l with
    | nil => simp [joinSpace, List.intercalate]
    | cons b l =>
      simp only [joinSpace, ih]
      simp [List.intercalate]

theorem shown_eq : shown = Val.text := by
  funext v
  cases v with
  | bool b => cases b <;> rfl
  | iter l => exact (joinSpace_eq l).symm
  | _ => rfl

theorem defined_eq : defined = Val.define := by
  funext v
  cases v with
  | str s =>
    simp only [defined, Val.define, shown, List.isEmpty_iff]
    split <;> (rename_i h; first | exact if_pos h | exact if_neg h)
  | bool b => cases b <;> rfl
  | iter l =>
    simp only [defined, Val.define, shown, joinSpace_eq, List.isEmpty_iff]
    split <;> (rename_i h; first | exact if_pos h | exact if_neg h)
  | other s t => rfl

/-! ### The matcher finds the occurrences -/

section
variable {w : Char → Bool}

theorem takeWhile_append_stop {p : Char → Bool} {a b : Text} (ha : ∀ c ∈ a, p c = true)
    (hb : ∀ c r, b = c :: r → p c = false) : (a ++ b).takeWhile p = a ∧ (a ++ b).dropWhile p = b := by
  induction a with
  | nil =>
    cases b with
    | nil => exact ⟨rfl, rfl⟩
    | cons c r => simp [hb c r rfl]
  | cons c a ih =>
    have := ih (fun c hc => ha c (List.mem_cons_of_mem _ hc))
    simp [ha c (List.mem_cons_self ..), this]

theorem takeWhile_all (p : Char → Bool) (l : Text) : ∀ c ∈ l.takeWhile p, p c = true := by
  induction l with
  | nil => simp
  | cons c l ih =>
    simp only [List.takeWhile_cons]
    split
    · rename_i h
      intro d hd
      rcases List.mem_cons.1 hd with rfl | hd
      · exact h
      · exact ih d hd
    · simp

theorem takeWhile_dropWhile (p : Char → Bool) (l : Text) : l.takeWhile p ++ l.dropWhile p = l := List.takeWhile_append_dropWhile

theorem matchSub_some (hw : WordChars w) (t name rest : Text) :
    matchSub w t = some (name, rest) ↔ t = (Piece.sub name).source ++ rest ∧ Ident w name := by
  constructor
  · intro h
    unfold matchSub at h
    split at h
    · rename_i r
      split at h
      · rename_i rest' hd
        split at h
        · cases h
        · rename_i hne
          simp only [Option.some.injEq, Prod.mk.injEq] at h
          obtain ⟨rfl, rfl⟩ := h
          refine ⟨?_, ?_, takeWhile_all w r⟩
          · have := takeWhile_dropWhile w r
            rw [hd] at this
            simp only [Piece.source, List.cons_append, List.append_assoc, List.nil_append]
            rw [this]
          · intro hn; rw [hn] at hne; exact hne rfl
      · cases h
    · cases h
  · rintro ⟨rfl, hne, hall⟩
    have := takeWhile_append_stop (p := w) (a := name) (b := '@' :: rest) hall
      (by intro c r hc; cases hc; exact hw.at_)
    simp only [Piece.source, List.cons_append, List.append_assoc, List.nil_append, matchSub, this.1, this.2]
    cases name with
    | nil => exact absurd rfl hne
    | cons c n => rfl

theorem replicate_blank (r : Text) : r.takeWhile (· == ' ') = List.replicate (r.takeWhile (· == ' ')).length ' ' := by
  rw [List.eq_replicate_iff]
  exact ⟨rfl, fun c hc => by simpa using takeWhile_all (· == ' ') r c hc⟩

theorem matchUndef_some (hw : WordChars w) (t : Text) (k : Nat) (name rest : Text) :
    matchUndef w t = some (k, name, rest) ↔
      t = (Piece.undef k name).source ++ rest ∧ Ident w name ∧ (rest = [] ∨ ∃ r, rest = '\n' :: r) := by
  constructor
  · intro h
    unfold matchUndef at h
    split at h
    · rename_i r
      simp only at h
      split at h
      · cases h
      · rename_i hne
        have hid : Ident w ((r.dropWhile (· == ' ')).takeWhile w) :=
          ⟨by intro hn; rw [hn] at hne; exact hne rfl, takeWhile_all w _⟩
        have key : ∀ rest', (r.dropWhile (· == ' ')).dropWhile w = rest' →
            '#' :: 'u' :: 'n' :: 'd' :: 'e' :: 'f' :: ' ' :: r =
              (Piece.undef (r.takeWhile (· == ' ')).length ((r.dropWhile (· == ' ')).takeWhile w)).source ++ rest' := by
          intro rest' hr
          simp only [Piece.source]
          rw [List.replicate_succ, ← replicate_blank, ← hr]
          simp only [List.append_assoc, List.cons_append, takeWhile_dropWhile]
          rfl
        split at h
        · rename_i hd
          simp only [Option.some.injEq, Prod.mk.injEq] at h
          obtain ⟨rfl, rfl, rfl⟩ := h
          exact ⟨key [] hd, hid, .inl rfl⟩
        · rename_i rest' hd
          simp only [Option.some.injEq, Prod.mk.injEq] at h
          obtain ⟨rfl, rfl, rfl⟩ := h
          exact ⟨key _ hd, hid, .inr ⟨_, rfl⟩⟩
        · cases h
    · cases h
  · rintro ⟨rfl, ⟨hne, hall⟩, hrest⟩
    have h1 : ∀ c r, name ++ rest = c :: r → (c == ' ') = false := by
      intro c r hc
      cases name with
      | nil => exact absurd rfl hne
      | cons d n =>
        simp only [List.cons_append, List.cons.injEq] at hc
        obtain ⟨rfl, _⟩ := hc
        have h2 := hall d (List.mem_cons_self ..)
        cases hd : d == ' ' with
        | false => rfl
        | true =>
          have : d = ' ' := by simpa using hd
          rw [this, hw.blank] at h2
          cases h2
    have h2 := takeWhile_append_stop (p := (· == ' ')) (a := List.replicate k ' ') (b := name ++ rest)
      (by intro c hc; simp [List.eq_of_mem_replicate hc]) h1
    have h3 := takeWhile_append_stop (p := w) (a := name) (b := rest) hall
      (by
        rintro c r rfl
        rcases hrest with h | ⟨r', h⟩
        · cases h
        · cases h; exact hw.nl)
    have h4 : (Piece.undef k name).source ++ rest =
        '#' :: 'u' :: 'n' :: 'd' :: 'e' :: 'f' :: ' ' :: (List.replicate k ' ' ++ (name ++ rest)) := by
      simp only [Piece.source, List.replicate_succ, List.append_assoc, List.cons_append]
      rfl
    rw [h4]
    simp only [matchUndef, h2.1, h2.2, h3.1, h3.2, List.length_replicate]
    cases name with
    | nil => exact absurd rfl hne
    | cons d n =>
      simp only [List.isEmpty_cons, Bool.false_eq_true, if_false]
      rcases hrest with rfl | ⟨r, rfl⟩ <;> rfl

theorem matchAt_some (hw : WordChars w) (header bol : Bool) (t : Text) (p : Piece) (rest : Text) :
    matchAt w header bol t = some (p, rest) ↔ Occurs w header bol t p rest := by
  have hsub := matchSub_some hw t
  have hund := matchUndef_some hw t
  unfold matchAt Occurs
  have hdisj : ∀ k n r, matchUndef w t = some (k, n, r) → matchSub w t = none := by
    intro k n r h
    rw [hund] at h
    rw [h.1]
    rfl
  cases hhb : header && bol with
  | false =>
    simp only [Bool.false_eq_true, if_false]
    cases hm : matchSub w t with
    | none =>
      constructor
      · intro h; cases h
      · rintro ⟨h1, h2⟩
        cases p with
        | char c => exact h2.elim
        | sub name => rw [(hsub name rest).2 ⟨h1, h2⟩] at hm; cases hm
        | undef k name => rw [h2.1, h2.2.1] at hhb; cases hhb
    | some q =>
      obtain ⟨n, r⟩ := q
      have hq := (hsub n r).1 hm
      constructor
      · intro h
        simp only [Option.some.injEq, Prod.mk.injEq] at h
        obtain ⟨rfl, rfl⟩ := h
        exact hq
      · rintro ⟨h1, h2⟩
        cases p with
        | char c => exact h2.elim
        | sub name =>
          have := (hsub name rest).2 ⟨h1, h2⟩
          rw [hm] at this
          simp only [Option.some.injEq, Prod.mk.injEq] at this
          rw [this.1, this.2]
        | undef k name => rw [h2.1, h2.2.1] at hhb; cases hhb
  | true =>
    have hh : header = true ∧ bol = true := by simpa using hhb
    simp only [if_true]
    cases hu : matchUndef w t with
    | some q =>
      obtain ⟨k, n, r⟩ := q
      have hq := (hund k n r).1 hu
      constructor
      · intro h
        simp only [Option.some.injEq, Prod.mk.injEq] at h
        obtain ⟨rfl, rfl⟩ := h
        exact ⟨hq.1, hh.1, hh.2, hq.2⟩
      · rintro ⟨h1, h2⟩
        cases p with
        | char c => exact h2.elim
        | sub name =>
          have := (hsub name rest).2 ⟨h1, h2⟩
          rw [hdisj k n r hu] at this
          cases this
        | undef k' name =>
          have := (hund k' name rest).2 ⟨h1, h2.2.2⟩
          rw [hu] at this
          simp only [Option.some.injEq, Prod.mk.injEq] at this
          obtain ⟨rfl, rfl, rfl⟩ := this
          rfl
    | none =>
      cases hm : matchSub w t with
      | none =>
        constructor
        · intro h; cases h
        · rintro ⟨h1, h2⟩
          cases p with
          | char c => exact h2.elim
          | sub name => rw [(hsub name rest).2 ⟨h1, h2⟩] at hm; cases hm
          | undef k name => rw [(hund k name rest).2 ⟨h1, h2.2.2⟩] at hu; cases hu
      | some q =>
        obtain ⟨n, r⟩ := q
        have hq := (hsub n r).1 hm
        constructor
        · intro h
          simp only [Option.some.injEq, Prod.mk.injEq] at h
          obtain ⟨rfl, rfl⟩ := h
          exact hq
        · rintro ⟨h1, h2⟩
          cases p with
          | char c => exact h2.elim
          | sub name =>
            have := (hsub name rest).2 ⟨h1, h2⟩
            rw [hm] at this
            simp only [Option.some.injEq, Prod.mk.injEq] at this
            rw [this.1, this.2]
          | undef k name => rw [(hund k name rest).2 ⟨h1, h2.2.2⟩] at hu; cases hu

theorem Occurs.shorter {header bol : Bool} {t : Text} {p : Piece} {rest : Text} (h : Occurs w header bol t p rest) :
    rest.length < t.length := by
  obtain ⟨rfl, h⟩ := h
  cases p with
  | char c => exact h.elim
  | sub name => simp [Piece.source]; omega
  | undef k name => simp [Piece.source]; omega

theorem scan_cut (hw : WordChars w) (header : Bool) (n : Nat) (bol : Bool) (t : Text) (h : t.length ≤ n) :
    Cut w header bol t (scan w header n bol t) := by
  induction n generalizing bol t with
  | zero =>
    cases t with
    | nil => exact .nil _
    | cons c r => simp at h
  | succ n ih =>
    cases t with
    | nil => exact .nil _
    | cons c r =>
      simp only [scan]
      cases hm : matchAt w header bol (c :: r) with
      | none =>
        refine .char ?_ (ih _ _ (by simpa using h))
        intro p rest ho
        rw [(matchAt_some hw header bol _ p rest).2 ho] at hm
        cases hm
      | some q =>
        obtain ⟨p, rest⟩ := q
        have ho := (matchAt_some hw header bol _ p rest).1 hm
        have := ho.shorter
        exact .occ ho (ih _ _ (by omega))

theorem cut_unique (hw : WordChars w) {header bol : Bool} {t : Text} {ps qs : List Piece} (h : Cut w header bol t ps)
    (h' : Cut w header bol t qs) : ps = qs := by
  induction h generalizing qs with
  | nil bol =>
    cases h' with
    | nil => rfl
    | occ ho hr => exact absurd ho.shorter (by simp)
  | occ ho hr ih =>
    cases h' with
    | nil => exact absurd ho.shorter (by simp)
    | occ ho' hr' =>
      have h1 := (matchAt_some hw _ _ _ _ _).2 ho
      rw [(matchAt_some hw _ _ _ _ _).2 ho'] at h1
      simp only [Option.some.injEq, Prod.mk.injEq] at h1
      obtain ⟨rfl, rfl⟩ := h1
      rw [ih hr']
    | char hn _ => exact absurd ho (hn _ _)
  | char hn hr ih =>
    cases h' with
    | occ ho' _ => exact absurd ho' (hn _ _)
    | char _ hr' => rw [ih hr']

theorem cut_noUndef {bol : Bool} {t : Text} {ps : List Piece} (h : Cut w false bol t ps) (k : Nat) (m : Text) :
    Piece.undef k m ∉ ps := by
  induction h with
  | nil => simp
  | occ ho hr ih =>
    intro hp
    rcases List.mem_cons.1 hp with h | h
    · subst h; exact absurd ho.2.1 (by simp)
    · exact ih h
  | char _ hr ih =>
    intro hp
    rcases List.mem_cons.1 hp with h | h
    · cases h
    · exact ih h

theorem cut_source {header bol : Bool} {t : Text} {ps : List Piece} (h : Cut w header bol t ps) :
    ps.flatMap Piece.source = t := by
  induction h with
  | nil => rfl
  | occ ho hr ih => rw [List.flatMap_cons, ih]; exact ho.1.symm
  | char hn hr ih => rw [List.flatMap_cons, ih]; rfl

end

/-! ### The text put together -/

theorem replaceAll_ok (defs : Defs) (ps : List Piece) (h : ∀ name, Piece.sub name ∈ ps → (defs name).isSome) :
    ∃ miss, replaceAll defs ps = .ok (ps.flatMap (Piece.expand defs), miss) ∧
      (∀ name, name ∈ miss ↔ (∃ k, Piece.undef k name ∈ ps) ∧ defs name = none) := by
  induction ps with
  | nil => exact ⟨[], rfl, by simp⟩
  | cons p ps ih =>
    obtain ⟨miss, h1, h2⟩ := ih (fun name hn => h name (List.mem_cons_of_mem _ hn))
    cases p with
    | char c =>
      refine ⟨miss, by simp only [replaceAll, h1]; rfl, ?_⟩
      intro name; rw [h2]; simp
    | sub name =>
      obtain ⟨v, hv⟩ := Option.isSome_iff_exists.1 (h name (List.mem_cons_self ..))
      refine ⟨miss, by simp [replaceAll, replaceSub, h1, hv, Piece.expand, shown_eq, defined_eq], ?_⟩
      intro name; rw [h2]; simp
    | undef k name =>
      cases hv : defs name with
      | none =>
        refine ⟨name :: miss, by simp [replaceAll, replaceUndef, h1, hv, Piece.expand, shown_eq, defined_eq], ?_⟩
        intro n
        simp only [List.mem_cons, h2, Piece.undef.injEq]
        constructor
        · rintro (rfl | ⟨⟨k', hk⟩, h3⟩)
          · exact ⟨⟨k, .inl ⟨rfl, rfl⟩⟩, hv⟩
          · exact ⟨⟨k', .inr hk⟩, h3⟩
        · rintro ⟨⟨k', ⟨_, rfl⟩ | hk⟩, h3⟩
          · exact .inl rfl
          · exact .inr ⟨⟨k', hk⟩, h3⟩
      | some v =>
        refine ⟨miss, ?_, ?_⟩
        · simp only [replaceAll, replaceUndef, h1, hv, Piece.expand, shown_eq, defined_eq, List.flatMap_cons, Option.bind_some]
          cases v.define <;> rfl
        · intro n
          simp only [h2, List.mem_cons, Piece.undef.injEq]
          constructor
          · rintro ⟨⟨k', hk⟩, h3⟩
            exact ⟨⟨k', .inr hk⟩, h3⟩
          · rintro ⟨⟨k', ⟨_, rfl⟩ | hk⟩, h3⟩
            · rw [hv] at h3; cases h3
            · exact ⟨⟨k', hk⟩, h3⟩

theorem replaceAll_error (defs : Defs) (ps : List Piece) {name : Text} (h : Piece.sub name ∈ ps) (hn : defs name = none) :
    ∃ n, replaceAll defs ps = .error (.key n) ∧ defs n = none := by
  induction ps with
  | nil => cases h
  | cons p ps ih =>
    cases p with
    | char c =>
      obtain ⟨n, h1, h2⟩ := ih (by simpa using h)
      exact ⟨n, by simp only [replaceAll, h1], h2⟩
    | sub m =>
      cases hm : defs m with
      | none => exact ⟨m, by simp only [replaceAll, replaceSub, hm], hm⟩
      | some v =>
        have hne : name ≠ m := by rintro rfl; rw [hm] at hn; cases hn
        obtain ⟨n, h1, h2⟩ := ih (by
          rcases List.mem_cons.1 h with h | h
          · cases h; exact absurd rfl hne
          · exact h)
        exact ⟨n, by simp only [replaceAll, replaceSub, hm, h1], h2⟩
    | undef k m =>
      obtain ⟨n, h1, h2⟩ := ih (by simpa using h)
      exact ⟨n, by simp only [replaceAll, h1], h2⟩

theorem readText_id (t : Text) (h : '\r' ∉ t) : readText t = t := by
  induction t with
  | nil => rfl
  | cons c t ih =>
    simp only [List.mem_cons, not_or] at h
    rw [readText.eq_4 c t (fun r h1 => by intro; exact h.1 h1.symm) (fun h1 => h.1 h1.symm), ih h.2]

/-! ### C60 -/

/-- **C60** for `autoconf_config_file`: the template is cut into pieces in exactly one way; if every name is defined, the file
written consists of the values of the names and of the other characters; otherwise there is an exception and no file is
written.  Partial: for texts without carriage returns, see `C60_newlines_violated`. -/
theorem C60_file_partial {w : Char → Bool} (hw : WordChars w) (defs : Defs) (dst : String) (code : Text) (fs : Files)
    (hcr : '\r' ∉ code) :
    ∃ ps, Cut w false true code ps ∧ (∀ qs, Cut w false true code qs → qs = ps) ∧ ps.flatMap Piece.source = code ∧
      ((∀ p ∈ ps, ∀ name, p.name = some name → (defs name).isSome) →
        configFile w defs dst code fs = (.ok dst, fs.set dst (ps.flatMap (Piece.expand defs)))) ∧
      ((∃ p ∈ ps, ∃ name, p.name = some name ∧ defs name = none) →
        ∃ n, configFile w defs dst code fs = (.error (.key n), fs) ∧ defs n = none) := by
  have hc := scan_cut hw false code.length true code (Nat.le_refl _)
  refine ⟨_, hc, fun qs hq => cut_unique hw hq hc, cut_source hc, ?_, ?_⟩
  · intro h
    obtain ⟨miss, h1, _⟩ := replaceAll_ok defs (scan w false code.length true code)
      (fun name hn => h _ hn name rfl)
    simp only [configFile, readText_id code hcr, pieces, h1]
  · rintro ⟨p, hp, name, hn, hd⟩
    have : p = .sub name := by
      cases p with
      | char c => cases hn
      | sub m => cases hn; rfl
      | undef k m =>
        -- no `#undef` in this builder
        exact absurd hp (cut_noUndef hc k m)
    subst this
    obtain ⟨n, h1, h2⟩ := replaceAll_error defs _ hp hd
    exact ⟨n, by simp only [configFile, readText_id code hcr, pieces, h1], h2⟩

/-- **C60** for `autoconf_config_header`: the same, where lines `#undef name` are replaced, too; all undefined names are
reported if only such lines lack a definition. -/
theorem C60_header_partial {w : Char → Bool} (hw : WordChars w) (defs : Defs) (dst : String) (code : Text) (fs : Files)
    (hcr : '\r' ∉ code) :
    ∃ ps, Cut w true true code ps ∧ (∀ qs, Cut w true true code qs → qs = ps) ∧ ps.flatMap Piece.source = code ∧
      ((∀ p ∈ ps, ∀ name, p.name = some name → (defs name).isSome) →
        configHeader w defs dst code fs = (.ok dst, fs.set dst (ps.flatMap (Piece.expand defs)))) ∧
      ((∃ p ∈ ps, ∃ name, p.name = some name ∧ defs name = none) →
        ∃ e, configHeader w defs dst code fs = (.error e, fs) ∧
          ((∀ name, Piece.sub name ∈ ps → (defs name).isSome) →
            ∃ miss, e = .missing miss ∧ ∀ name, name ∈ miss ↔ (∃ k, Piece.undef k name ∈ ps) ∧ defs name = none)) := by
  have hc := scan_cut hw true code.length true code (Nat.le_refl _)
  refine ⟨_, hc, fun qs hq => cut_unique hw hq hc, cut_source hc, ?_, ?_⟩
  · intro h
    obtain ⟨miss, h1, h2⟩ := replaceAll_ok defs (scan w true code.length true code) (fun name hn => h _ hn name rfl)
    have : miss = [] := by
      cases miss with
      | nil => rfl
      | cons n miss =>
        obtain ⟨⟨k, hk⟩, h3⟩ := (h2 n).1 (List.mem_cons_self ..)
        have := h _ hk n rfl
        rw [h3] at this
        cases this
    subst this
    simp only [configHeader, readText_id code hcr, pieces, h1]
  · rintro ⟨p, hp, name, hn, hd⟩
    by_cases hall : ∀ name, Piece.sub name ∈ scan w true code.length true code → (defs name).isSome
    · obtain ⟨miss, h1, h2⟩ := replaceAll_ok defs (scan w true code.length true code) hall
      have hmem : name ∈ miss := by
        refine (h2 name).2 ⟨?_, hd⟩
        cases p with
        | char c => cases hn
        | sub m => cases hn; have := hall _ hp; rw [hd] at this; cases this
        | undef k m => cases hn; exact ⟨k, hp⟩
      refine ⟨.missing miss, ?_, fun _ => ⟨miss, rfl, h2⟩⟩
      cases miss with
      | nil => cases hmem
      | cons n miss => simp only [configHeader, readText_id code hcr, pieces, h1]
    · simp only [Classical.not_forall] at hall
      obtain ⟨m, hm, hmn⟩ := hall
      have hm' : defs m = none := by
        cases hv : defs m with
        | none => rfl
        | some v => rw [hv] at hmn; exact absurd rfl hmn
      obtain ⟨n, h1, _⟩ := replaceAll_error defs _ hm hm'
      refine ⟨.key n, by simp only [configHeader, readText_id code hcr, pieces, h1], ?_⟩
      intro h
      exact absurd (h m hm) hmn

/-! examples -/

deriving instance DecidableEq for Except

/-- `\w` for ASCII -/
def ascii (c : Char) : Bool := c.isAlphanum || c == '_'

theorem ascii_wordChars : WordChars ascii := ⟨by decide, by decide, by decide⟩

def exDefs : Defs := fun name =>
  if name = "PREFIX".toList then some (.str "/usr".toList)
  else if name = "LIBS".toList then some (.iter ["-lm".toList, "-lc".toList])
  else if name = "HAVE_X".toList then some (.bool true)
  else if name = "HAVE_Y".toList then some (.bool false)
  else if name = "SIZE".toList then some (.other "0".toList false)
  else none

def exHeader : Text := "#undef HAVE_X\n#undef  HAVE_Y\n /* #undef Z me@b.c */\nP @PREFIX@@LIBS@LIBS@\n".toList

set_option maxRecDepth 20000 in
example : '\r' ∉ exHeader ∧ configHeader ascii exDefs "config.h" exHeader (fun _ => none) = (.ok "config.h",
    (Files.set (fun _ => none) "config.h"
      "#define HAVE_X 1\n/* #undef HAVE_Y */\n /* #undef Z me@b.c */\nP /usr-lm -lcLIBS@\n".toList)) := by
  refine ⟨by decide +kernel, ?_⟩
  have : replaceAll exDefs (pieces ascii true (readText exHeader)) = .ok
      ("#define HAVE_X 1\n/* #undef HAVE_Y */\n /* #undef Z me@b.c */\nP /usr-lm -lcLIBS@\n".toList, []) := by decide +kernel
  simp only [configHeader, this]

set_option maxRecDepth 20000 in
/-- two undefined names -/
example : (configHeader ascii exDefs "config.h" "#undef A\n#undef HAVE_X\n#undef B".toList (fun _ => none)).1 =
    .error (.missing ["A".toList, "B".toList]) := by decide +kernel

/-- **C60 violated**: the files are read with universal newlines, so other text is changed: carriage returns are lost. -/
theorem C60_newlines_violated : (configFile ascii exDefs "out" "a\r\nb".toList (fun _ => none)).2 "out" = some "a\nb".toList ∧
    (substitute [] "out" "a\r\nb".toList (fun _ => none)) "out" = some "a\nb".toList := by decide +kernel

/-- **C60 violated**: a definition with the value 0 does not define the name. -/
theorem C60_zero_violated : (configHeader ascii exDefs "out" "#undef SIZE".toList (fun _ => none)).2 "out" =
    some "/* #undef SIZE */".toList := by decide +kernel

/-- **C60 violated**: an empty pattern, which occurs nowhere as a piece of text, is replaced before every character and at the end. -/
theorem C60_empty_violated : substitute [([], "x".toList)] "out" "ab".toList (fun _ => none) "out" = some "xaxbx".toList := by
  decide +kernel

/-! #### `substitute` -/

/-- `pat` occurs in `t` -/
def Inside (pat t : Text) : Prop := ∃ a b, t = a ++ pat ++ b

theorem replaceFrom_none {pat text : Text} (n : Nat) (t : Text) (h : ¬ Inside pat t) : replaceFrom pat text n t = t := by
  induction n generalizing t with
  | zero => rfl
  | succ n ih =>
    cases t with
    | nil => rfl
    | cons c r =>
      simp only [replaceFrom]
      rw [if_neg, ih r]
      · rintro ⟨a, b, rfl⟩
        exact h ⟨c :: a, b, by simp⟩
      · intro hp
        rw [List.isPrefixOf_iff_prefix] at hp
        obtain ⟨b, hb⟩ := hp
        exact h ⟨[], b, by simpa using hb.symm⟩

/-- **C60** for `substitute`: a text in which no pattern occurs is unchanged. -/
theorem C60_substitute_partial (patterns : List (Text × Text)) (dst : String) (code : Text) (fs : Files) (hcr : '\r' ∉ code)
    (h : ∀ p ∈ patterns, ¬ Inside p.1 code) : substitute patterns dst code fs = fs.set dst code := by
  simp only [substitute, readText_id code hcr]
  congr 1
  induction patterns with
  | nil => rfl
  | cons p ps ih =>
    have h1 := h p (List.mem_cons_self ..)
    rw [List.foldl_cons]
    have : replaceStr p.1 p.2 code = code := by
      simp only [replaceStr]
      split
      · rename_i he
        exfalso
        refine h1 ⟨[], code, ?_⟩
        rw [List.isEmpty_iff.1 he]
        rfl
      · exact replaceFrom_none _ _ h1
    rw [this]
    exact ih (fun q hq => h q (List.mem_cons_of_mem _ hq))

/-- the text is cut at the occurrences of the pattern, from left to right -/
inductive Split (pat : Text) : Text → List Text → Prop
  | last {t : Text} (h : ¬ Inside pat t) : Split pat t [t]
  | more {a t : Text} {l : List Text} (h : ∀ u v, a ++ pat = u ++ pat ++ v → v = []) (hr : Split pat t l) :
      Split pat (a ++ pat ++ t) (a :: l)

/-- the parts with `text` between them -/
def glue (text : Text) : List Text → Text
  | [] => []
  | [a] => a
  | a :: l => a ++ text ++ glue text l

theorem Split.cons {pat t : Text} {l : List Text} (h : Split pat t l) : ∃ a l', l = a :: l' := by
  cases h with
  | last h => exact ⟨_, _, rfl⟩
  | more h hr => exact ⟨_, _, rfl⟩

theorem replaceFrom_more {pat text : Text} (hp : pat ≠ []) {t u : Text} (ih : ∀ n, t.length ≤ n → replaceFrom pat text n t = u)
    (a : Text) (h : ∀ u v, a ++ pat = u ++ pat ++ v → v = []) (n : Nat) (hn : (a ++ pat ++ t).length ≤ n) :
    replaceFrom pat text n (a ++ pat ++ t) = a ++ text ++ u := by
  have hlen : 0 < pat.length := by cases pat with
    | nil => exact absurd rfl hp
    | cons c p => simp
  induction a generalizing n with
  | nil =>
    cases n with
    | zero => simp only [List.nil_append, List.length_append] at hn; omega
    | succ n =>
      obtain ⟨c, p, rfl⟩ : ∃ c p, pat = c :: p := by
        cases pat with
        | nil => exact absurd rfl hp
        | cons c p => exact ⟨c, p, rfl⟩
      simp only [List.nil_append, List.cons_append, replaceFrom]
      rw [if_pos (by rw [List.isPrefixOf_iff_prefix]; exact ⟨t, rfl⟩)]
      have : List.drop (c :: p).length (c :: (p ++ t)) = t := by simp
      rw [this, ih n (by simp at hn ⊢; omega)]
  | cons c a iha =>
    cases n with
    | zero => simp at hn
    | succ n =>
      simp only [List.cons_append, replaceFrom]
      rw [if_neg, iha (fun u v huv => h (c :: u) v (by simp [← huv])) n (by simp at hn ⊢; omega)]
      intro hpre
      rw [List.isPrefixOf_iff_prefix] at hpre
      obtain ⟨v, hv⟩ := hpre
      have h1 : pat <+: (c :: a) ++ pat := by
        refine List.prefix_of_prefix_length_le (l₃ := c :: (a ++ pat ++ t)) ⟨v, hv⟩ ⟨t, by simp⟩ (by simp; omega)
      obtain ⟨v', hv'⟩ := h1
      have := h [] v' (by simpa using hv'.symm)
      subst this
      have := congrArg List.length hv'
      simp at this
      omega

/-- one replacement: all occurrences are replaced, the rest is kept -/
theorem replaceStr_split {pat text t : Text} (hp : pat ≠ []) {l : List Text} (h : Split pat t l) :
    replaceStr pat text t = glue text l := by
  have key : ∀ n, t.length ≤ n → replaceFrom pat text n t = glue text l := by
    induction h with
    | last h => intro n _; exact replaceFrom_none n _ h
    | @more a t l ha hr ih =>
      obtain ⟨b, l', rfl⟩ := hr.cons
      exact replaceFrom_more hp ih a ha
  simp only [replaceStr]
  rw [if_neg (by rw [List.isEmpty_iff]; exact hp), key _ (Nat.le_refl _)]

/-- every text can be cut -/
theorem split_exists {pat : Text} (hp : pat ≠ []) (t : Text) : ∃ l, Split pat t l := by
  by_cases h : Inside pat t
  · -- the first occurrence
    have : ∃ a b, t = a ++ pat ++ b ∧ ∀ u v, a ++ pat = u ++ pat ++ v → v = [] := by
      obtain ⟨a, b, hab⟩ := h
      have : ∀ k (a b : Text), a.length ≤ k → t = a ++ pat ++ b →
          ∃ a b, t = a ++ pat ++ b ∧ ∀ u v, a ++ pat = u ++ pat ++ v → v = [] := by
        intro k
        induction k with
        | zero =>
          intro a b hk hab
          have : a = [] := List.eq_nil_of_length_eq_zero (by omega)
          subst this
          refine ⟨[], b, hab, ?_⟩
          intro u v huv
          have := congrArg List.length huv
          simp at this
          exact List.eq_nil_of_length_eq_zero (by omega)
        | succ k ih =>
          intro a b hk hab
          by_cases hx : ∀ u v, a ++ pat = u ++ pat ++ v → v = []
          · exact ⟨a, b, hab, hx⟩
          · simp only [Classical.not_forall] at hx
            obtain ⟨u, v, huv, hv⟩ := hx
            refine ih u (v ++ b) ?_ (by rw [hab, huv]; simp)
            have h1 := congrArg List.length huv
            have h2 : 0 < v.length := List.length_pos_iff.2 hv
            simp at h1
            omega
      exact this _ a b (Nat.le_refl _) hab
    obtain ⟨a, b, hab, hfirst⟩ := this
    have hlt : b.length < t.length := by
      have h1 := congrArg List.length hab
      have h2 : 0 < pat.length := List.length_pos_iff.2 hp
      simp at h1
      omega
    obtain ⟨l, hl⟩ := split_exists hp b
    exact ⟨a :: l, by rw [hab]; exact .more hfirst hl⟩
  · exact ⟨[t], .last h⟩
termination_by t.length

/-- **C60** for `substitute` with one pattern: the text is cut at the occurrences of the pattern; they become the replacement, the
parts between them are kept.  Partial: for more patterns see `C60_twice_violated`. -/
theorem C60_substitute_one_partial (pat text : Text) (hp : pat ≠ []) (dst : String) (code : Text) (fs : Files)
    (hcr : '\r' ∉ code) :
    ∃ l, Split pat code l ∧ glue pat l = code ∧ substitute [(pat, text)] dst code fs = fs.set dst (glue text l) := by
  obtain ⟨l, hl⟩ := split_exists hp code
  refine ⟨l, hl, ?_, ?_⟩
  · clear hcr
    induction hl with
    | last h => rfl
    | more h hr ih =>
      obtain ⟨b, l', rfl⟩ := hr.cons
      rw [glue]
      · rw [ih]
      · simp
  · simp only [substitute, readText_id code hcr, List.foldl_cons, List.foldl_nil]
    rw [replaceStr_split hp hl]

set_option maxRecDepth 20000 in
example : substitute [("ab".toList, "c".toList)] "out" "xababyab".toList (fun _ => none) "out" = some "xccyc".toList := by
  decide +kernel

/-- **C60 violated**: text that was put in by one pattern is replaced by a later one. -/
theorem C60_twice_violated :
    substitute [("A".toList, "B".toList), ("B".toList, "C".toList)] "out" "A".toList (fun _ => none) "out" = some "C".toList := by
  decide +kernel

end Verif.Text
