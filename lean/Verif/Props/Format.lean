import Verif.Text.Format
/-!
# format_substitute: properties

C93.
-/
namespace Verif.Text

/-! ## Specification -/

/-- names of fields: characters other than braces, `:`, `!` and `[`, and items `[…]` with any text but `]` in them -/
inductive FName : Text → Prop
  | nil : FName []
  | char {c : Char} {n : Text} (h : c ∉ ['{', '}', ':', '!', '[']) (hn : FName n) : FName (c :: n)
  | item {s n : Text} (h : ']' ∉ s) (hn : FName n) : FName ('[' :: s ++ ']' :: n)

/-- texts in which braces match -/
inductive Bal : Text → Prop
  | nil : Bal []
  | char {c : Char} {s : Text} (ho : c ≠ '{') (hc : c ≠ '}') (hs : Bal s) : Bal (c :: s)
  | nest {a b : Text} (ha : Bal a) (hb : Bal b) : Bal ('{' :: a ++ '}' :: b)

/-- what follows the name, up to the closing brace; the character after `!` and the text after `:` -/
inductive FTail : Text → Option Char → Text → Prop
  | plain : FTail ['}'] none []
  | spec {s : Text} (h : Bal s) : FTail (':' :: s ++ ['}']) none s
  | conv (c : Char) : FTail ['!', c, '}'] (some c) []
  | both (c : Char) {s : Text} (h : Bal s) : FTail ('!' :: c :: ':' :: s ++ ['}']) (some c) s

variable {V : Type}

/-- The name up to the first `.` or `[` is a key of `patterns` and no number; attributes and items of its value follow. -/
def Denotes (e : FEnv V) (name : Text) (v : V) : Prop :=
  ∃ first rest, name = first ++ rest ∧ '.' ∉ first ∧ '[' ∉ first ∧ (∀ c, rest.head? = some c → c = '.' ∨ c = '[') ∧
    (∃ c ∈ first, e.digit c = false) ∧
    ∃ x, e.patterns first = some x ∧ ((rest = [] ∧ v = x) ∨ (rest ≠ [] ∧ e.attr x rest = .ok v))

/-- the conversion, if there is one -/
def Converts (e : FEnv V) (v : V) : Option Char → V → Prop
  | none, w => w = v
  | some c, w => e.conv v c = .ok w

/-- What a format string says, with fields nested at most `d` deep: `{{` and `}}` are braces, fields are replaced, other characters
stay. -/
inductive Says (e : FEnv V) : Nat → Text → Text → Prop
  | nil (d : Nat) : Says e (d + 1) [] []
  | char {d : Nat} {c : Char} {t o : Text} (ho : c ≠ '{') (hc : c ≠ '}') (ht : Says e (d + 1) t o) :
      Says e (d + 1) (c :: t) (c :: o)
  | opening {d : Nat} {t o : Text} (ht : Says e (d + 1) t o) : Says e (d + 1) ('{' :: '{' :: t) ('{' :: o)
  | closing {d : Nat} {t o : Text} (ht : Says e (d + 1) t o) : Says e (d + 1) ('}' :: '}' :: t) ('}' :: o)
  | field {d : Nat} {n tl sp x t o : Text} {cv : Option Char} {v w : V} (hn : FName n) (htl : FTail tl cv sp)
      (hv : Denotes e n v) (hw : Converts e v cv w) (hs : '{' ∉ sp) (hx : e.render w sp = .ok x)
      (ht : Says e (d + 1) t o) : Says e (d + 1) ('{' :: n ++ tl ++ t) (x ++ o)
  | nested {d : Nat} {n tl sp s x t o : Text} {cv : Option Char} {v w : V} (hn : FName n) (htl : FTail tl cv sp)
      (hv : Denotes e n v) (hw : Converts e v cv w) (hb : '{' ∈ sp) (hs : Says e d sp s) (hx : e.render w s = .ok x)
      (ht : Says e (d + 1) t o) : Says e (d + 1) ('{' :: n ++ tl ++ t) (x ++ o)

/-- A part of a template as users write it: text, or the name of a pattern. -/
inductive Part where
  | lit (s : Text)
  | ref (name : Text)

/-- how it is written: braces in the text are doubled -/
def Part.source : Part → Text
  | .lit s => s.flatMap fun c => if c = '{' ∨ c = '}' then [c, c] else [c]
  | .ref name => '{' :: name ++ ['}']

/-- a name that is written in a field as it is -/
def PlainName (e : FEnv V) (name : Text) : Prop :=
  (∀ c ∈ name, c ∉ ['{', '}', ':', '!', '[', '.']) ∧ ∃ c ∈ name, e.digit c = false

/-! ## Names, texts after the colon, fields -/

theorem takeName_sound (t : Text) :
    (∀ n c r, takeName false t = some (n, c, r) → t = n ++ c :: r ∧ FName n ∧ c ∈ ['}', ':', '!']) ∧
    (∀ n c r, takeName true t = some (n, c, r) →
      t = n ++ c :: r ∧ (∃ s n', ']' ∉ s ∧ n = s ++ ']' :: n' ∧ FName n') ∧ c ∈ ['}', ':', '!']) := by
  induction t with
  | nil => simp [takeName]
  | cons a t ih =>
    refine ⟨?_, ?_⟩
    · intro n c r h
      rw [takeName] at h
      split at h
      · cases h
      · rename_i h1
        split at h
        · rename_i h2
          cases h
          exact ⟨rfl, .nil, by simpa [List.mem_cons] using h2⟩
        · rename_i h2
          obtain ⟨⟨n', c', r'⟩, hx, he⟩ := Option.map_eq_some_iff.1 h
          cases he
          by_cases hb : a = '['
          · subst hb
            obtain ⟨ht, ⟨s, n'', hs, hn, hf⟩, hc⟩ := ih.2 _ _ _ hx
            refine ⟨by simp [ht], ?_, hc⟩
            simp only [hn]
            exact .item hs hf
          · have : (a == '[') = false := by simpa using hb
            rw [this] at hx
            obtain ⟨ht, hf, hc⟩ := ih.1 _ _ _ hx
            refine ⟨by simp [ht], .char ?_ hf, hc⟩
            simp only [not_or] at h2
            simp [h1, h2, hb]
    · intro n c r h
      rw [takeName] at h
      obtain ⟨⟨n', c', r'⟩, hx, he⟩ := Option.map_eq_some_iff.1 h
      cases he
      by_cases hb : a = ']'
      · subst hb
        obtain ⟨ht, hf, hc⟩ := ih.1 _ _ _ hx
        exact ⟨by simp [ht], ⟨[], n', by simp, rfl, hf⟩, hc⟩
      · have : (a != ']') = true := by simpa using hb
        rw [this] at hx
        obtain ⟨ht, ⟨s, n'', hs, hn, hf⟩, hc⟩ := ih.2 _ _ _ hx
        exact ⟨by simp [ht], ⟨a :: s, n'', by simp [hs, Ne.symm hb], by simp [hn], hf⟩, hc⟩

theorem takeName_item {s : Text} (h : ']' ∉ s) (t : Text) :
    takeName true (s ++ ']' :: t) = (takeName false t).map fun x => (s ++ ']' :: x.1, x.2) := by
  induction s with
  | nil => simp [takeName]
  | cons a s ih =>
    have ha : (a != ']') = true := by simpa using fun e => h (by simp [e])
    simp only [List.cons_append, takeName, ha, ih (fun hm => h (List.mem_cons_of_mem _ hm)), Option.map_map]
    rfl

theorem takeName_complete {n : Text} (h : FName n) {c : Char} (hc : c ∈ ['}', ':', '!']) (r : Text) :
    takeName false (n ++ c :: r) = some (n, c, r) := by
  induction h with
  | nil =>
    simp only [List.nil_append, takeName]
    rw [if_neg, if_pos]
    · simpa using hc
    · rintro rfl; simp at hc
  | @char a n h hn ih =>
    simp only [List.mem_cons, List.not_mem_nil, or_false, not_or] at h
    have hb : (a == '[') = false := by simpa using h.2.2.2.2
    simp only [List.cons_append, takeName, h.1, h.2.1, h.2.2.1, h.2.2.2.1, or_self, if_false, hb, ih, Option.map_some]
  | @item s n h hn ih =>
    simp only [List.cons_append, List.append_assoc]
    rw [takeName]
    simp [takeName_item h, ih]

theorem takeSpec_end (t : Text) : takeSpec 0 ('}' :: t) = some ([], t) := by
  rw [takeSpec.eq_def]; simp

theorem takeSpec_close (n : Nat) (t : Text) :
    takeSpec (n + 1) ('}' :: t) = (takeSpec n t).map fun x => ('}' :: x.1, x.2) := by
  rw [takeSpec.eq_def]; simp

theorem takeSpec_open (n : Nat) (t : Text) :
    takeSpec n ('{' :: t) = (takeSpec (n + 1) t).map fun x => ('{' :: x.1, x.2) := by
  rw [takeSpec.eq_def]; simp

theorem takeSpec_char {c : Char} (ho : c ≠ '{') (hc : c ≠ '}') (n : Nat) (t : Text) :
    takeSpec n (c :: t) = (takeSpec n t).map fun x => (c :: x.1, x.2) := by
  rw [takeSpec.eq_def]; simp [ho, hc]

theorem takeSpec_bal {s : Text} (h : Bal s) : ∀ (n : Nat) (x : Text),
    takeSpec n (s ++ x) = (takeSpec n x).map fun y => (s ++ y.1, y.2) := by
  induction h with
  | nil => intro n x; simp
  | char ho hc _ ih =>
    intro n x
    simp only [List.cons_append, takeSpec_char ho hc, ih, Option.map_map]
    rfl
  | @nest a b _ _ iha ihb =>
    intro n x
    have e : '{' :: a ++ '}' :: b ++ x = '{' :: (a ++ ('}' :: (b ++ x))) := by simp
    rw [e, takeSpec_open, iha, takeSpec_close]
    simp only [ihb, Option.map_map]
    congr 1
    funext y
    simp

/-- `n` closing braces that have no opening one -/
def Bals : Nat → Text → Prop
  | 0, s => Bal s
  | n + 1, s => ∃ a b, s = a ++ '}' :: b ∧ Bal a ∧ Bals n b

theorem bals_char {c : Char} (ho : c ≠ '{') (hc : c ≠ '}') : ∀ {n : Nat} {s : Text}, Bals n s → Bals n (c :: s)
  | 0, _, h => .char ho hc h
  | _ + 1, _, ⟨a, b, e, ha, hb⟩ => ⟨c :: a, b, by simp [e], .char ho hc ha, hb⟩

theorem bals_nest {a : Text} (ha : Bal a) : ∀ {n : Nat} {s : Text}, Bals n s → Bals n ('{' :: a ++ '}' :: s)
  | 0, _, h => .nest ha h
  | _ + 1, _, ⟨x, b, e, hx, hb⟩ => ⟨'{' :: a ++ '}' :: x, b, by simp [e], .nest ha hx, hb⟩

theorem takeSpec_sound (t : Text) : ∀ n s r, takeSpec n t = some (s, r) → t = s ++ '}' :: r ∧ Bals n s := by
  induction t with
  | nil => simp [takeSpec]
  | cons c t ih =>
    intro n s r h
    by_cases hc : c = '}'
    · subst hc
      cases n with
      | zero => rw [takeSpec_end] at h; cases h; exact ⟨rfl, .nil⟩
      | succ n =>
        rw [takeSpec_close] at h
        obtain ⟨⟨s', r'⟩, hx, he⟩ := Option.map_eq_some_iff.1 h
        cases he
        obtain ⟨ht, hb⟩ := ih _ _ _ hx
        exact ⟨by simp [ht], [], s', rfl, .nil, hb⟩
    · by_cases ho : c = '{'
      · subst ho
        rw [takeSpec_open] at h
        obtain ⟨⟨s', r'⟩, hx, he⟩ := Option.map_eq_some_iff.1 h
        cases he
        obtain ⟨ht, hb⟩ := ih _ _ _ hx
        refine ⟨by simp [ht], ?_⟩
        obtain ⟨a, b, e, ha, hb⟩ := hb
        have := bals_nest ha hb
        simpa [e] using this
      · rw [takeSpec_char ho hc] at h
        obtain ⟨⟨s', r'⟩, hx, he⟩ := Option.map_eq_some_iff.1 h
        cases he
        obtain ⟨ht, hb⟩ := ih _ _ _ hx
        refine ⟨by simp [ht], ?_⟩
        exact bals_char ho hc hb

theorem takeSpec_iff {t s r : Text} : takeSpec 0 t = some (s, r) ↔ t = s ++ '}' :: r ∧ Bal s := by
  refine ⟨takeSpec_sound t 0 s r, ?_⟩
  rintro ⟨rfl, h⟩
  rw [takeSpec_bal h, takeSpec_end]
  simp

theorem takeField_sound {t r : Text} {p : FPiece} (h : takeField t = some (p, r)) :
    ∃ n tl cv sp, t = n ++ tl ++ r ∧ FName n ∧ FTail tl cv sp ∧ p = .field n cv sp := by
  rw [takeField] at h
  split at h
  · cases h
  · rename_i n r' he
    cases h
    obtain ⟨ht, hn, _⟩ := (takeName_sound t).1 _ _ _ he
    exact ⟨n, _, _, _, by simp [ht], hn, .plain, rfl⟩
  · rename_i n r' he
    obtain ⟨ht, hn, _⟩ := (takeName_sound t).1 _ _ _ he
    obtain ⟨⟨s, r''⟩, hx, he⟩ := Option.map_eq_some_iff.1 h
    cases he
    obtain ⟨hr, hb⟩ := takeSpec_iff.1 hx
    exact ⟨n, _, _, _, by simp [ht, hr], hn, .spec hb, rfl⟩
  · rename_i n c r' h1 h2 he
    obtain ⟨ht, hn, hc⟩ := (takeName_sound t).1 _ _ _ he
    have hc : c = '!' := by
      simp only [List.mem_cons, List.not_mem_nil, or_false] at hc
      rcases hc with rfl | rfl | rfl
      · exact absurd rfl (h1 · )
      · exact absurd rfl (h2 · )
      · rfl
    subst hc
    split at h
    · cases h
      exact ⟨n, _, _, _, by simp [ht], hn, .conv _, rfl⟩
    · obtain ⟨⟨s, r''⟩, hx, he⟩ := Option.map_eq_some_iff.1 h
      cases he
      obtain ⟨hr, hb⟩ := takeSpec_iff.1 hx
      exact ⟨n, _, _, _, by simp [ht, hr], hn, .both _ hb, rfl⟩
    · cases h

theorem takeField_complete {n tl sp : Text} {cv : Option Char} (hn : FName n) (h : FTail tl cv sp) (r : Text) :
    takeField (n ++ tl ++ r) = some (.field n cv sp, r) := by
  cases h with
  | plain =>
    have : n ++ ['}'] ++ r = n ++ '}' :: r := by simp
    rw [this, takeField, takeName_complete hn (by simp)]
    simp
  | spec hb =>
    have : n ++ (':' :: sp ++ ['}']) ++ r = n ++ ':' :: (sp ++ '}' :: r) := by simp
    rw [this, takeField, takeName_complete hn (by simp)]
    simp [takeSpec_iff.2 ⟨rfl, hb⟩]
  | conv c =>
    have : n ++ ['!', c, '}'] ++ r = n ++ '!' :: (c :: '}' :: r) := by simp
    rw [this, takeField, takeName_complete hn (by simp)]
    simp
  | both c hb =>
    have : n ++ ('!' :: c :: ':' :: sp ++ ['}']) ++ r = n ++ '!' :: (c :: ':' :: (sp ++ '}' :: r)) := by simp
    rw [this, takeField, takeName_complete hn (by simp)]
    simp [takeSpec_iff.2 ⟨rfl, hb⟩]

/-! ## The pieces -/

theorem FTail.pos {tl sp : Text} {cv : Option Char} (h : FTail tl cv sp) : 0 < tl.length := by
  cases h <;> simp

theorem FName.head_ne {n tl r : Text} {cv : Option Char} {sp : Text} (hn : FName n) (h : FTail tl cv sp) :
    ∀ x, n ++ tl ++ r ≠ '{' :: x := by
  intro x
  cases hn with
  | nil => cases h <;> simp
  | char hc _ => simp only [List.mem_cons, not_or] at hc; simp [hc.1]
  | item _ _ => simp

theorem fnext_shorter {t r : Text} {p : FPiece} (h : fnext t = some (p, r)) : r.length < t.length := by
  cases t with
  | nil => cases h
  | cons c t =>
    rw [fnext] at h
    split at h
    · split at h
      · cases h; simp; omega
      · obtain ⟨nm, tl, cv, sp, e, _, htl, _⟩ := takeField_sound h
        have := htl.pos
        have hl := congrArg List.length e
        simp only [List.length_append] at hl
        simp only [List.length_cons]
        omega
    · split at h
      · split at h
        · cases h; simp; omega
        · cases h
      · cases h; simp

theorem fscan_fuel : ∀ (n : Nat) (t : Text), t.length ≤ n → ∀ m, t.length ≤ m → fscan n t = fscan m t := by
  intro n
  induction n with
  | zero =>
    intro t ht m _
    have : t = [] := List.length_eq_zero_iff.1 (Nat.le_zero.1 ht)
    subst this
    cases m <;> rfl
  | succ n ih =>
    intro t ht m hm
    cases t with
    | nil => cases m <;> rfl
    | cons c t =>
      cases m with
      | zero => simp at hm
      | succ m =>
        rw [fscan, fscan]
        split
        · rfl
        · rename_i p r h
          have := fnext_shorter h
          rw [ih r (by omega) m (by omega)]

/-- the pieces of a text -/
def fparse (t : Text) : List FPiece × Bool := fscan t.length t

theorem fparse_some {t r : Text} {p : FPiece} (h : fnext t = some (p, r)) :
    fparse t = (p :: (fparse r).1, (fparse r).2) := by
  cases t with
  | nil => cases h
  | cons c t =>
    have hl := fnext_shorter h
    rw [List.length_cons] at hl
    rw [fparse, List.length_cons, fscan, h]
    have := fscan_fuel t.length r (by omega) r.length (by omega)
    simp only [this, fparse]

theorem fparse_none {c : Char} {t : Text} (h : fnext (c :: t) = none) : fparse (c :: t) = ([], false) := by
  rw [fparse, List.length_cons, fscan, h]

theorem fparse_char {c : Char} (ho : c ≠ '{') (hc : c ≠ '}') (t : Text) :
    fparse (c :: t) = (.char c :: (fparse t).1, (fparse t).2) :=
  fparse_some (by simp [fnext, ho, hc])

theorem fparse_opening (t : Text) : fparse ('{' :: '{' :: t) = (.char '{' :: (fparse t).1, (fparse t).2) :=
  fparse_some (by simp [fnext])

theorem fparse_closing (t : Text) : fparse ('}' :: '}' :: t) = (.char '}' :: (fparse t).1, (fparse t).2) :=
  fparse_some (by simp [fnext])

theorem fparse_field {n tl sp : Text} {cv : Option Char} (hn : FName n) (h : FTail tl cv sp) (t : Text) :
    fparse ('{' :: n ++ tl ++ t) = (.field n cv sp :: (fparse t).1, (fparse t).2) := by
  have e : '{' :: n ++ tl ++ t = '{' :: (n ++ tl ++ t) := by simp
  rw [e]
  apply fparse_some
  rw [fnext, if_pos rfl, if_neg, takeField_complete hn h]
  intro hh
  obtain ⟨x, hx⟩ := List.head?_eq_some_iff.1 hh
  exact hn.head_ne h _ hx

/-! ## Values of fields -/

theorem get_iff {e : FEnv V} {n : Text} {v : V} : e.get n = .ok v ↔ Denotes e n v := by
  have hp : ∀ l : Text, (∀ c ∈ l.takeWhile (fun c => c != '.' && c != '['), c ≠ '.' ∧ c ≠ '[') := by
    intro l c hc
    have := List.all_takeWhile (l := l) (p := fun c => c != '.' && c != '[')
    have := List.all_eq_true.1 this c hc
    simpa using this
  constructor
  · intro h
    rw [FEnv.get] at h
    split at h
    · cases h
    · rename_i hd
      split at h
      · cases h
      · rename_i x hx
        refine ⟨_, _, (List.takeWhile_append_dropWhile (p := fun c => c != '.' && c != '[')).symm,
          fun hm => (hp n _ hm).1 rfl, fun hm => (hp n _ hm).2 rfl, ?_, ?_, x, hx, ?_⟩
        · intro c hc
          have := List.head?_dropWhile_not (fun c => c != '.' && c != '[') n
          rw [hc] at this
          simp only [Bool.and_eq_false_iff, bne_eq_false_iff_eq] at this
          exact this
        · simpa using hd
        · split at h
          · rename_i hr
            cases h
            exact Or.inl ⟨by simpa using hr, rfl⟩
          · rename_i hr
            exact Or.inr ⟨by simpa using hr, h⟩
  · rintro ⟨first, rest, rfl, h1, h2, hh, hd, x, hx, hv⟩
    have hf : ∀ c ∈ first, (c != '.' && c != '[') = true := by
      intro c hc
      have a1 : c ≠ '.' := fun e => h1 (e ▸ hc)
      have a2 : c ≠ '[' := fun e => h2 (e ▸ hc)
      simp [a1, a2]
    have hr : rest.takeWhile (fun c => c != '.' && c != '[') = [] ∧ rest.dropWhile (fun c => c != '.' && c != '[') = rest := by
      cases rest with
      | nil => simp
      | cons c r => rcases hh c rfl with rfl | rfl <;> simp
    have ht : (first ++ rest).takeWhile (fun c => c != '.' && c != '[') = first := by
      rw [List.takeWhile_append_of_pos hf, hr.1, List.append_nil]
    have hdr : (first ++ rest).dropWhile (fun c => c != '.' && c != '[') = rest := by
      rw [List.dropWhile_append_of_pos hf, hr.2]
    rw [FEnv.get]
    simp only [ht, hdr, hx]
    rw [if_neg (by simpa using hd)]
    rcases hv with ⟨rfl, rfl⟩ | ⟨hne, ha⟩
    · simp
    · simp [hne, ha]

theorem bind_ok {α β : Type} {x : Except FErr α} {f : α → Except FErr β} {b : β} :
    (x >>= f) = .ok b ↔ ∃ a, x = .ok a ∧ f a = .ok b := by
  cases x with
  | error _ => exact ⟨fun h => (nomatch h), fun ⟨_, h, _⟩ => (nomatch h)⟩
  | ok a => exact ⟨fun h => ⟨a, rfl, h⟩, fun ⟨_, h, h'⟩ => by cases h; exact h'⟩

theorem field_iff {e : FEnv V} {expand : Text → Except FErr Text} {n sp x : Text} {cv : Option Char} :
    e.field expand n cv sp = .ok x ↔ ∃ v w s, Denotes e n v ∧ Converts e v cv w ∧
      (('{' ∉ sp ∧ s = sp) ∨ ('{' ∈ sp ∧ expand sp = .ok s)) ∧ e.render w s = .ok x := by
  have hs : ∀ s, ((if sp.contains '{' then expand else .ok) sp = .ok s) ↔
      (('{' ∉ sp ∧ s = sp) ∨ ('{' ∈ sp ∧ expand sp = .ok s)) := by
    intro s
    by_cases h : '{' ∈ sp
    · simp [h]
    · simp [h, eq_comm]
  have hcv : ∀ (v w : V), (e.convert v cv = .ok w) ↔ Converts e v cv w := by
    intro v w
    cases cv <;> simp [Converts, FEnv.convert, eq_comm]
  rw [FEnv.field]
  simp only [bind_ok, get_iff, hs, hcv]
  constructor
  · rintro ⟨v, hv, w, hw, s, h1, h2⟩; exact ⟨v, w, s, hv, hw, h1, h2⟩
  · rintro ⟨v, w, s, hv, hw, h1, h2⟩; exact ⟨v, hv, w, hw, s, h1, h2⟩

/-! ## The theorems -/

theorem says_build {e : FEnv V} {d : Nat} {t o : Text} (h : Says e d t o) : e.build d t = .ok o := by
  have step : ∀ d t, e.build (d + 1) t = e.output (e.build d) (fparse t).1 (fparse t).2 := fun _ _ => rfl
  induction h with
  | nil d => rfl
  | char ho hc _ ih =>
    rw [step] at ih ⊢
    rw [fparse_char ho hc, FEnv.output, ih]; rfl
  | opening _ ih =>
    rw [step] at ih ⊢
    rw [fparse_opening, FEnv.output, ih]; rfl
  | closing _ ih =>
    rw [step] at ih ⊢
    rw [fparse_closing, FEnv.output, ih]; rfl
  | field hn htl hv hw hs hx _ ih =>
    rw [step] at ih ⊢
    rw [fparse_field hn htl, FEnv.output, field_iff.2 ⟨_, _, _, hv, hw, Or.inl ⟨hs, rfl⟩, hx⟩, ih]; rfl
  | nested hn htl hv hw hb _ hx _ ihs ih =>
    rw [step] at ih ⊢
    rw [fparse_field hn htl, FEnv.output, field_iff.2 ⟨_, _, _, hv, hw, Or.inr ⟨hb, ihs⟩, hx⟩, ih]; rfl

theorem build_says {e : FEnv V} : ∀ (d : Nat) (t o : Text), e.build d t = .ok o → Says e d t o := by
  have step : ∀ d t, e.build (d + 1) t = e.output (e.build d) (fparse t).1 (fparse t).2 := fun _ _ => rfl
  intro d
  induction d with
  | zero => intro t o h; cases h
  | succ d ihd =>
    intro t
    induction hl : t.length using Nat.strongRecOn generalizing t with
    | ind k ih =>
      subst hl
      intro o h
      cases t with
      | nil => cases h; exact .nil d
      | cons c t =>
        have single : ∀ (c' : Char) (r : Text), r.length < (c :: t).length →
            fparse (c :: t) = (.char c' :: (fparse r).1, (fparse r).2) →
            ∃ o', Says e (d + 1) r o' ∧ o = c' :: o' := by
          intro c' r hr hp
          rw [step, hp, FEnv.output, bind_ok] at h
          obtain ⟨o', ho', h⟩ := h
          cases h
          exact ⟨o', ih _ hr r rfl _ (by rw [step]; exact ho'), rfl⟩
        by_cases ho : c = '{'
        · subst ho
          by_cases hs : ∃ r, t = '{' :: r
          · obtain ⟨r, rfl⟩ := hs
            obtain ⟨o', h1, rfl⟩ := single _ r (by simp; omega) (fparse_opening r)
            exact .opening h1
          · cases hf : takeField t with
            | none =>
              have : fparse ('{' :: t) = ([], false) := by
                apply fparse_none
                rw [fnext, if_pos rfl, if_neg, hf]
                exact fun hh => hs (List.head?_eq_some_iff.1 hh)
              rw [step, this] at h
              cases h
            | some x =>
              obtain ⟨p, r⟩ := x
              obtain ⟨n, tl, cv, sp, rfl, hn, htl, rfl⟩ := takeField_sound hf
              have e' : '{' :: (n ++ tl ++ r) = '{' :: n ++ tl ++ r := by simp
              have hpos := htl.pos
              rw [e', step, fparse_field hn htl, FEnv.output, bind_ok] at h
              obtain ⟨x, hx, h⟩ := h
              rw [bind_ok] at h
              obtain ⟨o', ho', h⟩ := h
              cases h
              have hr : Says e (d + 1) r o' :=
                ih r.length (by simp; omega) r rfl _ (by rw [step]; exact ho')
              obtain ⟨v, w, s, hv, hw, hs, hrd⟩ := field_iff.1 hx
              rw [e']
              rcases hs with ⟨hs, rfl⟩ | ⟨hb, hs⟩
              · exact .field hn htl hv hw hs hrd hr
              · exact .nested hn htl hv hw hb (ihd _ _ hs) hrd hr
        · by_cases hc : c = '}'
          · subst hc
            by_cases hs : ∃ r, t = '}' :: r
            · obtain ⟨r, rfl⟩ := hs
              obtain ⟨o', h1, rfl⟩ := single _ r (by simp; omega) (fparse_closing r)
              exact .closing h1
            · have : fparse ('}' :: t) = ([], false) := by
                apply fparse_none
                rw [fnext, if_neg (by decide), if_pos rfl, if_neg]
                exact fun hh => hs (List.head?_eq_some_iff.1 hh)
              rw [step, this] at h
              cases h
          · obtain ⟨o', h1, rfl⟩ := single _ t (by simp) (fparse_char ho hc t)
            exact .char ho hc h1

/-- **C93**: `format_substitute` returns just if the text, with its line ends read as `\n`, is a format string for the patterns, and
the file then has what it says; nothing else changes. -/
theorem C93_format (e : FEnv V) (dst x : String) (code : Text) (fs fs' : Files) :
    formatSubstitute e dst code fs = (.ok x, fs') ↔
      x = dst ∧ ∃ o, Says e 2 (readText code) o ∧ fs' = fun f => if f = dst then some o else fs f := by
  rw [formatSubstitute]
  constructor
  · intro h
    split at h
    · rename_i o ho
      cases h
      exact ⟨rfl, o, build_says _ _ _ ho, rfl⟩
    · cases h
  · rintro ⟨rfl, o, ho, rfl⟩
    rw [says_build ho]
    rfl

/-- **C93**: if it raises no file is changed. -/
theorem C93_raised (e : FEnv V) (dst : String) (code : Text) (fs fs' : Files) (x : FErr)
    (h : formatSubstitute e dst code fs = (.error x, fs')) : fs' = fs := by
  rw [formatSubstitute] at h
  split at h <;> cases h
  rfl

theorem says_lit {e : FEnv V} {d : Nat} {t o : Text} (s : Text) (h : Says e (d + 1) t o) :
    Says e (d + 1) ((Part.lit s).source ++ t) (s ++ o) := by
  induction s with
  | nil => exact h
  | cons c s ih =>
    simp only [Part.source, List.flatMap_cons, List.append_assoc] at ih ⊢
    split
    · rename_i hc
      rcases hc with rfl | rfl
      · exact .opening ih
      · exact .closing ih
    · rename_i hc
      rw [not_or] at hc
      exact .char hc.1 hc.2 ih

theorem PlainName.fname {e : FEnv V} {name : Text} (h : PlainName e name) : FName name := by
  replace h := h.1
  induction name with
  | nil => exact .nil
  | cons c n ih =>
    refine .char ?_ (ih fun x hx => h x (List.mem_cons_of_mem _ hx))
    have := h c List.mem_cons_self
    simp only [List.mem_cons, List.not_mem_nil, or_false, not_or] at this ⊢
    exact ⟨this.1, this.2.1, this.2.2.1, this.2.2.2.1, this.2.2.2.2.1⟩

theorem PlainName.denotes {e : FEnv V} {name : Text} (h : PlainName e name) {v : V} :
    Denotes e name v ↔ e.patterns name = some v := by
  have hdot : '.' ∉ name := fun hm => by simpa using h.1 _ hm
  have hbr : '[' ∉ name := fun hm => by simpa using h.1 _ hm
  constructor
  · rintro ⟨first, rest, rfl, _, _, hh, _, x, hx, hv⟩
    cases rest with
    | nil =>
      rcases hv with ⟨_, rfl⟩ | ⟨h, _⟩
      · simpa using hx
      · exact absurd rfl h
    | cons c r =>
      rcases hh c rfl with rfl | rfl
      · exact absurd (List.mem_append_right _ List.mem_cons_self) hdot
      · exact absurd (List.mem_append_right _ List.mem_cons_self) hbr
  · intro hx
    exact ⟨name, [], by simp, hdot, hbr, by simp, h.2, v, hx, Or.inl ⟨rfl, rfl⟩⟩

/-- **C93**, for templates as users write them: any text, with braces doubled, and names in braces.  Each name is replaced by its value and
the text is as it was meant. -/
theorem C93_template (e : FEnv V) (dst : String) (code : Text) (fs : Files) (ps : List Part)
    (value : Text → Text) (hcode : readText code = ps.flatMap Part.source)
    (hn : ∀ name, .ref name ∈ ps → PlainName e name ∧ ∃ v, e.patterns name = some v ∧ e.render v [] = .ok (value name)) :
    formatSubstitute e dst code fs = (.ok dst, fun f => if f = dst then
      some (ps.flatMap fun p => match p with
        | .lit s => s
        | .ref name => value name)
      else fs f) := by
  rw [C93_format]
  refine ⟨rfl, _, ?_, rfl⟩
  rw [hcode]
  clear hcode
  induction ps with
  | nil => exact .nil 1
  | cons p ps ih =>
    have ih := ih fun name hm => hn name (List.mem_cons_of_mem _ hm)
    cases p with
    | lit s => exact says_lit s ih
    | ref name =>
      obtain ⟨hp, v, hv, hr⟩ := hn name List.mem_cons_self
      exact .field (cv := none) hp.fname .plain (hp.denotes.2 hv) rfl (by simp) hr ih

theorem says_lit_inv {e : FEnv V} {d : Nat} {t : Text} (s : Text) :
    ∀ {o : Text}, e.build (d + 1) ((Part.lit s).source ++ t) = .ok o → ∃ o', e.build (d + 1) t = .ok o' := by
  have step : ∀ d t, e.build (d + 1) t = e.output (e.build d) (fparse t).1 (fparse t).2 := fun _ _ => rfl
  induction s with
  | nil => intro o h; exact ⟨o, h⟩
  | cons c s ih =>
    intro o h
    simp only [Part.source, List.flatMap_cons, List.append_assoc] at ih h
    have : fparse ((if c = '{' ∨ c = '}' then [c, c] else [c]) ++
        (s.flatMap (fun c => if c = '{' ∨ c = '}' then [c, c] else [c]) ++ t)) =
        (.char c :: (fparse (s.flatMap (fun c => if c = '{' ∨ c = '}' then [c, c] else [c]) ++ t)).1,
          (fparse (s.flatMap (fun c => if c = '{' ∨ c = '}' then [c, c] else [c]) ++ t)).2) := by
      split
      · rename_i hc
        rcases hc with rfl | rfl
        · exact fparse_opening _
        · exact fparse_closing _
      · rename_i hc
        rw [not_or] at hc
        exact fparse_char hc.1 hc.2 _
    rw [step, this, FEnv.output, bind_ok] at h
    obtain ⟨o', ho', _⟩ := h
    exact ih (o := o') (by rw [step]; exact ho')

/-- **C93**: with a name that has no definition it raises, and no file is changed. -/
theorem C93_undefined (e : FEnv V) (dst : String) (code : Text) (fs : Files) (ps : List Part)
    (hcode : readText code = ps.flatMap Part.source)
    (hn : ∀ name, .ref name ∈ ps → PlainName e name) (name : Text) (hm : .ref name ∈ ps) (hu : e.patterns name = none) :
    ∃ x, formatSubstitute e dst code fs = (.error x, fs) := by
  cases hb : e.build 2 (readText code) with
  | error x => exact ⟨x, by rw [formatSubstitute, hb]⟩
  | ok o =>
    exfalso
    have step : ∀ d t, e.build (d + 1) t = e.output (e.build d) (fparse t).1 (fparse t).2 := fun _ _ => rfl
    rw [hcode] at hb
    clear hcode
    induction ps generalizing o with
    | nil => cases hm
    | cons p ps ih =>
      have ihn := ih (fun name hm => hn name (List.mem_cons_of_mem _ hm))
      cases p with
      | lit s =>
        obtain ⟨o', h⟩ := says_lit_inv s hb
        exact ihn (by simpa using hm) o' h
      | ref n =>
        have hp := hn n List.mem_cons_self
        have hb : e.build 2 ('{' :: n ++ ['}'] ++ ps.flatMap Part.source) = .ok o := hb
        rw [step, fparse_field hp.fname .plain, FEnv.output, bind_ok] at hb
        obtain ⟨x, hx, hb⟩ := hb
        rw [bind_ok] at hb
        obtain ⟨o', ho', _⟩ := hb
        obtain ⟨v, w, s, hv, _⟩ := field_iff.1 hx
        have hv := hp.denotes.1 hv
        rcases List.mem_cons.1 hm with h | h
        · cases h
          rw [hu] at hv
          cases hv
        · exact ihn h o' (by rw [step]; exact ho')

theorem lit_error {e : FEnv V} {d : Nat} {t : Text} {x : FErr} (s : Text) (h : e.build (d + 1) t = .error x) :
    e.build (d + 1) ((Part.lit s).source ++ t) = .error x := by
  have step : ∀ d t, e.build (d + 1) t = e.output (e.build d) (fparse t).1 (fparse t).2 := fun _ _ => rfl
  induction s with
  | nil => exact h
  | cons c s ih =>
    simp only [Part.source, List.flatMap_cons, List.append_assoc] at ih ⊢
    have : fparse ((if c = '{' ∨ c = '}' then [c, c] else [c]) ++
        (s.flatMap (fun c => if c = '{' ∨ c = '}' then [c, c] else [c]) ++ t)) =
        (.char c :: (fparse (s.flatMap (fun c => if c = '{' ∨ c = '}' then [c, c] else [c]) ++ t)).1,
          (fparse (s.flatMap (fun c => if c = '{' ∨ c = '}' then [c, c] else [c]) ++ t)).2) := by
      split
      · rename_i hc
        rcases hc with rfl | rfl
        · exact fparse_opening _
        · exact fparse_closing _
      · rename_i hc
        rw [not_or] at hc
        exact fparse_char hc.1 hc.2 _
    rw [step] at ih
    rw [step, this, FEnv.output, ih]
    rfl

/-- **C93**: the exception is a `KeyError` with the first name that has no definition, if the names before it can be formatted. -/
theorem C93_key (e : FEnv V) (dst : String) (code : Text) (fs : Files) (before after : List Part) (name : Text)
    (hcode : readText code = (before ++ .ref name :: after).flatMap Part.source)
    (hn : ∀ n, .ref n ∈ before → PlainName e n ∧ ∃ v o, e.patterns n = some v ∧ e.render v [] = .ok o)
    (hp : PlainName e name) (hu : e.patterns name = none) :
    formatSubstitute e dst code fs = (.error (.key name), fs) := by
  have key : e.build 2 (readText code) = .error (.key name) := by
    have step : ∀ d t, e.build (d + 1) t = e.output (e.build d) (fparse t).1 (fparse t).2 := fun _ _ => rfl
    rw [hcode]
    clear hcode
    induction before with
    | nil =>
      show e.build 2 ('{' :: name ++ ['}'] ++ after.flatMap Part.source) = _
      have hdot : '.' ∉ name := fun hm => by simpa using hp.1 _ hm
      have hbr : '[' ∉ name := fun hm => by simpa using hp.1 _ hm
      have hg : e.get name = .error (.key name) := by
        have h1 : ∀ c ∈ name, (c != '.' && c != '[') = true := by
          intro c hc
          simp only [Bool.and_eq_true, bne_iff_ne]
          exact ⟨fun h => hdot (h ▸ hc), fun h => hbr (h ▸ hc)⟩
        have h2 : name.takeWhile (fun c => c != '.' && c != '[') = name := by
          have h0 : ∀ l : Text, (∀ c ∈ l, (c != '.' && c != '[') = true) → l.takeWhile (fun c => c != '.' && c != '[') = l := by
            intro l
            induction l with
            | nil => intro _; rfl
            | cons a l ih =>
              intro h
              rw [List.takeWhile_cons, if_pos (h a (by simp)), ih (fun c hc => h c (by simp [hc]))]
          exact h0 name h1
        have h3 : name.all e.digit = false := by
          obtain ⟨c, h4, h5⟩ := hp.2
          rw [List.all_eq_false]
          exact ⟨c, h4, by simp [h5]⟩
        rw [FEnv.get]
        simp only [h2, h3, hu]
        rfl
      rw [step, fparse_field hp.fname .plain, FEnv.output, FEnv.field, hg]
      rfl
    | cons p ps ih =>
      have ih := ih fun n hm => hn n (List.mem_cons_of_mem _ hm)
      cases p with
      | lit s => exact lit_error s ih
      | ref n =>
        obtain ⟨hp', v, o, hv, hr⟩ := hn n List.mem_cons_self
        show e.build 2 ('{' :: n ++ ['}'] ++ (ps ++ .ref name :: after).flatMap Part.source) = _
        have hf : e.field (e.build 1) n none [] = .ok o := field_iff.2 ⟨v, v, [], hp'.denotes.2 hv, rfl, by simp, hr⟩
        rw [step] at ih
        rw [step, fparse_field hp'.fname .plain, FEnv.output, hf, ih]
        rfl
  rw [formatSubstitute, key]

/-! ## Cases -/

/-- patterns that are texts; `!s` does nothing, a number after the colon is not looked at -/
def texts (defs : List (String × String)) : FEnv Text where
  patterns n := (defs.find? fun d => d.1.toList = n).map fun d => d.2.toList
  attr _ _ := .error (.other 0)
  conv v c := if c = 's' then .ok v else .error .value
  render v _ := .ok v
  digit c := c.isDigit

/-- hypotheses met, and the result -/
example : let e := texts [("name", "fbuild"), ("v", "{1}")]
    let ps := [Part.lit "struct {".toList, .ref "name".toList, .lit "} ".toList, .ref "v".toList]
    (∀ name, .ref name ∈ ps → PlainName e name ∧ ∃ v, e.patterns name = some v ∧ e.render v [] = .ok v) ∧
    ps.flatMap Part.source = "struct {{{name}}} {v}".toList ∧
    (e.build 2 "struct {{{name}}} {v}".toList).toOption = some "struct {fbuild} {1}".toList := by
  refine ⟨?_, by decide +kernel, by decide +kernel⟩
  intro name h
  have : name = "name".toList ∨ name = "v".toList := by
    simp only [List.mem_cons, Part.ref.injEq, reduceCtorEq, List.not_mem_nil, or_false, false_or] at h
    exact h
  rcases this with rfl | rfl
  · exact ⟨⟨by decide +kernel, 'n', by decide +kernel, by decide +kernel⟩, "fbuild".toList, by decide +kernel, rfl⟩
  · exact ⟨⟨by decide +kernel, 'v', by decide +kernel, by decide +kernel⟩, "{1}".toList, by decide +kernel, rfl⟩

/-- nested fields, conversions, and texts that raise: a body of a function, an undefined name, three levels -/
example : let e := texts [("name", "fbuild"), ("w", "8")]
    (e.build 2 "{name:{w}}|{name!s:>{w}}".toList).toOption = some "fbuild|fbuild".toList ∧
    (e.build 2 "int main() { return 0; }".toList).toOption = none ∧ (e.build 2 "int f() {}".toList).toOption = none ∧
    (match e.build 2 "{name} {nam}".toList with
      | .error x => some x
      | .ok _ => none) = some (.key "nam".toList) ∧ (e.build 2 "{name:{w:{w}}}".toList).toOption = none := by
  refine ⟨?_, ?_, ?_, ?_, ?_⟩ <;> decide +kernel

end Verif.Text
