import Verif.Naming.Source
/-!
# The text of which the digest of a function is made

C106, C107.
-/
namespace Verif.Source

/-! ## Specification: the tokens of a definition -/

/-- inside of a logical line: names, numbers, strings and so on; line breaks and comments in brackets -/
def Plain (ts : List Tok) : Prop := ∀ t ∈ ts, t.kind = .other ∨ t.kind = .nl ∨ t.kind = .comment

/-- blank lines and lines with comments -/
def Gap (ts : List Tok) : Prop := ∀ t ∈ ts, t.kind = .nl ∨ t.kind = .comment

/-- a logical line -/
inductive Line : List Tok → Prop
  | mk (ts : List Tok) (n : Tok) : Plain ts → n.kind = .newline → Line (ts ++ [n])

/-- statements, with blank lines and comments -/
inductive Stmts : List Tok → Prop
  | nil : Stmts []
  | gap (t : Tok) (ts : List Tok) : (t.kind = .nl ∨ t.kind = .comment) → Stmts ts → Stmts (t :: ts)
  | line (l ts : List Tok) : Line l → Stmts ts → Stmts (l ++ ts)
  /-- a compound statement: there is a statement in it -/
  | block (h g b ts : List Tok) (i d : Tok) : Line h → Gap g → i.kind = .indent → Stmts b → (∃ t ∈ b, t.kind = .newline) →
      d.kind = .dedent → Stmts ts → Stmts (h ++ g ++ i :: b ++ d :: ts)

/-- decorators, with blank lines and comments; a method is indented -/
inductive Decorators : List Tok → Prop
  | nil : Decorators []
  | gap (t : Tok) (ts : List Tok) : (t.kind = .nl ∨ t.kind = .comment ∨ t.kind = .indent) → t.text ≠ ['@'] →
      t.text ≠ "def".toList → t.text ≠ "class".toList → t.text ≠ "lambda".toList → Decorators ts → Decorators (t :: ts)
  | line (t : Tok) (l ts : List Tok) : t.kind = .other → t.text = ['@'] → Line l → Decorators ts → Decorators (t :: l ++ ts)

/-- the row in which the body ends: that of its last logical line, or of a comment behind it that is indented like the body -/
def bodyEnd (col : Nat) (b : List Tok) : Option Nat :=
  ((b.filter fun t => t.kind = .newline ∨ (t.kind = .comment ∧ col ≤ t.col)).getLast?).map (·.row)

/-- the tokens of a source that begins with a definition which ends in row `n`; the definition has a body of its own lines, or it
is one logical line -/
inductive Definition : List Tok → Nat → Prop
  | body (decs h g b rest : List Tok) (w i d : Tok) (n : Nat) : Decorators decs → w.kind = .other → w.text = "def".toList →
      Line h → Gap g → i.kind = .indent → Stmts b → (∃ t ∈ b, t.kind = .newline) → bodyEnd i.ecol b = some n →
      d.kind = .dedent → Definition (decs ++ w :: h ++ g ++ i :: b ++ d :: rest) n
  | oneLine (decs h g rest : List Tok) (w e d : Tok) : Decorators decs → w.kind = .other → w.text = "def".toList →
      Plain h → e.kind = .newline → Gap g → (d.kind = .other ∨ d.kind = .dedent) →
      Definition (decs ++ w :: (h ++ [e]) ++ g ++ d :: rest) e.row

/-! ## What `BlockFinder` does with them -/

theorem feed_cons {s s' : Finder} {t : Tok} (ts : List Tok) (h : eat s t = (s', false)) : feed s (t :: ts) = feed s' ts := by
  rw [feed, h]

theorem feed_stop {s s' : Finder} {t : Tok} (ts : List Tok) (h : eat s t = (s', true)) : feed s (t :: ts) = s' := by
  rw [feed, h]

/-- in the definition, behind `def` -/
def st (indent : Int) (passline : Bool) (last : Nat) (body : Option Nat) : Finder :=
  ⟨indent, false, true, passline, false, last, body⟩

/-- what is read of tokens: everything up to the last row that counts -/
def lastRow (body : Option Nat) (d : Nat) : List Tok → Nat
  | [] => d
  | t :: ts => lastRow body (if t.kind = .newline then t.row else
      if t.kind = .comment then (match body with
        | some c => if c ≤ t.col then t.row else d
        | none => d)
      else d) ts

theorem lastRow_append (body : Option Nat) (a b : List Tok) : ∀ d, lastRow body d (a ++ b) = lastRow body (lastRow body d a) b := by
  induction a with
  | nil => intro d; rfl
  | cons t a ih => intro d; simp only [List.cons_append, lastRow, ih]

theorem lastRow_newline (body : Option Nat) (b : List Tok) (h : ∃ t ∈ b, t.kind = .newline) :
    ∀ d d', lastRow body d b = lastRow body d' b := by
  induction b with
  | nil => obtain ⟨t, h, _⟩ := h; exact (nomatch h)
  | cons t b ih =>
    intro d d'
    by_cases ht : t.kind = .newline
    · simp only [lastRow, if_pos ht]
    · have : ∃ t ∈ b, t.kind = .newline := by
        obtain ⟨u, hu, hk⟩ := h
        rcases List.mem_cons.1 hu with rfl | hu
        · exact absurd hk ht
        · exact ⟨u, hu, hk⟩
      simp only [lastRow]
      exact ih this _ _

theorem lastRow_eq (c : Nat) (b : List Tok) : ∀ d, lastRow (some c) d b = (bodyEnd c b).getD d := by
  induction b with
  | nil => intro d; rfl
  | cons t b ih =>
    intro d
    rw [lastRow, ih]
    unfold bodyEnd
    rw [List.filter_cons]
    by_cases h1 : t.kind = .newline
    · simp only [h1, true_or, decide_true, if_true, List.getLast?_cons]
      cases h : (b.filter fun t => t.kind = .newline ∨ (t.kind = .comment ∧ c ≤ t.col)).getLast? with
      | none => simp
      | some x => simp
    · by_cases h2 : t.kind = .comment
      · by_cases h3 : c ≤ t.col
        · simp only [h2, h3, and_self, or_true, decide_true, if_true, List.getLast?_cons]
          cases h : (b.filter fun t => t.kind = .newline ∨ (t.kind = .comment ∧ c ≤ t.col)).getLast? with
          | none => simp
          | some x => simp
        · simp [h2, h3]
      · simp [h1, h2]

theorem eat_plain {k : Int} {p : Bool} {n : Nat} {bd : Option Nat} {t : Tok}
    (ht : t.kind = .other ∨ t.kind = .nl ∨ t.kind = .comment) (hi : p = true ∨ 1 ≤ k) :
    ∃ l, eat (st k p n bd) t = (st k p l bd, false) := by
  have hn : t.kind ≠ .newline := by rcases ht with h | h | h <;> rw [h] <;> decide
  have hd : t.kind ≠ .indent := by rcases ht with h | h | h <;> rw [h] <;> decide
  have hd' : t.kind ≠ .dedent := by rcases ht with h | h | h <;> rw [h] <;> decide
  unfold eat st
  simp only [hn, hd, hd', if_false, Bool.not_true, Bool.false_and, Bool.false_eq_true]
  cases p with
  | true => exact ⟨n, rfl⟩
  | false =>
    have hi : ¬ k = 0 := by
      rcases hi with h | h
      · exact (nomatch h)
      · omega
    simp only [Bool.false_eq_true, if_false]
    by_cases hc : t.kind = .comment
    · rw [if_pos hc]
      cases bd with
      | none => exact ⟨n, rfl⟩
      | some c =>
        simp only
        by_cases h : c ≤ t.col
        · rw [if_pos h]; exact ⟨t.row, rfl⟩
        · rw [if_neg h]; exact ⟨n, rfl⟩
    · rw [if_neg hc]
      exact ⟨n, by simp [hi]⟩

/-- inside a logical line of a body -/
theorem feed_plain (ts : List Tok) (hp : Plain ts) (k : Int) (p : Bool) (bd : Option Nat) (hi : p = true ∨ 1 ≤ k) :
    ∀ (n : Nat) (rest : List Tok), ∃ l, feed (st k p n bd) (ts ++ rest) = feed (st k p l bd) rest := by
  induction ts with
  | nil => intro n rest; exact ⟨n, rfl⟩
  | cons t ts ih =>
    intro n rest
    obtain ⟨l, hl⟩ := eat_plain (n := n) (bd := bd) (hp t (.head _)) hi
    rw [List.cons_append, feed_cons _ hl]
    exact ih (fun x hx => hp x (.tail _ hx)) l rest

theorem eat_newline {k : Int} {p : Bool} {n : Nat} {bd : Option Nat} {t : Tok} (ht : t.kind = .newline) :
    eat (st k p n bd) t = (st k false t.row bd, false) := by
  unfold eat st
  simp [ht]

/-- a logical line of a body -/
theorem feed_line (l : List Tok) (h : Line l) (k : Int) (p : Bool) (n : Nat) (bd : Option Nat) (rest : List Tok)
    (hi : p = true ∨ 1 ≤ k) : feed (st k p n bd) (l ++ rest) = feed (st k false (lastRow bd n l) bd) rest := by
  obtain ⟨ts, e, hp, he⟩ := h
  obtain ⟨l, hl⟩ := feed_plain ts hp k p bd hi n ([e] ++ rest)
  rw [List.append_assoc, hl, List.singleton_append, feed_cons _ (eat_newline he), lastRow_append]
  simp [lastRow, he]

/-- comments and blank lines between statements -/
theorem eat_gap {k : Int} {n : Nat} {bd : Option Nat} {t : Tok} (ht : t.kind = .nl ∨ t.kind = .comment) :
    eat (st k false n bd) t = (st k false (lastRow bd n [t]) bd, false) := by
  unfold eat st
  rcases ht with ht | ht
  · simp [ht, lastRow]
  · simp only [ht, lastRow, Bool.not_true, Bool.false_and, Bool.false_eq_true, if_false, if_true, reduceCtorEq]
    cases bd with
    | none => rfl
    | some c =>
      simp only
      by_cases h : c ≤ t.col
      · rw [if_pos h, if_pos h]
      · rw [if_neg h, if_neg h]

theorem feed_gap (g : List Tok) (hg : Gap g) (k : Int) (bd : Option Nat) (rest : List Tok) : ∀ n : Nat,
    feed (st k false n bd) (g ++ rest) = feed (st k false (lastRow bd n g) bd) rest := by
  induction g with
  | nil => intro n; rfl
  | cons t g ih =>
    intro n
    rw [List.cons_append, feed_cons _ (eat_gap (hg t (.head _))), ih (fun x hx => hg x (.tail _ hx))]
    rfl

theorem eat_pass {k : Int} {n : Nat} {bd : Option Nat} {t : Tok} (ht : t.kind ≠ .newline) :
    eat (st k true n bd) t = (st k true n bd, false) := by
  unfold eat st
  simp [ht]

theorem eat_indent {k : Int} {n c : Nat} {t : Tok} (ht : t.kind = .indent) :
    eat (st k false n (some c)) t = (st (k + 1) true n (some c), false) := by
  unfold eat st
  simp [ht]

theorem eat_first {k : Int} {n : Nat} {t : Tok} (ht : t.kind = .indent) :
    eat (st k false n none) t = (st (k + 1) true n (some t.ecol), false) := by
  unfold eat st
  simp [ht]

theorem eat_dedent {k : Int} {n : Nat} {bd : Option Nat} {t : Tok} (ht : t.kind = .dedent) :
    eat (st k false n bd) t = (st (k - 1) false n bd, decide (k - 1 ≤ 0)) := by
  unfold eat st
  simp [ht]

/-- the statements of a body -/
theorem feed_stmts (b : List Tok) (hb : Stmts b) (c : Nat) : ∀ (k : Int) (p : Bool) (n : Nat) (rest : List Tok), 1 ≤ k →
    (p = false ∨ ∃ t ∈ b, t.kind = .newline) →
    feed (st k p n (some c)) (b ++ rest) = feed (st k false (lastRow (some c) n b) (some c)) rest := by
  induction hb with
  | nil =>
    intro k p n rest _ hp
    rcases hp with hp | ⟨t, h, _⟩
    · rw [hp]; rfl
    · exact (nomatch h)
  | gap t ts ht _ ih =>
    intro k p n rest hk hp
    have hne : t.kind ≠ .newline := by rcases ht with h | h <;> rw [h] <;> decide
    cases p with
    | false =>
      rw [List.cons_append, feed_cons _ (eat_gap ht), ih k false _ rest hk (.inl rfl)]
      rfl
    | true =>
      have hex : ∃ t ∈ ts, t.kind = .newline := by
        rcases hp with hp | ⟨u, hu, hk⟩
        · exact (nomatch hp)
        · rcases List.mem_cons.1 hu with rfl | hu
          · exact absurd hk hne
          · exact ⟨u, hu, hk⟩
      rw [List.cons_append, feed_cons _ (eat_pass hne), ih k true n rest hk (.inr hex)]
      congr 2
      rw [lastRow]
      exact lastRow_newline _ _ hex _ _
  | line l ts hl _ ih =>
    intro k p n rest hk _
    rw [List.append_assoc, feed_line l hl k p n _ _ (.inr hk), ih k false _ rest hk (.inl rfl), lastRow_append]
  | block h g b ts i d hh hg hik hb hnl hd _ ihb ihts =>
    intro k p n rest hk _
    rw [show h ++ g ++ i :: b ++ d :: ts ++ rest = h ++ (g ++ (i :: (b ++ (d :: (ts ++ rest))))) from by simp,
      feed_line h hh k p n _ _ (.inr hk), feed_gap g hg, feed_cons _ (eat_indent hik),
      ihb (k + 1) true _ _ (by omega) (.inr hnl)]
    have hded := eat_dedent (k := k + 1) (n := lastRow (some c) (lastRow (some c) (lastRow (some c) n h) g) b) (bd := some c) hd
    rw [show decide (k + 1 - 1 ≤ 0) = false from by simp; omega] at hded
    rw [feed_cons _ hded, ihts (k + 1 - 1) false _ rest (by omega) (.inl rfl)]
    have e1 : lastRow (some c) n (h ++ g ++ i :: b ++ d :: ts) =
        lastRow (some c) (lastRow (some c) (lastRow (some c) (lastRow (some c) n h) g) b) ts := by
      simp [lastRow_append, lastRow, hik, hd]
    rw [e1, Int.add_sub_cancel]

/-- before `def` -/
def Out (s : Finder) : Prop := s.started = false ∧ s.islambda = false ∧ s.indecorator = false ∧ s.indent = 0 ∧ s.body = none

/-- the line of a decorator -/
theorem feed_decorator (l : List Tok) (h : Line l) (s : Finder) (rest : List Tok) (hs : s.started = false ∧ s.islambda = false ∧
    s.indecorator = true ∧ s.indent = 0 ∧ s.body = none) (hp : s.passline = true) :
    ∃ s', Out s' ∧ feed s (l ++ rest) = feed s' rest := by
  obtain ⟨ts, n, hp', hn⟩ := h
  have : feed s (ts ++ ([n] ++ rest)) = feed s ([n] ++ rest) := by
    clear hn
    induction ts with
    | nil => rfl
    | cons t ts ih =>
      have ht := hp' t (.head _)
      have he : eat s t = (s, false) := by
        have hne : t.kind ≠ .newline := by rcases ht with h | h | h <;> rw [h] <;> decide
        unfold eat
        simp [hs.2.2.1, hne, hp]
      rw [List.cons_append, feed_cons _ he]
      exact ih (fun x hx => hp' x (.tail _ hx))
  rw [List.append_assoc, this, List.singleton_append]
  refine ⟨{ s with passline := false, last := n.row, indecorator := false }, ⟨hs.1, hs.2.1, rfl, hs.2.2.2⟩, ?_⟩
  refine feed_cons _ ?_
  unfold eat
  simp [hs.2.2.1, hn, hs.2.1]

theorem feed_decorators (ds : List Tok) (hd : Decorators ds) : ∀ (s : Finder) (rest : List Tok), Out s →
    ∃ s', Out s' ∧ feed s (ds ++ rest) = feed s' rest := by
  induction hd with
  | nil => intro s rest hs; exact ⟨s, hs, rfl⟩
  | gap t ts ht h1 h2 h3 h4 _ ih =>
    intro s rest hs
    have he : eat s t = ({ s with passline := true }, false) := by
      unfold eat
      have h2 : t.text ≠ ['d', 'e', 'f'] := h2
      have h3 : t.text ≠ ['c', 'l', 'a', 's', 's'] := h3
      have h4 : t.text ≠ ['l', 'a', 'm', 'b', 'd', 'a'] := h4
      simp [hs.1, hs.2.2.1, h1, h2, h3, h4]
    rw [List.cons_append, feed_cons _ he]
    exact ih _ rest hs
  | line t l ts hk htext hl _ ih =>
    intro s rest hs
    have he : eat s t = ({ s with indecorator := true, passline := true }, false) := by
      unfold eat
      simp [hs.1, hs.2.2.1, htext]
    rw [List.cons_append, List.cons_append, List.append_assoc, feed_cons _ he]
    obtain ⟨s', hs', hf⟩ := feed_decorator l hl { s with indecorator := true, passline := true } (ts ++ rest)
      ⟨hs.1, hs.2.1, rfl, hs.2.2.2⟩ rfl
    rw [hf]
    exact ih s' rest hs'

theorem lastRow_line {l : List Tok} {b : Option Nat} {d : Nat} {ts : List Tok} {e : Tok} (h : l = ts ++ [e]) (he : e.kind = .newline) :
    lastRow b d l = e.row := by
  subst h
  rw [lastRow_append]
  simp [lastRow, he]

theorem lastRow_gap (g : List Tok) (h : Gap g) (d : Nat) : lastRow none d g = d := by
  induction g generalizing d with
  | nil => rfl
  | cons t g ih =>
    have hne : t.kind ≠ .newline := by rcases h t (.head _) with h | h <;> rw [h] <;> decide
    rw [lastRow, if_neg hne]
    simp only [ite_self]
    exact ih (fun x hx => h x (.tail _ hx)) d

theorem eat_def {s : Finder} {w : Tok} (hs : Out s) (hw : w.text = "def".toList) : eat s w = (st 0 true s.last none, false) := by
  have hw : w.text = ['d', 'e', 'f'] := hw
  obtain ⟨ind, lam, st', pl, dec, last, bd⟩ := s
  obtain ⟨h1, h2, h3, h4, h5⟩ := hs
  simp only at h1 h2 h3 h4 h5
  subst h1 h2 h3 h4 h5
  unfold eat st
  simp [hw]

/-- `BlockFinder` finds the row in which a definition ends -/
theorem feed_definition {ts : List Tok} {n : Nat} (h : Definition ts n) : (feed {} ts).last = n := by
  have hout : Out {} := ⟨rfl, rfl, rfl, rfl, rfl⟩
  cases h with
  | body decs h g b rest w i d n hd hw hwt hl hg hi hb hnl hn hdk =>
    rw [show decs ++ w :: h ++ g ++ i :: b ++ d :: rest = decs ++ (w :: (h ++ (g ++ (i :: (b ++ (d :: rest)))))) from by simp]
    obtain ⟨s, hs, hf⟩ := feed_decorators decs hd {} (w :: (h ++ (g ++ (i :: (b ++ (d :: rest)))))) hout
    rw [hf]
    rw [feed_cons _ (eat_def hs hwt), feed_line h hl 0 true _ _ _ (.inl rfl), feed_gap g hg, feed_cons _ (eat_first hi),
      feed_stmts b hb i.ecol (0 + 1) true _ _ (by omega) (.inr hnl), feed_stop _ (eat_dedent hdk)]
    simp only [st, lastRow_eq, hn, Option.getD_some]
  | oneLine decs h g rest w e d hd hw hwt hl he hg hdk =>
    rw [show decs ++ w :: (h ++ [e]) ++ g ++ d :: rest = decs ++ (w :: ((h ++ [e]) ++ (g ++ (d :: rest)))) from by simp]
    obtain ⟨s, hs, hf⟩ := feed_decorators decs hd {} (w :: ((h ++ [e]) ++ (g ++ (d :: rest)))) hout
    rw [hf]
    rw [feed_cons _ (eat_def hs hwt), feed_line (h ++ [e]) ⟨h, e, hl, he⟩ 0 true _ _ _ (.inl rfl), feed_gap g hg]
    have hstop : ∃ k, eat (st 0 false (lastRow none (lastRow none s.last (h ++ [e])) g) none) d =
        (st k false (lastRow none (lastRow none s.last (h ++ [e])) g) none, true) := by
      rcases hdk with hdk | hdk
      · exact ⟨0, by unfold eat st; simp [hdk]⟩
      · exact ⟨0 - 1, eat_dedent hdk⟩
    obtain ⟨k, hk⟩ := hstop
    rw [feed_stop _ hk]
    simp only [st]
    rw [lastRow_gap g hg, lastRow_line rfl he]

/-! ## The text -/

/-- a line that begins a definition -/
def Begins (l : Text) : Prop := ∃ w r, (∀ c ∈ w, c = ' ' ∨ c = '\t') ∧ (l = w ++ "def ".toList ++ r ∨ l = w ++ '@' :: r)

theorem starts_of_begins {l : Text} (h : Begins l) : starts l = true := by
  obtain ⟨w, r, hw, hl⟩ := h
  have hdrop : ∀ x : Text, (∀ c, x.head? = some c → isSpace c = false) → (w ++ x).dropWhile isSpace = x := by
    intro x hx
    clear hl
    induction w with
    | nil =>
      cases x with
      | nil => rfl
      | cons c x => simp [hx c rfl]
    | cons c w ih =>
      have : isSpace c = true := by rcases hw c (.head _) with rfl | rfl <;> decide
      rw [List.cons_append, List.dropWhile_cons, if_pos this]
      exact ih (fun d hd => hw d (.tail _ hd))
  unfold starts
  rcases hl with rfl | rfl
  · rw [List.append_assoc, hdrop _ (by intro c hc; cases hc; decide)]
    have : isSpace ' ' = true := by decide
    simp [this]
  · rw [hdrop _ (by intro c hc; cases hc; decide)]
    simp

theorem upTo_begins (lines : List Text) (n : Nat) (l : Text) (h : lines[n]? = some l) (hb : Begins l) : upTo lines n = n := by
  cases n with
  | zero => rfl
  | succ n =>
    rw [upTo, if_pos]
    rw [List.getD_eq_getElem?_getD, h]
    exact starts_of_begins hb

/-- **C106**: the digest of a function is made of the text of its definition: its decorators, its first line and its body, and
nothing else.  `pre` are the lines in front of the definition, `def_` its lines, `post` those behind it. -/
theorem C106_text (tokens : List Text → List Tok) (pre def_ post : List Text) (l : Text)
    (hfirst : def_.head? = some l) (hl : Begins l) (htok : Definition (tokens (def_ ++ post)) def_.length) :
    getsource tokens (pre ++ def_ ++ post) (pre.length + 1) = def_.flatten := by
  have hnth : (pre ++ def_ ++ post)[pre.length]? = some l := by
    rw [List.append_assoc, List.getElem?_append_right (Nat.le_refl _), Nat.sub_self]
    cases def_ with
    | nil => simp at hfirst
    | cons a d => simpa using hfirst
  unfold getsource
  rw [Nat.add_sub_cancel, upTo_begins _ _ l hnth hl, List.append_assoc, List.drop_left]
  unfold getblock
  rw [feed_definition htok, List.take_left]

/-- a line of a file, with its end -/
def Whole (l : Text) : Prop := ∃ x, '\n' ∉ x ∧ l = x ++ ['\n']

theorem whole_inj {a b : Text} (ha : '\n' ∉ a) (hb : '\n' ∉ b) : ∀ {r r' : Text}, a ++ '\n' :: r = b ++ '\n' :: r' → a = b ∧ r = r' := by
  induction a generalizing b with
  | nil =>
    intro r r' h
    cases b with
    | nil => simpa using h
    | cons c b =>
      simp only [List.nil_append, List.cons_append, List.cons.injEq] at h
      rw [← h.1] at hb
      exact absurd (.head _) hb
  | cons c a ih =>
    intro r r' h
    cases b with
    | nil =>
      simp only [List.nil_append, List.cons_append, List.cons.injEq] at h
      rw [h.1] at ha
      exact absurd (.head _) ha
    | cons d b =>
      simp only [List.cons_append, List.cons.injEq] at h
      obtain ⟨h1, h2⟩ := ih (fun h => ha (.tail _ h)) (fun h => hb (.tail _ h)) h.2
      exact ⟨by rw [h.1, h1], h2⟩

theorem flatten_inj (a : List Text) (ha : ∀ l ∈ a, Whole l) : ∀ b : List Text, (∀ l ∈ b, Whole l) → a.flatten = b.flatten → a = b := by
  induction a with
  | nil =>
    intro b hb h
    cases b with
    | nil => rfl
    | cons l b =>
      obtain ⟨x, _, rfl⟩ := hb l (.head _)
      simp at h
  | cons l a ih =>
    intro b hb h
    obtain ⟨x, hx, rfl⟩ := ha l (.head _)
    cases b with
    | nil => simp at h
    | cons l' b =>
      obtain ⟨y, hy, rfl⟩ := hb l' (.head _)
      simp only [List.flatten_cons, List.append_assoc, List.singleton_append] at h
      obtain ⟨h1, h2⟩ := whole_inj hx hy h
      rw [h1, ih (fun z hz => ha z (.tail _ hz)) b (fun z hz => hb z (.tail _ hz)) h2]

/-- **C106**: between two versions of a file, the text of which the digest is made changes if and only if a line of the definition
was changed, added or removed; where it is in the file and what is around it does not matter. -/
theorem C106_change (tokens : List Text → List Tok) (pre def_ post pre' def' post' : List Text) (l l' : Text)
    (hfirst : def_.head? = some l) (hl : Begins l) (htok : Definition (tokens (def_ ++ post)) def_.length)
    (hfirst' : def'.head? = some l') (hl' : Begins l') (htok' : Definition (tokens (def' ++ post')) def'.length)
    (hw : ∀ x ∈ def_, Whole x) (hw' : ∀ x ∈ def', Whole x) :
    getsource tokens (pre ++ def_ ++ post) (pre.length + 1) = getsource tokens (pre' ++ def' ++ post') (pre'.length + 1) ↔
      def_ = def' := by
  rw [C106_text tokens pre def_ post l hfirst hl htok, C106_text tokens pre' def' post' l' hfirst' hl' htok']
  exact ⟨fun h => flatten_inj _ hw _ hw' h, fun h => by rw [h]⟩

/-! ## Examples -/

/-- a method with a decorator, comments, an `if` and a statement of two lines; another method follows -/
def exDef : List Text := ["    @caches\n".toList, "    def f(ctx, src):\n".toList, "        # c\n".toList, "        if src:\n".toList,
  "            a()\n".toList, "        return b(1,\n".toList, "            2)\n".toList, "        # d\n".toList]
def exPost : List Text := ["    # e\n".toList, "\n".toList, "    def g(): pass\n".toList]

def o (s : String) (row col : Nat) : Tok := { kind := .other, text := s.toList, row := row, col := col }
def k (kind : Kind) (row : Nat) (col : Nat := 0) (ecol : Nat := 0) : Tok := { kind := kind, row := row, col := col, ecol := ecol }

/-- what the tokenizer makes of it -/
def exDecs : List Tok := [k .indent 1 0 4, o "@" 1 4, o "caches" 1 5, k .newline 1 11]
def exHead : List Tok := [o "f" 2 8, o "(" 2 9, o "ctx" 2 10, o "," 2 13, o "src" 2 15, o ")" 2 18, o ":" 2 19, k .newline 2 20]
def exGap : List Tok := [k .comment 3 8, k .nl 3 11]
def exBody : List Tok := [o "if" 4 8, o "src" 4 11, o ":" 4 14, k .newline 4 15] ++ [] ++ k .indent 5 0 12 ::
  [o "a" 5 12, o "(" 5 13, o ")" 5 14, k .newline 5 15] ++ k .dedent 6 8 8 ::
  [o "return" 6 8, o "b" 6 15, o "(" 6 16, o "1" 6 17, o "," 6 18, k .nl 6 19, o "2" 7 12, o ")" 7 13, k .newline 7 14,
    k .comment 8 8, k .nl 8 11, k .comment 9 4, k .nl 9 7, k .nl 10 0]
def exRest : List Tok := [o "def" 11 4, o "g" 11 8, o "(" 11 9, o ")" 11 10, o ":" 11 11, o "pass" 11 13, k .newline 11 17,
  k .dedent 12, o "" 12 0]
def exTokens : List Tok := exDecs ++ o "def" 2 4 :: exHead ++ exGap ++ k .indent 4 0 8 :: exBody ++ k .dedent 11 4 4 :: exRest

theorem plain_of (ts : List Tok) (h : ts.all (fun t => decide (t.kind = .other ∨ t.kind = .nl ∨ t.kind = .comment)) = true) : Plain ts := by
  intro t ht
  simpa using List.all_eq_true.1 h t ht

/-- `C106_text`, `C106_change` -/
theorem exDefinition : Definition exTokens exDef.length := by
  refine .body exDecs exHead exGap exBody exRest (o "def" 2 4) (k .indent 4 0 8) (k .dedent 11 4 4) exDef.length
    ?_ rfl rfl ?_ ?_ rfl ?_ ⟨k .newline 5 15, by decide, rfl⟩ (by decide) rfl
  · refine .gap _ _ (.inr (.inr rfl)) (by decide) (by decide) (by decide) (by decide) ?_
    exact .line (o "@" 1 4) [o "caches" 1 5, k .newline 1 11] [] rfl rfl (.mk [o "caches" 1 5] _ (plain_of _ (by decide)) rfl) .nil
  · exact .mk [o "f" 2 8, o "(" 2 9, o "ctx" 2 10, o "," 2 13, o "src" 2 15, o ")" 2 18, o ":" 2 19] _ (plain_of _ (by decide)) rfl
  · intro t ht
    have : exGap.all (fun t => decide (t.kind = .nl ∨ t.kind = .comment)) = true := by decide
    simpa using List.all_eq_true.1 this t ht
  · refine .block _ _ _ _ _ _ (.mk [o "if" 4 8, o "src" 4 11, o ":" 4 14] _ (plain_of _ (by decide)) rfl) (fun t h => (nomatch h)) rfl
      (.line [o "a" 5 12, o "(" 5 13, o ")" 5 14, k .newline 5 15] [] (.mk [o "a" 5 12, o "(" 5 13, o ")" 5 14] _ (plain_of _ (by decide)) rfl) .nil)
      ⟨k .newline 5 15, by decide, rfl⟩ rfl ?_
    refine .line [o "return" 6 8, o "b" 6 15, o "(" 6 16, o "1" 6 17, o "," 6 18, k .nl 6 19, o "2" 7 12, o ")" 7 13, k .newline 7 14] _
      (.mk [o "return" 6 8, o "b" 6 15, o "(" 6 16, o "1" 6 17, o "," 6 18, k .nl 6 19, o "2" 7 12, o ")" 7 13] _
        (plain_of _ (by decide)) rfl) ?_
    exact .gap _ _ (.inr rfl) (.gap _ _ (.inl rfl) (.gap _ _ (.inr rfl) (.gap _ _ (.inl rfl) (.gap _ _ (.inl rfl) .nil))))

example : getsource (fun _ => exTokens) ("class C:\n".toList :: exDef ++ exPost) 2 = exDef.flatten :=
  C106_text (fun _ => exTokens) ["class C:\n".toList] exDef exPost _ rfl
    ⟨"    ".toList, "caches\n".toList, by decide, .inr (by decide)⟩ exDefinition

/-- a definition of one line -/
example : Definition ([] ++ o "def" 1 0 :: ([o "g" 1 4, o "(" 1 5, o ")" 1 6, o ":" 1 7, o "pass" 1 9] ++ [k .newline 1 13]) ++ [] ++
    o "x" 2 0 :: []) 1 :=
  .oneLine [] _ [] [] (o "def" 1 0) (k .newline 1 13) (o "x" 2 0) .nil rfl rfl (plain_of _ (by decide)) rfl
    (fun t h => (nomatch h)) (.inl rfl)

/-- a line with `lambda` in it -/
def HasLambda (l : Text) : Prop := ∃ a b c, l = a ++ "lambda".toList ++ c :: b ∧ (c = ':' ∨ c = ' ') ∧ ∀ x ∈ a.getLast?, x = ' ' ∨ x = '(' ∨ x = '='

theorem hasLambda_of (b : Text) (c : Char) (hc : c = ':' ∨ c = ' ') : ∀ (a : Text) (prev : Option Char),
    (∀ x, (prev.toList ++ a).getLast? = some x → isWord x = false) → hasLambda prev (a ++ "lambda".toList ++ c :: b) = true := by
  intro a
  induction a with
  | nil =>
    intro prev hp
    have hcs : (decide (c = ':') || isSpace c) = true := by rcases hc with rfl | rfl <;> decide
    have hw : prev.any isWord = false := by
      cases prev with
      | none => rfl
      | some x => simpa using hp x (by simp)
    rw [List.nil_append, show "lambda".toList ++ c :: b = 'l' :: ('a' :: 'm' :: 'b' :: 'd' :: 'a' :: c :: b) from rfl, hasLambda]
    simp only [hcs, hw]
    simp
  | cons d a ih =>
    intro prev hp
    rw [List.cons_append, List.cons_append, hasLambda, ih (some d) (by
      intro x hx
      refine hp x ?_
      rw [List.getLast?_append, show d :: a = (some d).toList ++ a from rfl, hx]
      rfl)]
    simp

theorem starts_of_lambda {l : Text} (h : HasLambda l) : starts l = true := by
  obtain ⟨a, b, c, rfl, hc, ha⟩ := h
  unfold starts
  rw [hasLambda_of b c hc a none (by
    intro x hx
    rcases ha x (by simpa using hx) with rfl | rfl | rfl <;> decide)]
  simp

theorem feed_lambda (ts : List Tok) (hp : Plain ts) (e : Tok) (he : e.kind = .newline) (rest : List Tok) : ∀ (s : Finder),
    s.started = true → s.islambda = true → s.passline = true → (feed s (ts ++ e :: rest)).last = e.row := by
  induction ts with
  | nil =>
    intro s h1 h2 h3
    have : eat s e = ({ s with passline := false, last := e.row }, true) := by
      unfold eat
      simp [h1, h2, he]
    rw [List.nil_append, feed_stop _ this]
  | cons t ts ih =>
    intro s h1 h2 h3
    have hne : t.kind ≠ .newline := by rcases hp t (.head _) with h | h | h <;> rw [h] <;> decide
    have : eat s t = (s, false) := by
      unfold eat
      simp [h1, h3, hne]
    rw [List.cons_append, feed_cons _ this]
    exact ih (fun x hx => hp x (.tail _ hx)) s h1 h2 h3

theorem feed_before (ts : List Tok) (hp : ∀ t ∈ ts, t.text ≠ ['@'] ∧ t.text ≠ "def".toList ∧ t.text ≠ "class".toList ∧
    t.text ≠ "lambda".toList) (rest : List Tok) : ∀ s : Finder, Out s → ∃ s', Out s' ∧ feed s (ts ++ rest) = feed s' rest := by
  induction ts with
  | nil => intro s hs; exact ⟨s, hs, rfl⟩
  | cons t ts ih =>
    intro s hs
    obtain ⟨h1, h2, h3, h4⟩ := hp t (.head _)
    have he : eat s t = ({ s with passline := true }, false) := by
      unfold eat
      have h2 : t.text ≠ ['d', 'e', 'f'] := h2
      have h3 : t.text ≠ ['c', 'l', 'a', 's', 's'] := h3
      have h4 : t.text ≠ ['l', 'a', 'm', 'b', 'd', 'a'] := h4
      simp [hs.1, hs.2.2.1, h1, h2, h3, h4]
    rw [List.cons_append, feed_cons _ he]
    exact ih (fun x hx => hp x (.tail _ hx)) _ hs

/-- **C107**: the digest of a `lambda` is made of the lines of the statement from the one with the `lambda` on.
Partial: for the tokenizer, which begins in that line, the logical line has to end where the statement ends; it does not if a bracket
in front of that line is open and the expression continues in another line (`C107_violated`). -/
theorem C107_partial (tokens : List Text → List Tok) (pre stmt post : List Text) (l : Text)
    (hfirst : stmt.head? = some l) (hl : HasLambda l) (before inside rest : List Tok) (w e : Tok)
    (htok : tokens (stmt ++ post) = before ++ w :: (inside ++ e :: rest))
    (hb : ∀ t ∈ before, t.text ≠ ['@'] ∧ t.text ≠ "def".toList ∧ t.text ≠ "class".toList ∧ t.text ≠ "lambda".toList)
    (hw : w.text = "lambda".toList) (hin : Plain inside) (he : e.kind = .newline) (hend : e.row = stmt.length) :
    getsource tokens (pre ++ stmt ++ post) (pre.length + 1) = stmt.flatten := by
  have hnth : (pre ++ stmt ++ post)[pre.length]? = some l := by
    rw [List.append_assoc, List.getElem?_append_right (Nat.le_refl _), Nat.sub_self]
    cases stmt with
    | nil => simp at hfirst
    | cons a d => simpa using hfirst
  have hup : upTo (pre ++ stmt ++ post) pre.length = pre.length := by
    cases hn : pre.length with
    | zero => rfl
    | succ n =>
      rw [hn] at hnth
      rw [upTo, if_pos]
      rw [List.getD_eq_getElem?_getD, hnth]
      exact starts_of_lambda hl
  unfold getsource
  rw [Nat.add_sub_cancel, hup, List.append_assoc, List.drop_left]
  unfold getblock
  obtain ⟨s, hs, hf⟩ := feed_before before hb (w :: (inside ++ e :: rest)) {} ⟨rfl, rfl, rfl, rfl, rfl⟩
  have hwe : eat s w = ({ s with islambda := true, started := true, passline := true }, false) := by
    have hw : w.text = ['l', 'a', 'm', 'b', 'd', 'a'] := hw
    unfold eat
    simp [hs.1, hs.2.2.1, hw]
  rw [htok, hf, feed_cons _ hwe, feed_lambda inside hin e he rest _ rfl rfl rfl, hend, List.take_left]

/-- `C107_partial`: `x = run(lambda ctx:⏎  a(ctx))⏎` -/
example : HasLambda "x = run(lambda ctx:\n".toList ∧
    getsource (fun _ => [o "x" 1 0, o "=" 1 2, o "run" 1 4, o "(" 1 7] ++ o "lambda" 1 8 :: ([o "ctx" 1 15, o ":" 1 18, k .nl 1 19,
      o "a" 2 2, o "(" 2 3, o "ctx" 2 4, o ")" 2 7, o ")" 2 8] ++ k .newline 2 9 :: []))
      ["x = run(lambda ctx:\n".toList, "  a(ctx))\n".toList] 1 = "x = run(lambda ctx:\n  a(ctx))\n".toList := by
  have h : HasLambda "x = run(lambda ctx:\n".toList := ⟨"x = run(".toList, "ctx:\n".toList, ' ', by decide, .inr rfl, by decide⟩
  exact ⟨h, C107_partial _ [] ["x = run(lambda ctx:\n".toList, "  a(ctx))\n".toList] [] _ rfl h _ _ _ _ _ rfl (by decide) rfl
    (plain_of _ (by decide)) rfl rfl⟩

/-- what the tokenizer makes of `  lambda ctx:⏎    a(ctx))⏎`, the lines of an expression from the `lambda` on; `f` is the name in the
second line -/
def lambdaTokens (f : String) : List Tok := [k .indent 1 0 2, o "lambda" 1 2, o "ctx" 1 9, o ":" 1 12, k .newline 1 13,
  k .indent 2 0 4, o f 2 4, o "(" 2 5, o "ctx" 2 6, o ")" 2 9, o ")" 2 10, k .newline 2 11]

def lambdaLines (f : String) : List Text :=
  ["x = run(1,\n".toList, "  lambda ctx:\n".toList, "    ".toList ++ f.toList ++ "(ctx))\n".toList]

/-- **C107**, violated for a `lambda` whose expression begins in another line, inside brackets that were opened in front of it: its text
ends with its first line, so that an edit of the expression is not noticed. -/
theorem C107_violated : lambdaLines "a" ≠ lambdaLines "b" ∧
    getsource (fun _ => lambdaTokens "a") (lambdaLines "a") 2 = getsource (fun _ => lambdaTokens "b") (lambdaLines "b") 2 := by
  refine ⟨?_, ?_⟩ <;> decide +kernel

/-! ## C106 and the version of Python -/

/-- **C106**: the digest is made of the text of the definition.  Partial: with a Python whose `inspect` has no `__all__`, up to 3.10
(`C106_python_violated`). -/
theorem C106_partial (p : Python) (hp : p.all = none) (hre : "re".toList ∈ p.globals) (hgb : "getblock".toList ∈ p.globals)
    (tokens : List Text → List Tok) (pre def_ post : List Text) (l : Text)
    (hfirst : def_.head? = some l) (hl : Begins l) (htok : Definition (tokens (def_ ++ post)) def_.length) :
    digestText p tokens (pre ++ def_ ++ post) (pre.length + 1) = some def_.flatten := by
  have h : "re".toList ∈ p.names ∧ "getblock".toList ∈ p.names := by
    unfold Python.names
    rw [hp]
    exact ⟨List.mem_filter.2 ⟨hre, by decide⟩, List.mem_filter.2 ⟨hgb, by decide⟩⟩
  unfold digestText
  rw [if_pos h, C106_text tokens pre def_ post l hfirst hl htok]

/-- **C106** fails: with a Python whose `inspect` has an `__all__` without `re`, as from 3.11 on, no function has a digest. -/
theorem C106_python_violated (p : Python) (a : List Text) (hp : p.all = some a) (hre : "re".toList ∉ a)
    (tokens : List Text → List Tok) (lines : List Text) (first : Nat) : digestText p tokens lines first = none := by
  unfold digestText Python.names
  rw [hp, if_neg]
  exact fun h => hre (List.mem_filter.1 h.1).1

/-- some names of `inspect` without and with `__all__` -/
example : (⟨["re".toList, "getblock".toList, "_empty".toList], none⟩ : Python).names = ["re".toList, "getblock".toList] ∧
    (⟨["re".toList, "getblock".toList, "_empty".toList], some ["getblock".toList]⟩ : Python).names = ["getblock".toList] := by
  decide +kernel

end Verif.Source
