/-!
# Shell patterns

What a pattern means, independently of the code: the parts of a pattern, how they are written, and which
names they match.
-/
namespace Verif.Fnmatch

/-- A part of a pattern. -/
inductive Elem where
  /-- a character that stands for itself -/
  | lit (c : Char)
  /-- `?` -/
  | any
  /-- `*` -/
  | star
  /-- `[seq]`, and `[!seq]` if `neg` -/
  | cls (neg : Bool) (seq : List Char)
  /-- `{pat1,pat2,...}` -/
  | alts (ps : List (List Elem))

/-- The ranges written in `[seq]`; a single character is a range. -/
def ranges : List Char → List (Char × Char)
  | a :: '-' :: b :: r => (a, b) :: ranges r
  | a :: r => (a, a) :: ranges r
  | [] => []

/-- `c` is one of the characters of `seq` -/
def inSeq (seq : List Char) (c : Char) : Bool :=
  (ranges seq).any (fun r => decide (r.1 ≤ c) && decide (c ≤ r.2))

/-- The names a pattern matches. -/
inductive Matches : List Elem → List Char → Prop
  | nil : Matches [] []
  | lit {c : Char} {es s} : Matches es s → Matches (.lit c :: es) (c :: s)
  | any {c : Char} {es s} : Matches es s → Matches (.any :: es) (c :: s)
  | star {u : List Char} {es s} : Matches es s → Matches (.star :: es) (u ++ s)
  | cls {neg : Bool} {seq : List Char} {c : Char} {es s} : inSeq seq c ≠ neg → Matches es s →
      Matches (.cls neg seq :: es) (c :: s)
  | alts {ps : List (List Elem)} {p : List Elem} {u : List Char} {es s} : p ∈ ps → Matches p u →
      Matches es s → Matches (.alts ps :: es) (u ++ s)

/-! ## How patterns are written -/

mutual
/-- the text of a pattern -/
def render : List Elem → List Char
  | [] => []
  | .lit c :: es => c :: render es
  | .any :: es => '?' :: render es
  | .star :: es => '*' :: render es
  | .cls neg seq :: es => '[' :: (if neg then ['!'] else []) ++ seq ++ ']' :: render es
  | .alts ps :: es => '{' :: renderAlts ps ++ render es
/-- alternatives and the closing brace -/
def renderAlts : List (List Elem) → List Char
  | [] => ['}']
  | [p] => render p ++ ['}']
  | p :: ps => render p ++ ',' :: renderAlts ps
end

/-- `seq` can stand in brackets: it is not empty, it has `]` only in front, and without `!` it does not
start with `!` -/
def SeqOk (neg : Bool) : List Char → Prop
  | [] => False
  | c :: r => ']' ∉ r ∧ (neg = false → c ≠ '!')

/-- the ranges of `seq` are not reversed -/
def RangesOk (seq : List Char) : Prop := ∀ r ∈ ranges seq, r.1 ≤ r.2

mutual
/-- The pattern can be written: the characters that stand for themselves are not special; `inner` is true
between braces. -/
def Writable : Bool → List Elem → Prop
  | _, [] => True
  | inner, .lit c :: es => c ∉ ['*', '?', '[', '{'] ∧ (inner = true → c ∉ [',', '}']) ∧ Writable inner es
  | inner, .any :: es => Writable inner es
  | inner, .star :: es => Writable inner es
  | inner, .cls neg seq :: es => SeqOk neg seq ∧ Writable inner es
  | inner, .alts ps :: es => ps ≠ [] ∧ WritableAlts ps ∧ Writable inner es
def WritableAlts : List (List Elem) → Prop
  | [] => True
  | p :: ps => Writable true p ∧ WritableAlts ps
end

mutual
/-- no range in the pattern is reversed -/
def Sound : List Elem → Prop
  | [] => True
  | .cls _ seq :: es => RangesOk seq ∧ Sound es
  | .alts ps :: es => SoundAlts ps ∧ Sound es
  | _ :: es => Sound es
def SoundAlts : List (List Elem) → Prop
  | [] => True
  | p :: ps => Sound p ∧ SoundAlts ps
end

/-! ## Reading any text as a pattern

`[` without a closing bracket and `{` without a closing brace stand for themselves. -/

/-- the text in front of the first `]` and what follows it -/
def upTo : List Char → Option (List Char × List Char)
  | [] => none
  | c :: r => if c = ']' then some ([], r) else (upTo r).map (fun x => (c :: x.1, x.2))

/-- after `[`: the text up to the closing bracket and what follows; `!` and `]` in front do not close -/
def bracket : List Char → Option (List Char × List Char)
  | '!' :: c :: r => (upTo r).map (fun x => ('!' :: c :: x.1, x.2))
  | c :: r => (upTo r).map (fun x => (c :: x.1, x.2))
  | [] => none

/-- what is written in brackets -/
def readSeq : List Char → Elem
  | '!' :: seq => .cls true seq
  | seq => .cls false seq

/-- the parts of an unclosed brace -/
def commas : List (List Elem) → List Elem
  | [] => []
  | [p] => p
  | p :: ps => p ++ .lit ',' :: commas ps

mutual
/-- Read a pattern; inside braces it ends at `,` or `}`. Returns also the rest of the text. -/
def read : Nat → Bool → List Char → List Elem × List Char
  | 0, _, _ => ([], [])
  | _ + 1, _, [] => ([], [])
  | n + 1, inner, c :: cs =>
    if inner = true ∧ (c = ',' ∨ c = '}') then ([], c :: cs)
    else if c = '*' then ((.star :: (read n inner cs).1), (read n inner cs).2)
    else if c = '?' then ((.any :: (read n inner cs).1), (read n inner cs).2)
    else if c = '[' then
      match bracket cs with
      | none => ((.lit '[' :: (read n inner cs).1), (read n inner cs).2)
      | some (stuff, after) => ((readSeq stuff :: (read n inner after).1), (read n inner after).2)
    else if c = '{' then
      match readAlts n cs with
      | (ps, some after) => ((.alts ps :: (read n inner after).1), (read n inner after).2)
      | (ps, none) => (.lit '{' :: commas ps, [])
    else ((.lit c :: (read n inner cs).1), (read n inner cs).2)
/-- Read alternatives up to the closing brace; `none` if there is none. -/
def readAlts : Nat → List Char → List (List Elem) × Option (List Char)
  | 0, _ => ([], none)
  | n + 1, cs =>
    match read n true cs with
    | (p, []) => ([p], none)
    | (p, c :: after) =>
      if c = ',' then (p :: (readAlts n after).1, (readAlts n after).2)
      else ([p], some after)
end

/-- the pattern a text stands for -/
def pattern (cs : List Char) : List Elem := (read (2 * cs.length + 1) false cs).1

end Verif.Fnmatch
