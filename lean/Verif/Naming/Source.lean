/-!
# The source text of a cached function

Model of `getsource`, `getsourcelines` and of `findsource` for functions in `lib/fbuild/inspect.py` (44-61, 64-85), which
`_digest_function` (lib/fbuild/db/database.py:278-291) uses, with `getblock` and `BlockFinder` of CPython 3.11
(inspect.py:1166-1229).  The tokenizer is a parameter.  Simplified: `\s` and `\w` for ASCII only.  Left out: classes and
modules, which `_digest_function` never asks for, and a tokenizer that raises `TokenError`.
-/
namespace Verif.Source

abbrev Text := List Char

/-! ## Tokens -/

/-- the types of tokens that `BlockFinder` tells apart -/
inductive Kind where
  | newline | nl | indent | dedent | comment | other
  deriving DecidableEq, Repr

/-- a token: type, text, row and column of its start, column of its end -/
structure Tok where
  kind : Kind
  text : Text := []
  row : Nat
  col : Nat := 0
  ecol : Nat := 0
  deriving DecidableEq, Repr

/-- `BlockFinder` (inspect.py:1166-1175) -/
structure Finder where
  indent : Int := 0
  islambda : Bool := false
  started : Bool := false
  passline : Bool := false
  indecorator : Bool := false
  last : Nat := 1
  body : Option Nat := none
  deriving DecidableEq, Repr

/-- `tokeneater` (inspect.py:1177-1218); `true` if it raises `EndOfBlock` -/
def eat (s : Finder) (t : Tok) : Finder × Bool :=
  if !s.started && !s.indecorator then
    if t.text = ['@'] then ({ s with indecorator := true, passline := true }, false)
    else if t.text = ['d', 'e', 'f'] ∨ t.text = ['c', 'l', 'a', 's', 's'] then
      ({ s with started := true, passline := true }, false)
    else if t.text = ['l', 'a', 'm', 'b', 'd', 'a'] then
      ({ s with islambda := true, started := true, passline := true }, false)
    else ({ s with passline := true }, false)
  else if t.kind = .newline then
    let s := { s with passline := false, last := t.row }
    if s.islambda then (s, true)
    else ({ s with indecorator := false }, false)
  else if s.passline then (s, false)
  else if t.kind = .indent then
    let s := if s.body = none ∧ s.started then { s with body := some t.ecol } else s
    ({ s with indent := s.indent + 1, passline := true }, false)
  else if t.kind = .dedent then
    let s := { s with indent := s.indent - 1 }
    (s, decide (s.indent ≤ 0))
  else if t.kind = .comment then
    match s.body with
    | some c => if c ≤ t.col then ({ s with last := t.row }, false) else (s, false)
    | none => (s, false)
  else (s, decide (s.indent = 0 ∧ t.kind ≠ .nl))

/-- the tokens up to the end of the block -/
def feed (s : Finder) : List Tok → Finder
  | [] => s
  | t :: ts => match eat s t with
    | (s, true) => s
    | (s, false) => feed s ts

/-- `getblock` (inspect.py:1220-1229) -/
def getblock (tokens : List Text → List Tok) (lines : List Text) : List Text :=
  lines.take (feed {} (tokens lines)).last

/-! ## Lines -/

/-- `\s`, ASCII -/
def isSpace (c : Char) : Bool := c = ' ' || c = '\t' || c = '\n' || c = '\r' || c = '\x0b' || c = '\x0c'

/-- `\w`, ASCII -/
def isWord (c : Char) : Bool := c.isAlphanum || c = '_'

/-- `.*(?<!\w)lambda(:|\s)`; `prev` is the character in front -/
def hasLambda : Option Char → Text → Bool
  | _, [] => false
  | prev, c :: s =>
    (match c :: s with
      | 'l' :: 'a' :: 'm' :: 'b' :: 'd' :: 'a' :: d :: _ => (d = ':' || isSpace d) && !(prev.any isWord)
      | _ => false) || hasLambda (some c) s

/-- `pat.match(line)` for `^(\s*def\s)|(.*(?<!\w)lambda(:|\s))|^(\s*@)` (inspect.py:56) -/
def starts (line : Text) : Bool :=
  (match line.dropWhile isSpace with
    | 'd' :: 'e' :: 'f' :: d :: _ => isSpace d
    | '@' :: _ => true
    | _ => false) || hasLambda none line

/-- `while lnum > 0: if pat.match(lines[lnum]): break; lnum = lnum - 1` (inspect.py:57-59) -/
def upTo (lines : List Text) : Nat → Nat
  | 0 => 0
  | n + 1 => if starts (lines.getD (n + 1) []) then n + 1 else upTo lines n

/-- `getsource(function)` (inspect.py:64-85): the text of the lines of the file, of which the first one of the function has the number
`first` (`co_firstlineno`) -/
def getsource (tokens : List Text → List Tok) (lines : List Text) (first : Nat) : Text :=
  (getblock tokens (lines.drop (upTo lines (first - 1)))).flatten

/-- the module `inspect` of a Python: its names, and `__all__`, which it has from CPython 3.11 on -/
structure Python where
  globals : List Text
  all : Option (List Text)

/-- `from inspect import *` (inspect.py:1): the names in `__all__`, or else those that do not begin with `_` -/
def Python.names (p : Python) : List Text :=
  match p.all with
  | some a => a.filter (· ∈ p.globals)
  | none => p.globals.filter fun n => n.head? ≠ some '_'

/-- The text of which `_digest_function` makes the digest (lib/fbuild/db/database.py:278-291); `none` is a `NameError`: `findsource` uses `re`
(inspect.py:56) and `getsourcelines` uses `getblock` (inspect.py:76), which are not imported but by line 1. -/
def digestText (p : Python) (tokens : List Text → List Tok) (lines : List Text) (first : Nat) : Option Text :=
  if "re".toList ∈ p.names ∧ "getblock".toList ∈ p.names then some (getsource tokens lines first) else none

end Verif.Source
