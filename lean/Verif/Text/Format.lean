import Verif.Text.Core
/-!
# `format_substitute` of `lib/fbuild/builders/text.py`

`str.format(**patterns)` is part of the library of Python; it is modelled by what CPython does (`MarkupIterator_next`, `parse_field`,
`output_markup` of `stringlib/unicode_format.h`).  What depends on the classes of the values is a parameter: attributes and
items, conversions, and `format(value, spec)`.
-/
namespace Verif.Text

/-- a piece of a format string -/
inductive FPiece where
  | char (c : Char)
  /-- a field: what stands before `!` and `:`, the character after `!`, and what stands after `:` -/
  | field (name : Text) (conv : Option Char) (spec : Text)
  deriving DecidableEq

/-- The name of a field ends at `}`, `:` or `!`, but not between brackets.  The flag says whether a bracket is open. -/
def takeName : Bool → Text → Option (Text × Char × Text)
  | _, [] => none
  | true, c :: r => (takeName (c != ']') r).map fun x => (c :: x.1, x.2)
  | false, c :: r =>
    if c = '{' then none
    else if c = '}' ∨ c = ':' ∨ c = '!' then some ([], c, r)
    else (takeName (c == '[') r).map fun x => (c :: x.1, x.2)

/-- The text after `:` ends at the brace that closes the field; the number counts open braces. -/
def takeSpec : Nat → Text → Option (Text × Text)
  | _, [] => none
  | n, c :: r =>
    if c = '}' then
      match n with
      | 0 => some ([], r)
      | n + 1 => (takeSpec n r).map fun x => (c :: x.1, x.2)
    else (takeSpec (if c = '{' then n + 1 else n) r).map fun x => (c :: x.1, x.2)

/-- `parse_field`, after the opening brace: the field and what follows; `none` is a `ValueError`. -/
def takeField (t : Text) : Option (FPiece × Text) :=
  match takeName false t with
  | none => none
  | some (name, '}', r) => some (.field name none [], r)
  | some (name, ':', r) => (takeSpec 0 r).map fun x => (.field name none x.1, x.2)
  | some (name, _, r) =>
    match r with
    | conv :: '}' :: r => some (.field name (some conv) [], r)
    | conv :: ':' :: r => (takeSpec 0 r).map fun x => (.field name (some conv) x.1, x.2)
    | _ => none

/-- `MarkupIterator_next`, one character of literal text at a time: the piece and what follows; `none` is a `ValueError`. -/
def fnext : Text → Option (FPiece × Text)
  | [] => none
  | c :: r =>
    if c = '{' then if r.head? = some '{' then some (.char '{', r.tail) else takeField r
    else if c = '}' then if r.head? = some '}' then some (.char '}', r.tail) else none
    else some (.char c, r)

/-- `do_markup`: the pieces, and whether the end was reached without a `ValueError`.  The number bounds the length. -/
def fscan : Nat → Text → List FPiece × Bool
  | _, [] => ([], true)
  | 0, _ :: _ => ([], false)
  | n + 1, c :: t =>
    match fnext (c :: t) with
    | none => ([], false)
    | some (p, r) => (p :: (fscan n r).1, (fscan n r).2)

inductive FErr where
  /-- braces that do not match, or braces nested too deep -/
  | value
  /-- a field with a number or without a name: there are no positional arguments -/
  | index
  | key (name : Text)
  /-- what the classes of the values raise -/
  | other (n : Nat)
  deriving DecidableEq

/-- What depends on the values: `patterns`, attributes and items, `!r` and the like, `format(value, spec)`; and which characters are
decimal digits. -/
structure FEnv (V : Type) where
  patterns : Text → Option V
  attr : V → Text → Except FErr V
  conv : V → Char → Except FErr V
  render : V → Text → Except FErr Text
  digit : Char → Bool

variable {V : Type}

/-- `get_field_object`: the first part of the name is a key of `patterns`. -/
def FEnv.get (e : FEnv V) (name : Text) : Except FErr V :=
  let first := name.takeWhile fun c => c != '.' && c != '['
  let rest := name.dropWhile fun c => c != '.' && c != '['
  if first.all e.digit then .error .index
  else match e.patterns first with
    | none => .error (.key first)
    | some v => if rest.isEmpty then .ok v else e.attr v rest

/-- `do_conversion`, if there is a conversion -/
def FEnv.convert (e : FEnv V) (v : V) : Option Char → Except FErr V
  | none => .ok v
  | some c => e.conv v c

/-- `output_markup` for one field; `expand` formats the text after `:`, if there is a brace in it. -/
def FEnv.field (e : FEnv V) (expand : Text → Except FErr Text) (name : Text) (conv : Option Char) (spec : Text) :
    Except FErr Text := do
  let v ← e.get name
  let v ← e.convert v conv
  let s ← (if spec.contains '{' then expand else .ok) spec
  e.render v s

/-- the pieces, one after another -/
def FEnv.output (e : FEnv V) (expand : Text → Except FErr Text) : List FPiece → Bool → Except FErr Text
  | [], true => .ok []
  | [], false => .error .value
  | .char c :: ps, b => do
    let o ← e.output expand ps b
    .ok (c :: o)
  | .field name conv spec :: ps, b => do
    let v ← e.field expand name conv spec
    let o ← e.output expand ps b
    .ok (v ++ o)

/-- `build_string`: the number bounds the depth of fields in fields -/
def FEnv.build (e : FEnv V) : Nat → Text → Except FErr Text
  | 0, _ => .error .value
  | d + 1, t => e.output (e.build d) (fscan t.length t).1 (fscan t.length t).2

/-- `format_substitute` (text.py:64-83): `str.format` starts with depth 2; the file is opened after the text was made. -/
def formatSubstitute (e : FEnv V) (dst : String) (code : Text) (fs : Files) : Except FErr String × Files :=
  match e.build 2 (readText code) with
  | .ok t => (.ok dst, fs.set dst t)
  | .error x => (.error x, fs)

end Verif.Text
