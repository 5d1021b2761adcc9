/-!
# Model of `lib/fbuild/builders/text.py`

`substitute`, `autoconf_config_file` and `autoconf_config_header`; texts are lists of characters.  `regex_substitute` is in `Regex.lean`.
Not modelled: creating the directory of the destination
and the log line.  Python's `\w` is a parameter.  A Python with `collections.Iterable` is assumed (before 3.10).
-/
namespace Verif.Text

abbrev Text := List Char

/-- Reading a file opened with `open(src, 'r')` (text.py:22, 111, 172): universal newlines. -/
def readText : Text → Text
  | [] => []
  | '\r' :: '\n' :: r => '\n' :: readText r
  | '\r' :: r => '\n' :: readText r
  | c :: r => c :: readText r

/-- The values in `patterns`: strings, bools, other iterables (the `str` of the elements), and anything else by its `str` and
its truth value. -/
inductive Val where
  | str (s : Text)
  | bool (b : Bool)
  | iter (l : List Text)
  | other (s : Text) (truthy : Bool)
  deriving DecidableEq

/-- `' '.join(l)` -/
def joinSpace : List Text → Text
  | [] => []
  | [a] => a
  | a :: l => a ++ ' ' :: joinSpace l

/-- the text for `@name@` (text.py:104-109, 143-148) -/
def Val.text : Val → Text
  | .str s => s
  | .bool b => if b then "True".toList else "False".toList
  | .iter l => joinSpace l
  | .other s _ => s

/-- the text after `#define name`, `none` if the value counts as false (text.py:160-170) -/
def Val.define : Val → Option Text
  | .str s => if s.isEmpty then none else some s
  | .bool b => if b then some ['1'] else none
  | .iter l => if (joinSpace l).isEmpty then none else some (joinSpace l)
  | .other s t => if t then some s else none

/-- the dictionary `patterns` -/
abbrev Defs := Text → Option Val

/-- A piece of a template: a character, `@name@`, or a line `#undef name` with `k + 1` blanks. -/
inductive Piece where
  | char (c : Char)
  | sub (name : Text)
  | undef (k : Nat) (name : Text)
  deriving DecidableEq

section
variable (w : Char → Bool)

/-- `@(\w+)@` at the start of the text: the name and what follows.  `\w+` takes all word characters; giving some back does not
help, since `@` is not one. -/
def matchSub : Text → Option (Text × Text)
  | '@' :: r =>
    match r.dropWhile w with
    | '@' :: rest => if (r.takeWhile w).isEmpty then none else some (r.takeWhile w, rest)
    | _ => none
  | _ => none

/-- `^#undef +(\w+)$` with `re.M` at the start of a line: the blanks after the first, the name, and what follows -/
def matchUndef : Text → Option (Nat × Text × Text)
  | '#' :: 'u' :: 'n' :: 'd' :: 'e' :: 'f' :: ' ' :: r =>
    let r1 := r.dropWhile (· == ' ')
    let name := r1.takeWhile w
    let rest := r1.dropWhile w
    if name.isEmpty then none
    else match rest with
      | [] => some ((r.takeWhile (· == ' ')).length, name, [])
      | '\n' :: rest => some ((r.takeWhile (· == ' ')).length, name, '\n' :: rest)
      | _ => none
  | _ => none

/-- The pattern at the current position (text.py:114, 175); `header`: with the alternative `#undef`; `bol`: at the beginning of
a line. -/
def matchAt (header bol : Bool) (t : Text) : Option (Piece × Text) :=
  match if header && bol then matchUndef w t else none with
  | some (k, name, rest) => some (.undef k name, rest)
  | none =>
    match matchSub w t with
    | some (name, rest) => some (.sub name, rest)
    | none => none

/-- `re.sub`: the matches from left to right, and the characters between them; the number bounds the length -/
def scan (header : Bool) : Nat → Bool → Text → List Piece
  | 0, _, _ => []
  | _, _, [] => []
  | n + 1, bol, c :: r =>
    match matchAt w header bol (c :: r) with
    | some (p, rest) => p :: scan header n false rest
    | none => .char c :: scan header n (c == '\n') r

def pieces (header : Bool) (t : Text) : List Piece := scan w header t.length true t

inductive Err where
  | key (name : Text)
  | missing (names : List Text)
  deriving DecidableEq

/-- `replace` for one match of `autoconf_config_file` (text.py:103-109) -/
def replaceSub (defs : Defs) (name : Text) : Except Err Text :=
  match defs name with
  | some v => .ok v.text
  | none => .error (.key name)

/-- `replace` for a `#undef` (text.py:150-170): the text, and the key if it has no definition -/
def replaceUndef (defs : Defs) (name : Text) : Text × List Text :=
  match defs name with
  | some v =>
    match v.define with
    | some s => ("#define ".toList ++ name ++ ' ' :: s, [])
    | none => ("/* #undef ".toList ++ name ++ " */".toList, [])
  | none => ("/* #undef ".toList ++ name ++ " */".toList, [name])

/-- the text put together, and `missing_definitions`; an exception in `replace` ends it -/
def replaceAll (defs : Defs) : List Piece → Except Err (Text × List Text)
  | [] => .ok ([], [])
  | .char c :: ps =>
    match replaceAll defs ps with
    | .ok (t, miss) => .ok (c :: t, miss)
    | .error e => .error e
  | .sub name :: ps =>
    match replaceSub defs name with
    | .error e => .error e
    | .ok s =>
      match replaceAll defs ps with
      | .ok (t, miss) => .ok (s ++ t, miss)
      | .error e => .error e
  | .undef _ name :: ps =>
    match replaceAll defs ps with
    | .ok (t, miss) => .ok ((replaceUndef defs name).1 ++ t, (replaceUndef defs name).2 ++ miss)
    | .error e => .error e

abbrev Files := String → Option Text

def Files.set (fs : Files) (x : String) (t : Text) : Files := fun y => if y = x then some t else fs y

/-- `autoconf_config_file` (text.py:90-119): the file written, or the exception -/
def configFile (defs : Defs) (dst : String) (code : Text) (fs : Files) : Except Err String × Files :=
  match replaceAll defs (pieces w false (readText code)) with
  | .ok (t, _) => (.ok dst, fs.set dst t)
  | .error e => (.error e, fs)

/-- `autoconf_config_header` (text.py:124-185) -/
def configHeader (defs : Defs) (dst : String) (code : Text) (fs : Files) : Except Err String × Files :=
  match replaceAll defs (pieces w true (readText code)) with
  | .ok (t, []) => (.ok dst, fs.set dst t)
  | .ok (_, miss) => (.error (.missing miss), fs)
  | .error e => (.error e, fs)

end

/-- `code.replace(pattern, text)` for a non-empty pattern: the number bounds the length -/
def replaceFrom (pat text : Text) : Nat → Text → Text
  | 0, t => t
  | _, [] => []
  | n + 1, c :: r =>
    if pat.isPrefixOf (c :: r) then text ++ replaceFrom pat text n ((c :: r).drop pat.length)
    else c :: replaceFrom pat text n r

/-- `str.replace`: an empty pattern matches between all characters -/
def replaceStr (pat text code : Text) : Text :=
  if pat.isEmpty then text ++ code.flatMap (fun c => c :: text) else replaceFrom pat text code.length code

/-- `substitute` (text.py:10-30); the patterns in the order of the dictionary -/
def substitute (patterns : List (Text × Text)) (dst : String) (code : Text) (fs : Files) : Files :=
  fs.set dst (patterns.foldl (fun c p => replaceStr p.1 p.2 c) (readText code))

end Verif.Text
