import Verif.Fnmatch.Spec
/-!
# Model of `lib/fbuild/fnmatch.py`

`translate` builds the text of a regular expression as the code does.  The module `re` of Python is
modelled for the regular expressions that occur: `parseSeq` follows `_parse` of Python's regular
expression parser (the syntax that is not needed makes it fail), `Run` says what a compiled expression
matches.

Not modelled: patterns of type `bytes` (they are translated in the same way), `os.path.normcase` (the
identity on POSIX), the cache of compiled patterns, limits of `re` on the number of groups and on
recursion.
-/
namespace Verif.Fnmatch

/-! ## fnmatch.py -/

/-- `re.escape` of one character (Python 3.7 and later) -/
def reEscape (c : Char) : List Char :=
  if c ∈ "()[]{}?*+-|^$\\.&~# \t\n\r\x0b\x0c".toList then ['\\', c] else [c]

/-- `j - i` after the search for the closing bracket (fnmatch.py:103-109); `cs` is `pat[i:]` -/
def bracketEnd (cs : List Char) : Nat :=
  let j := if cs[0]? = some '!' then 1 else 0
  let j := if cs[j]? = some ']' then j + 1 else j
  j + ((cs.drop j).takeWhile (fun c => c ≠ ']')).length

/-- the text put in brackets (fnmatch.py:113-119) -/
def stuffText (stuff : List Char) : List Char :=
  match stuff.flatMap (fun c => if c = '\\' then ['\\', '\\'] else [c]) with
  | '!' :: r => '^' :: r
  | '^' :: r => '\\' :: '^' :: r
  | d => d

/-- `sep.join(l)` -/
def join (sep : List Char) : List (List Char) → List Char
  | [] => []
  | [x] => x
  | x :: xs => x ++ sep ++ join sep xs

mutual
/-- `_translate` (fnmatch.py:90-125) from the text that is left, with what `res` was so far; gives the text
left, `c` and `res`.  `inner` is `end == ',}'`.  The first argument bounds the recursion. -/
def translateFrom : Nat → Bool → List Char → List Char → List Char × Option Char × List Char
  | 0, _, _, res => ([], none, res)
  | _ + 1, _, [], res => ([], none, res)
  | n + 1, inner, c :: cs, res =>
    if inner = true ∧ (c = ',' ∨ c = '}') then (c :: cs, some c, res)               -- 95-96
    else if c = '*' then translateFrom n inner cs (res ++ ['.', '*'])               -- 98-99
    else if c = '?' then translateFrom n inner cs (res ++ ['.'])                    -- 100-101
    else if c = '[' then                                                            -- 102-119
      if bracketEnd cs < cs.length then
        translateFrom n inner (cs.drop (bracketEnd cs + 1))
          (res ++ '[' :: stuffText (cs.take (bracketEnd cs)) ++ [']'])
      else translateFrom n inner cs (res ++ ['\\', '['])
    else if c = '{' then                                                            -- 120-122
      match subexpression n cs [] with
      | (after, sub) => translateFrom n inner after (res ++ sub)
    else translateFrom n inner cs (res ++ reEscape c)                               -- 124
/-- `_translate_subexpression` (fnmatch.py:127-143) with the subexpressions so far -/
def subexpression : Nat → List Char → List (List Char) → List Char × List Char
  | 0, _, subs => ([], '{' :: join [','] subs)
  | n + 1, cs, subs =>
    match translateFrom n true cs [] with
    | (rest, some ',', res) => subexpression n (rest.drop 1) (subs ++ [res])
    | (rest, some '}', res) => (rest.drop 1, '(' :: join ['|'] (subs ++ [res]) ++ [')'])
    | (rest, _, res) => (rest, '{' :: join [','] (subs ++ [res]))
end

/-- `translate` (fnmatch.py:82-88) -/
def translate (pat : List Char) : List Char :=
  (translateFrom (2 * pat.length + 1) false pat []).2.2 ++ ['$']

/-! ## The module `re` -/

inductive Re where
  | chr (c : Char)
  | any
  | eos
  | set (neg : Bool) (items : List (Char × Char))
  | star (r : Re)
  | group (alts : List (List Re))

/-- After `{`: it starts a repetition like `{2,3}`. -/
def isRepeat (cs : List Char) : Bool :=
  let r := cs.dropWhile Char.isDigit
  let r := match r with
    | ',' :: r => r.dropWhile Char.isDigit
    | r => r
  match r with
  | '}' :: _ => cs.head? != some '}'
  | _ => false

/-- The next character inside brackets; `some (none, _)` is the closing bracket.  `first` is true for the
first character, where `]` does not close.  Escapes of letters and digits (classes like `\d`) are not
needed. -/
def setTok (first : Bool) : List Char → Option (Option Char × List Char)
  | [] => none
  | c :: r =>
    if c = ']' then (if first then some (some ']', r) else some (none, r))
    else if c = '\\' then
      match r with
      | [] => none
      | d :: r => if d.isAlphanum then none else some (some d, r)
    else some (some c, r)

/-- The inside of brackets; a reversed range is an error. -/
def setItems : Nat → Bool → List Char → List (Char × Char) → Option (List (Char × Char) × List Char)
  | 0, _, _, _ => none
  | n + 1, first, cs, acc =>
    match setTok first cs with
    | none => none
    | some (none, r) => some (acc, r)
    | some (some lo, '-' :: r) =>
      match setTok false r with
      | none => none
      | some (none, r) => some (acc ++ [(lo, lo), ('-', '-')], r)
      | some (some hi, r) => if lo ≤ hi then setItems n false r (acc ++ [(lo, hi)]) else none
    | some (some lo, r) => setItems n false r (acc ++ [(lo, lo)])

mutual
/-- A sequence up to `|`, `)` or the end (`_parse`). -/
def parseSeq : Nat → List Char → List Re → Option (List Re × List Char)
  | 0, _, _ => none
  | _ + 1, [], acc => some (acc, [])
  | n + 1, c :: cs, acc =>
    if c = '|' ∨ c = ')' then some (acc, c :: cs)
    else if c = '\\' then
      match cs with
      | [] => none
      | d :: ds => if d.isAlphanum then none else parseSeq n ds (acc ++ [.chr d])
    else if c = '.' then parseSeq n cs (acc ++ [.any])
    else if c = '$' then parseSeq n cs (acc ++ [.eos])
    else if c = '*' then
      match acc.getLast? with
      | none => none
      | some (.star _) => none
      | some .eos => none
      | some r => parseSeq n cs (acc.dropLast ++ [.star r])
    else if c = '+' ∨ c = '?' ∨ c = '^' then none
    else if c = '{' then
      if isRepeat cs then none else parseSeq n cs (acc ++ [.chr '{'])
    else if c = '[' then
      match cs with
      | '^' :: cs =>
        match setItems (cs.length + 1) true cs [] with
        | none => none
        | some (items, rest) => parseSeq n rest (acc ++ [.set true items])
      | cs =>
        match setItems (cs.length + 1) true cs [] with
        | none => none
        | some (items, rest) => parseSeq n rest (acc ++ [.set false items])
    else if c = '(' then
      match cs with
      | '?' :: _ => none
      | cs =>
        match parseAlts n cs [] with
        | some (alts, ')' :: rest) => parseSeq n rest (acc ++ [.group alts])
        | _ => none
    else parseSeq n cs (acc ++ [.chr c])
/-- Sequences separated by `|` (`_parse_sub`). -/
def parseAlts : Nat → List Char → List (List Re) → Option (List (List Re) × List Char)
  | 0, _, _ => none
  | n + 1, cs, acc =>
    match parseSeq n cs [] with
    | none => none
    | some (seq, '|' :: rest) => parseAlts n rest (acc ++ [seq])
    | some (seq, rest) => some (acc ++ [seq], rest)
end

/-- `re.compile(s)` succeeds with `alts` -/
def Compiles (s : List Char) (alts : List (List Re)) : Prop := ∃ n, parseAlts n s [] = some (alts, [])

/-- A compiled sequence matches a prefix of the text; the last argument is the text left. -/
inductive Run : List Re → List Char → List Char → Prop
  | nil (s) : Run [] s s
  | chr {c rs s t} : Run rs s t → Run (.chr c :: rs) (c :: s) t
  | any {c rs s t} : c ≠ '\n' → Run rs s t → Run (.any :: rs) (c :: s) t
  | eos {rs s t} : s = [] ∨ s = ['\n'] → Run rs s t → Run (.eos :: rs) s t
  | set {neg items c rs s t} :
      (items.any (fun r => decide (r.1 ≤ c) && decide (c ≤ r.2))) ≠ neg → Run rs s t →
      Run (.set neg items :: rs) (c :: s) t
  | starNil {r rs s t} : Run rs s t → Run (.star r :: rs) s t
  | starCons {r rs s u t} : Run [r] s u → Run (.star r :: rs) u t → Run (.star r :: rs) s t
  | group {alts alt rs s u t} : alt ∈ alts → Run alt s u → Run rs u t → Run (.group alts :: rs) s t

/-- `fnmatchcase(name, pat)` returns `True` (fnmatch.py:73-81) -/
def Fnmatchcase (name pat : List Char) : Prop :=
  ∃ alts, Compiles (translate pat) alts ∧ ∃ alt ∈ alts, ∃ t, Run alt name t

/-- `fnmatchcase(name, pat)` raises `re.error` -/
def Raises (pat : List Char) : Prop := ¬ ∃ alts, Compiles (translate pat) alts

end Verif.Fnmatch
