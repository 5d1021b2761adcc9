import Verif.Posix
/-!
# Model of lib/fbuild/temp.py

`tempdir` (21-33) and `tempfile` (37-53) with `textwrap.dedent` of CPython 3.11 (textwrap.py:416-467).  The regular expressions
of `dedent` are all anchored at the beginnings of lines; they are modelled line by line.  Left out: the encoding of the file,
`mkdtemp` that raises, a directory that `rmtree` cannot remove (its errors are ignored).
-/
namespace Verif.Temp

abbrev Text := List Char

/-! ## `textwrap.dedent` -/

/-- the lines of a text, without their ends; there is always one -/
def lines : Text → List Text
  | [] => [[]]
  | c :: s =>
    if c = '\n' then [] :: lines s
    else match lines s with
      | [] => [[c]]
      | l :: ls => (c :: l) :: ls

/-- lines with newlines between them -/
def unlines : List Text → Text
  | [] => []
  | [l] => l
  | l :: l' :: ls => l ++ '\n' :: unlines (l' :: ls)

/-- `[ \t]` -/
def isBlank (c : Char) : Bool := c == ' ' || c == '\t'

/-- `_whitespace_only_re.sub('', text)`, on one line -/
def normalize (l : Text) : Text := if l.all isBlank then [] else l

/-- what `_leading_whitespace_re.findall(text)` finds in a line: `^[ \t]*` with a character behind that is neither of these and
no newline -/
def indentOf (l : Text) : Option Text := if l.all isBlank then none else some (l.takeWhile isBlank)

/-- `for i, (x, y) in enumerate(zip(margin, indent)): if x != y: margin = margin[:i]; break` (textwrap.py:454-457); `i` counts -/
def cut (margin : Text) : Nat → Text → Text → Text
  | i, x :: xs, y :: ys => if x ≠ y then margin.take i else cut margin (i + 1) xs ys
  | _, _, _ => margin

/-- the body of the loop over the indents (textwrap.py:438-457) -/
def step (margin : Option Text) (indent : Text) : Option Text :=
  match margin with
  | none => some indent
  | some margin =>
    if margin.isPrefixOf indent then some margin
    else if indent.isPrefixOf margin then some indent
    else some (cut margin 0 margin indent)

/-- `re.sub(r'(?m)^' + margin, '', text)` on one line (textwrap.py:466) -/
def removeMargin (margin l : Text) : Text := if margin.isPrefixOf l then l.drop margin.length else l

/-- `textwrap.dedent` (textwrap.py:419-467) -/
def dedent (text : Text) : Text :=
  let ls := (lines text).map normalize
  match (ls.filterMap indentOf).foldl step none with
  | none => unlines ls
  | some margin => if margin = [] then unlines ls else unlines (ls.map (removeMargin margin))

/-! ## Directories -/

inductive Node where
  | dir
  | file (content : Text)
  deriving DecidableEq, Repr

abbrev Disk := Text → Option Node

/-- the path is a directory or below it -/
def inDir (d p : Text) : Bool := p == d || (d ++ ['/']).isPrefixOf p

/-- `path.rmtree(ignore_errors=True)` -/
def rmtree (d : Text) (k : Disk) : Disk := fun p => if inDir d p then none else k p

def put (p : Text) (n : Node) (k : Disk) : Disk := fun q => if q = p then some n else k q

/-- what is done in a `with` block: it gets the path, and returns or raises (`none`) -/
abbrev Block (α : Type) := Text → Disk → Option α × Disk

/-- `dir or _default_tempdir` (temp.py:28) -/
def orDefault (dir : Option Text) (default : Text) : Text :=
  match dir with
  | some d => if d = [] then default else d
  | none => default

/-- `tempdir(dir, delete)` (temp.py:21-33) around a block.  `fresh` is the name that `mkdtemp` chooses in `dir or _default_tempdir`. -/
def tempdir {α : Type} (fresh : Disk → Text → Text) (default : Text) (dir : Option Text) (delete : Bool) (block : Block α)
    (k : Disk) : Option α × Disk :=
  let path := fresh k (orDefault dir default)
  let (r, k) := block path (put path .dir k)
  (r, if delete then rmtree path k else k)

/-- `open(name, 'w')` and writing (temp.py:50-51): the directory has to exist, and `name` must not be a directory -/
def write (name content : Text) (k : Disk) : Option Disk :=
  if k (Posix.split name).1 = some .dir ∧ k name ≠ some .dir ∧ (Posix.split name).2 ≠ [] then
    some (put name (.file content) k)
  else none

/-- `tempfile(src, suffix, name, dir=dir, delete=delete)` (temp.py:37-53) around a block -/
def tempfile {α : Type} (fresh : Disk → Text → Text) (default : Text) (dir : Option Text) (delete : Bool)
    (src suffix name : Text) (block : Block α) (k : Disk) : Option α × Disk :=
  tempdir fresh default dir delete (fun dirname k =>
    let name := Posix.join dirname name ++ suffix
    match write name (dedent src ++ ['\n']) k with
    | none => (none, k)
    | some k => block name k) k

end Verif.Temp
