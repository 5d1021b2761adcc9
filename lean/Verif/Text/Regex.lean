import Verif.Text.Core
/-!
# Model of `regex_substitute` (lib/fbuild/builders/text.py 35-61)

`re.sub` is a parameter: it gives a text, or raises.  An element of `patterns` is a tuple of any length.  The files are a function.
Left out: creating the directory of the destination, the log line, errors of decoding and writing, and the cache.
-/
namespace Verif.Text.Regex

variable {α : Type}

inductive Exc where
  /-- an element of `patterns` does not have two or three parts -/
  | valueError
  /-- `re.sub` raises -/
  | re
  /-- the source cannot be opened -/
  | missing
  deriving DecidableEq

/-- the pattern, the text and the flags of an element (text.py 51-56); `m` is `re.M` -/
def unpack (m : α) : List α → Option (α × α × α)
  | [pattern, text, flags] => some (pattern, text, flags)
  | [pattern, text] => some (pattern, text, m)
  | _ => none

/-- the loop (text.py 50-58) -/
def subAll (sub : α → α → α → Text → Option Text) (m : α) : List (List α) → Text → Except Exc Text
  | [], code => .ok code
  | item :: items, code =>
    match unpack m item with
    | none => .error .valueError
    | some (pattern, text, flags) =>
      match sub pattern text flags code with
      | none => .error .re
      | some code => subAll sub m items code

abbrev Files := Text → Option Text

/-- `regex_substitute` (text.py 48-63): the files afterwards, and the exception -/
def regexSubstitute (sub : α → α → α → Text → Option Text) (m : α) (items : List (List α)) (src dst : Text) (files : Files) :
    Except Exc Unit × Files :=
  match files src with
  | none => (.error .missing, files)
  | some code =>
    match subAll sub m items (readText code) with
    | .error e => (.error e, files)
    | .ok new => (.ok (), fun f => if f = dst then some new else files f)

end Verif.Text.Regex
