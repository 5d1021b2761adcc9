import Verif.Path.Core
/-!
# Model of `Path.linecount` (lib/fbuild/path.py 266-273)

The file is a text.  Left out: files that cannot be opened or decoded.
-/
namespace Verif.Path

/-- The lines of a file that is open for reading text, as the loop gets them: a newline, a carriage return or both end a line, and become a newline.
`cur` is the line so far. -/
def fileLines : Text → Text → List Text
  | cur, [] => if cur = [] then [] else [cur]
  | cur, '\r' :: '\n' :: s => (cur ++ ['\n']) :: fileLines [] s
  | cur, c :: s => if c = '\n' ∨ c = '\r' then (cur ++ ['\n']) :: fileLines [] s else fileLines (cur ++ [c]) s

/-- the loop (270-271) -/
def countLoop (count : Nat) : List Text → Nat
  | [] => count
  | _ :: ls => countLoop (count + 1) ls

/-- `linecount` (266-273) -/
def linecount (content : Text) : Nat := countLoop 0 (fileLines [] content)

end Verif.Path
