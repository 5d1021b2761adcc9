import Verif.Builders.Core
import Verif.Calls.Core
/-!
# `find_program` as a cached function

The body of `find_program` (lib/fbuild/builders/__init__.py 29-69, not on Windows) as a program of `Verif/Calls/Core.lean`: it asks for each
candidate whether it is a file, until one is, and raises `MissingProgram` if there is none.  It declares no sources and reports none.
-/
namespace Verif.Builders.Found
open Verif.Calls Verif.DB

variable {B R : Type}

/-- the name of a file -/
def file (p : Text) : FileName := String.ofList p

/-- the directories for one name (61-65) -/
def inPaths (join : Text → Text → Text) (found : Text → R) (name : Text) (next : Prog B R) : List Text → Prog B R
  | [] => next
  | p :: ps => .read (file (join p name)) fun c => if c.isSome then .ret (found (join p name)) else inPaths join found name next ps

/-- the loop over the names (53-69) -/
def search (join : Text → Text → Text) (found : Text → R) (paths : List Text) : List Text → Prog B R
  | [] => .raise
  | n :: ns => .read (file n) fun c => if c.isSome then .ret (found n) else inPaths join found n (search join found paths ns) paths

end Verif.Builders.Found
