/-!
# The text of a command and the directories of its libraries

Model of the parts of `Context.execute` (lib/fbuild/context.py 122-166) that `Execute/Core.lean` leaves out: the text of a command in
the log, and the variable with the directories of shared libraries; and of `Builder.run` (lib/fbuild/builders/c/__init__.py 171-176).
Texts are lists of characters.
-/
namespace Verif.Execute.Command

abbrev Text := List Char

/-- `c.replace("'", "\\'")` -/
def escape (c : Text) : Text := c.flatMap fun x => if x = '\'' then ['\\', '\''] else [x]

/-- one word of the command (127-130) -/
def quote (c : Text) : Text := if ' ' ∈ c then '\'' :: escape c ++ ['\''] else c

/-- `sep.join(parts)` -/
def join (sep : Char) : List Text → Text
  | [] => []
  | [a] => a
  | a :: b :: rest => a ++ sep :: join sep (b :: rest)

/-- `cmd_string` for a list (124-131) -/
def cmdString (cmd : List Text) : Text := join ' ' (cmd.map quote)

/-- The variable that `runtime_env_libpath` names, as the child gets it (146-160): `sep` is `os.pathsep`, `old` its value before.
An empty list leaves it as it is. -/
def libraryPath (sep : Char) (old : Option Text) (paths : List Text) : Option Text :=
  if paths = [] then old
  else match old with
    | none => some (join sep paths)
    | some o => some (o ++ sep :: join sep paths)

/-- Libraries by number: where they are, and which libraries each of them was linked with. -/
structure Libs where
  parent : Nat → Text
  libs : Nat → List Nat

/-- `runtime_libpaths` that `Builder.run` passes on (builders/c/__init__.py 175), for an executable linked with `libs`. -/
def runPaths (g : Libs) (given : List Text) (libs : List Nat) : List Text := given ++ libs.map g.parent

end Verif.Execute.Command
