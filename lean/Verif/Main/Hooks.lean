/-!
# Model of the hooks of the script for options (lib/fbuild/main.py)

`_call_or_deprecated` (27-50) and `parse_args` (52-72).  The script is what its attributes are: functions from arguments to a result or
an exception; if it could not be imported it has none (`fbuildroot` is then the exception, 20-23).  Left out: attributes that are not
functions, and `warnings.warn` raising under `-W error`.
-/
namespace Verif.Main.Hooks

abbrev Text := List Char

/-- what is done, in order -/
inductive Ev (V : Type) where
  | hook (name : Text) (args : List V)
  | warn (old new : Text)
  | parse (parser : V)
  deriving DecidableEq

/-- a script: `none` if there is no such attribute; a function returns a value (`none` is `None`) or raises -/
abbrev Script (V E : Type) := Text → Option (List V → Except E (Option V))

variable {V E : Type}

/-- `_call_or_deprecated` (27-50) -/
def callOrDeprecated (s : Script V E) (current : Text) (currentArgs : List V) (deprecated : Text) (deprecatedArgs : List V) :
    List (Ev V) × Except E (Option V) :=
  match s current with
  | some f => ([.hook current currentArgs], f currentArgs)
  | none =>
    match s deprecated with
    | some f => ([.warn deprecated current, .hook deprecated deprecatedArgs], f deprecatedArgs)
    | none => ([], .ok none)

/-- `x or default` (61, 70): `truthy` is how the value counts -/
def orElse (truthy : V → Bool) (x : Option V) (default : V) : V :=
  match x with
  | some v => if truthy v then v else default
  | none => default

/-- `parse_args` (52-72): `make` is the parser of fbuild, `parse` is `parser.parse_args(argv[1:])` -/
def parseArgs (s : Script V E) (truthy : V → Bool) (make : V) (parse : V → Except E V) : List (Ev V) × Except E V :=
  match callOrDeprecated s "arguments".toList [make] "pre_options".toList [make] with
  | (t1, .error e) => (t1, .error e)
  | (t1, .ok r1) =>
    let parser := orElse truthy r1 make
    match parse parser with
    | .error e => (t1 ++ [.parse parser], .error e)
    | .ok args =>
      match callOrDeprecated s "post_arguments".toList [parser, args] "post_options".toList [args] with
      | (t2, .error e) => (t1 ++ [.parse parser] ++ t2, .error e)
      | (t2, .ok r2) => (t1 ++ [.parse parser] ++ t2, .ok (orElse truthy r2 args))

/-- the beginning of `main` (152, 170-179): what parsing the arguments gives, then the exception of importing the script -/
def begin (root : Except E (Script V E)) (truthy : V → Bool) (make : V) (parse : V → Except E V) : Except E V :=
  match root with
  | .ok s => (parseArgs s truthy make parse).2
  | .error e =>
    match (parseArgs (fun _ => none) truthy make parse).2 with
    | .error e' => .error e'
    | .ok _ => .error e

end Verif.Main.Hooks
