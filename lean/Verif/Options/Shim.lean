import Verif.Options.Core
/-!
# Options of `optparse` given to fbuild's parser: `OptparseShimMixin` (lib/fbuild/options.py:9-78)

`optparse.Option` and `argparse` are those of CPython 3.11.

Simplifications: attributes have the types they should have; what the parsers take for an option and its arguments is left out (for `argparse` see `Verif/Options/Core.lean`); help texts are
only passed on.
-/
namespace Verif.Options.Shim
open Verif.Options (Str)

/-! ### Values -/

/-- what a text from the command line is converted to; floats and complex numbers by a text that identifies them -/
inductive Atom where
  | text (s : Str)
  | int (i : Int)
  | float (s : Str)
  | complex (s : Str)
  deriving DecidableEq

inductive Item where
  | none
  | one (a : Atom)
  | tuple (as : List Atom)
  | list (as : List Atom)
  deriving DecidableEq

/-- the value of an attribute of the options -/
inductive Val where
  | item (i : Item)
  | bool (b : Bool)
  | items (is : List Item)
  deriving DecidableEq

abbrev Val.none : Val := .item .none

/-- Python's `int(text, base)`, `float` and `complex`; `none`: `ValueError` -/
structure Conv where
  int : Nat → Str → Option Int
  float : Str → Option Str
  complex : Str → Option Str

/-! ### `optparse.Option` -/

inductive Ty where
  | string | int | long | float | complex | choice
  deriving DecidableEq

inductive Act where
  | store | storeConst | storeTrue | storeFalse | append | appendConst | count | callback | help | version
  deriving DecidableEq

/-- the keyword arguments of `optparse.Option`; `none`: not given (or `None`).  `default` distinguishes the two. -/
structure Attrs where
  action : Option Act := none
  type : Option Ty := none
  dest : Option Str := none
  default : Option Val := none
  nargs : Option Nat := none
  const : Item := .none
  choices : Option (List Str) := none
  callback : Bool := false
  help : Option Str := none
  metavar : Option Str := none

/-- an `optparse.Option` -/
structure OptOption where
  short : List Str
  long : List Str
  action : Act
  type : Option Ty
  dest : Option Str
  /-- `none`: `NO_DEFAULT` -/
  default : Option Val
  nargs : Option Nat
  const : Item
  choices : Option (List Str)
  help : Option Str
  metavar : Option Str
  deriving DecidableEq

/-- `STORE_ACTIONS`, `TYPED_ACTIONS`, `ALWAYS_TYPED_ACTIONS`, `CONST_ACTIONS` -/
def Act.stores : Act → Bool
  | .callback | .help | .version => false
  | _ => true
def Act.typed : Act → Bool
  | .store | .append | .callback => true
  | _ => false
def Act.alwaysTyped : Act → Bool
  | .store | .append => true
  | _ => false
def Act.takesConst : Act → Bool
  | .storeConst | .appendConst => true
  | _ => false

/-- `_set_opt_strings`: sorted into short and long; `none`: `OptionError` -/
def optStrings : List Str → Option (List Str × List Str)
  | [] => some ([], [])
  | s :: rest =>
    match s, optStrings rest with
    | _, none => none
    | [c, d], some (sh, lo) => if c = '-' ∧ d ≠ '-' then some ([c, d] :: sh, lo) else none
    | c :: d :: e :: t, some (sh, lo) => if c = '-' ∧ d = '-' ∧ e ≠ '-' then some (sh, (c :: d :: e :: t) :: lo) else none
    | _, some _ => none

def dashes (s : Str) : Str := s.map fun c => if c = '-' then '_' else c

/-- `_check_dest` -/
def gleanDest (short long : List Str) : Option Str :=
  match long, short with
  | l :: _, _ => some (dashes (l.drop 2))
  | [], s :: _ => some (s.drop 1)
  | [], [] => none

/-- the type of `_check_type` -/
def makeType (a : Attrs) (action : Act) : Option Ty :=
  match a.type with
  | some t => some t
  | none => if action.alwaysTyped then some (if a.choices.isSome then .choice else .string) else none

/-- `_check_dest` -/
def makeDest (a : Attrs) (action : Act) (type : Option Ty) (short long : List Str) : Option Str :=
  match a.dest with
  | some d => some d
  | none => if action.stores ∨ type.isSome then gleanDest short long else none

/-- `optparse.Option(*names, **attrs)`; `none`: `OptionError` or `TypeError` -/
def make (names : List Str) (a : Attrs) : Option OptOption :=
  match optStrings (names.filter fun s => s ≠ []) with
  | none => none
  | some (short, long) =>
    if short = [] ∧ long = [] then none else
    let action := a.action.getD .store                                                     -- _check_action
    let type := makeType a action                                                          -- _check_type
    if a.type.isSome ∧ action.typed = false then none else
    if decide (type = some .choice) ≠ a.choices.isSome then none else                      -- _check_choice
    let dest := makeDest a action type short long                                          -- _check_dest
    if action.takesConst = false ∧ a.const ≠ .none then none else                          -- _check_const
    if action.typed = false ∧ a.nargs.isSome then none else                                -- _check_nargs
    if a.callback ≠ decide (action = .callback) then none else                             -- _check_callback
    some ⟨short, long, action, type, dest, a.default, if action.typed then some (a.nargs.getD 1) else none, a.const, a.choices, a.help,
      a.metavar⟩

/-- `_parse_num` of optparse -/
def parseNum (cv : Conv) (s : Str) : Option Int :=
  match s with
  | '0' :: 'x' :: _ | '0' :: 'X' :: _ => cv.int 16 s
  | '0' :: 'b' :: r | '0' :: 'B' :: r => cv.int 2 (if r = [] then ['0'] else r)
  | '0' :: _ => cv.int 8 s
  | _ => cv.int 10 s

/-- `check_value` of optparse; `none`: the process ends with an error message -/
def checkValue (cv : Conv) (o : OptOption) (s : Str) : Option Atom :=
  match o.type with
  | some .int | some .long => (parseNum cv s).map .int
  | some .float => (cv.float s).map .float
  | some .complex => (cv.complex s).map .complex
  | some .choice => if s ∈ o.choices.getD [] then some (.text s) else none
  | some .string | none => some (.text s)

/-- all texts, one after the other -/
def convAll (f : Str → Option Atom) : List Str → Option (List Atom)
  | [] => some []
  | s :: ss =>
    match f s with
    | none => none
    | some a => (convAll f ss).map (a :: ·)

/-- `convert_value` -/
def convertValue (cv : Conv) (o : OptOption) (args : List Str) : Option Item :=
  if o.nargs = some 1 then
    match args with
    | [s] => (checkValue cv o s).map .one
    | _ => none
  else (convAll (checkValue cv o) args).map .tuple

/-- append to a list; a missing list (`None`) is made.  `none`: `AttributeError` -/
def push (i : Item) : Val → Option Val
  | .item .none => some (.items [i])
  | .items is => some (.items (is ++ [i]))
  | _ => none

/-- one more; `none`: `TypeError` -/
def more : Val → Option Val
  | .item .none => some (.item (.one (.int 1)))
  | .item (.one (.int k)) => some (.item (.one (.int (k + 1))))
  | .bool b => some (.item (.one (.int (if b then 2 else 1))))
  | _ => none

/-- `take_action` for the actions that store something; `v` is the value so far -/
def optUse (cv : Conv) (o : OptOption) (args : List Str) (v : Val) : Option Val :=
  match o.action with
  | .store => (convertValue cv o args).map .item
  | .storeConst => some (.item o.const)
  | .storeTrue => some (.bool true)
  | .storeFalse => some (.bool false)
  | .append => (convertValue cv o args).bind fun i => push i v
  | .appendConst => push o.const v
  | .count => more v
  | _ => none

/-- `get_default_values` of `OptionParser` -/
def optStart (cv : Conv) (o : OptOption) : Option Val :=
  match o.default with
  | some (.item (.one (.text s))) => (checkValue cv o s).map fun a => .item (.one a)
  | some v => some v
  | none => some .none

/-- the value after the option was used, with the arguments of each use -/
def optRun (cv : Conv) (o : OptOption) (uses : List (List Str)) : Option Val :=
  uses.foldl (fun v args => v.bind (optUse cv o args)) (optStart cv o)

/-! ### The shim -/

/-- the values of `TYPE_MAP` (options.py:27-33), or a text -/
inductive PyTy where
  | str | int | float | complex
  | text (s : Str)
  deriving DecidableEq

/-- the keywords given to `add_argument`; `none`: not given -/
structure Kw where
  action : Option Act := none
  type : Option PyTy := none
  dest : Option Str := none
  default : Option Val := none
  nargs : Option Nat := none
  const : Item := .none
  choices : Option (List Str) := none
  help : Option Str := none
  metavar : Option Str := none

inductive Err where
  | key | value | type | conflict
  deriving DecidableEq

/-- `TYPE_MAP[ty]` -/
def typeMap : Ty → Except Err PyTy
  | .string => .ok .str
  | .int => .ok .int
  | .choice => .ok .str
  | .float => .ok .float
  | .complex => .ok .complex
  | .long => .error .key

/-- the loop over `option.ATTRS` (options.py:37-52), and `nargs` 1 (56-57) -/
def shimKw (o : OptOption) : Except Err Kw :=
  let kw (ty : Option PyTy) : Kw := ⟨some o.action, ty, o.dest, o.default, if o.nargs = some 1 then none else o.nargs, o.const, o.choices, o.help, o.metavar⟩
  match o.type with
  | none => .ok (kw none)
  | some t =>
    match typeMap t with
    | .error e => .error e
    | .ok p => .ok (kw (some p))

/-! ### `argparse` -/

/-- an action of the parser -/
structure Arg where
  names : List Str
  dest : Option Str
  action : Act
  nargs : Option Nat
  const : Item
  default : Val
  type : Option PyTy
  choices : Option (List Str)
  help : Option Str
  metavar : Option Str
  deriving DecidableEq

/-- `dest` of `_get_optional_kwargs` -/
def inferDest (names : List Str) : Option Str :=
  let long := names.filter fun s => match s with | _ :: '-' :: _ => true | _ => false
  match long, names with
  | l :: _, _ => some (dashes (l.dropWhile (· = '-')))
  | [], s :: _ => some (dashes (s.dropWhile (· = '-')))
  | [], [] => none

/-- does the constructor of the class of the action take the keywords?  (It raises `TypeError` otherwise.) -/
def accepts (act : Act) (kw : Kw) : Bool :=
  match act with
  | .store | .append => true
  | .storeConst | .appendConst => kw.nargs.isNone && kw.type.isNone && kw.choices.isNone
  | .storeTrue | .storeFalse | .count | .help | .version =>
    kw.nargs.isNone && kw.type.isNone && kw.choices.isNone && kw.metavar.isNone && decide (kw.const = .none)
  | .callback => false

/-- the default of the class of the action -/
def classDefault : Act → Val
  | .storeTrue => .bool false
  | .storeFalse => .bool true
  | .help | .version => .item (.one (.text "==SUPPRESS==".toList))
  | _ => .none

/-- `add_argument(*names, **kw)`; `taken` are the names of the options of the parser -/
def addArgument (taken names : List Str) (kw : Kw) : Except Err Arg :=
  let act := kw.action.getD .store
  if act = .callback then .error .value                                          -- unknown action
  else if accepts act kw = false then .error .type
  else if act.alwaysTyped = true ∧ kw.nargs = some 0 then .error .value
  else if act.alwaysTyped = true ∧ kw.const ≠ .none then .error .value
  else
    match kw.type with
    | some (.text _) => .error .value                                            -- not callable
    | ty =>
      if names.any (fun s => s ∈ taken) then .error .conflict
      else .ok ⟨names, match kw.dest with | some d => some d | none => inferDest names, act,
        if act.alwaysTyped then kw.nargs else some 0, kw.const, kw.default.getD (classDefault act), ty, kw.choices, kw.help, kw.metavar⟩

/-- `_optparse_add_option(option)` (options.py:26-58) -/
def addOption (taken : List Str) (o : OptOption) : Except Err Arg :=
  match shimKw o with
  | .error e => .error e
  | .ok kw => addArgument taken (o.short ++ o.long) kw

/-- `_optparse_add_option(*names, **kw)` without an `optparse.Option` -/
def addKeywords (taken names : List Str) (kw : Kw) : Except Err Arg :=
  addArgument taken names { kw with nargs := if kw.nargs = some 1 then none else kw.nargs }

/-- `add_options` (options.py:14-17) -/
def addOptions (taken : List Str) : List OptOption → Except Err (List Arg)
  | [] => .ok []
  | o :: os =>
    match addOption taken o with
    | .error e => .error e
    | .ok a =>
      match addOptions (taken ++ a.names) os with
      | .error e => .error e
      | .ok as => .ok (a :: as)

/-- `_get_value` -/
def getValue (cv : Conv) (a : Arg) (s : Str) : Option Atom :=
  match a.type with
  | some .int => (cv.int 10 s).map .int
  | some .float => (cv.float s).map .float
  | some .complex => (cv.complex s).map .complex
  | some .str | none => some (.text s)
  | some (.text _) => none

/-- `_get_value` and `_check_value` -/
def checkedValue (cv : Conv) (a : Arg) (s : Str) : Option Atom :=
  match getValue cv a s with
  | none => none
  | some v =>
    match a.choices with
    | none => some v
    | some cs => if v ∈ cs.map Atom.text then some v else none

/-- `_get_values` -/
def getValues (cv : Conv) (a : Arg) (args : List Str) : Option Item :=
  match a.nargs, args with
  | none, [s] => (checkedValue cv a s).map .one
  | none, _ => none
  | some _, args => (convAll (checkedValue cv a) args).map .list

/-- the `__call__` of the classes of the actions; `v` is the value so far -/
def argUse (cv : Conv) (a : Arg) (args : List Str) (v : Val) : Option Val :=
  match a.action with
  | .store => (getValues cv a args).map .item
  | .storeConst => some (.item a.const)
  | .storeTrue => some (.bool true)
  | .storeFalse => some (.bool false)
  | .append => (getValues cv a args).bind fun i => push i v
  | .appendConst => push a.const v
  | .count => more v
  | _ => none

/-- the value after the option was used; a text that is the default is converted if the option was not used -/
def argRun (cv : Conv) (a : Arg) (uses : List (List Str)) : Option Val :=
  match uses, a.default with
  | [], .item (.one (.text s)) => (getValue cv a s).map fun v => .item (.one v)
  | uses, v => uses.foldl (fun v args => v.bind (argUse cv a args)) (some v)

/-! ### Several options; two options with one `dest` share a value -/

/-- the attributes of the object with the values; `none`: there is no such attribute -/
abbrev Space := Str → Option Val

def Space.set (f : Space) (d : Str) (v : Val) : Space := fun x => if x = d then some v else f x

/-- `defaults`, after an option was added to an `OptionParser` -/
def optAdd (f : Space) (o : OptOption) : Space :=
  match o.dest, o.default with
  | none, _ => f
  | some d, some v => f.set d v
  | some d, none => if (f d).isSome then f else f.set d .none

def optDefaults (os : List OptOption) (f : Space) : Space := os.foldl optAdd f

/-- `get_default_values`: texts are converted by each option -/
def optConvert (cv : Conv) : List OptOption → Space → Option Space
  | [], f => some f
  | o :: os, f =>
    match o.dest with
    | none => optConvert cv os f
    | some d =>
      match f d with
      | some (.item (.one (.text s))) =>
        match checkValue cv o s with
        | none => none
        | some a => optConvert cv os (f.set d (.item (.one a)))
      | _ => optConvert cv os f

/-- one use: which option, and its arguments -/
def optStep (cv : Conv) (opts : List OptOption) (f : Space) (use : Nat × List Str) : Option Space :=
  match opts[use.1]? with
  | none => none
  | some o =>
    match o.dest with
    | none => none
    | some d => (optUse cv o use.2 ((f d).getD .none)).map (f.set d)

/-- the uses in the order of the command line -/
def optParse (cv : Conv) (opts : List OptOption) (uses : List (Nat × List Str)) : Option Space :=
  uses.foldl (fun f use => f.bind fun f => optStep cv opts f use) (optConvert cv opts (optDefaults opts fun _ => none))

/-- `parse_known_args`: the first default of a `dest` counts; `help` and `version` have none (`SUPPRESS`) of their own -/
def argAdd (f : Space) (a : Arg) : Space :=
  match a.dest with
  | none => f
  | some d =>
    if (f d).isSome ∨ ((a.action = .help ∨ a.action = .version) ∧ a.default = classDefault a.action) then f else f.set d a.default

def argDefaults (as : List Arg) (f : Space) : Space := as.foldl argAdd f

def argStep (cv : Conv) (args : List Arg) (f : Space) (use : Nat × List Str) : Option Space :=
  match args[use.1]? with
  | none => none
  | some a =>
    match a.dest with
    | none => none
    | some d => (argUse cv a use.2 ((f d).getD .none)).map (f.set d)

/-- the end of `_parse_known_args`: texts that are still the default of an option that was not used are converted by it.  (The code
asks for the same object; equal texts are taken for it here.) -/
def argConvert (cv : Conv) (uses : List (Nat × List Str)) : Nat → List Arg → Space → Option Space
  | _, [], f => some f
  | i, a :: as, f =>
    match a.dest, a.default with
    | some d, .item (.one (.text s)) =>
      if i ∈ uses.map (·.1) ∨ f d ≠ some (.item (.one (.text s))) then argConvert cv uses (i + 1) as f
      else
        match getValue cv a s with
        | none => none
        | some v => argConvert cv uses (i + 1) as (f.set d (.item (.one v)))
    | _, _ => argConvert cv uses (i + 1) as f

def argParse (cv : Conv) (args : List Arg) (uses : List (Nat × List Str)) : Option Space :=
  (uses.foldl (fun f use => f.bind fun f => argStep cv args f use) (some (argDefaults args fun _ => none))).bind
    (argConvert cv uses 0 args)

end Verif.Options.Shim
