import Verif.Dict
/-!
# Model of the command line: `lib/fbuild/options.py` and `argparse` of CPython 3.11

`make_parser` (options.py:80-133) makes a parser with the options `builtin` and one positional argument, `targets`; the
script may add options (`parse_args`, main.py:52-71).  The parser is modelled for any table of options, with the algorithm
of `_parse_known_args` (argparse.py of CPython 3.11).

Simplifications: the script adds options that take no or one argument and no positional arguments; what `--help` and
`--version` print and the texts of the errors are left out; a string is a list of characters.
-/
namespace Verif.Options

abbrev Str := List Char

/-- What an option does with its argument (`action`, `type`, `choices`). -/
inductive Kind where
  /-- `action='store_true'` -/
  | flag
  /-- `action='count'` -/
  | count
  | value
  /-- `type=int` -/
  | int
  | choice (cs : List Str)
  /-- `--help` and `--version` end the process -/
  | exit
  deriving DecidableEq

/-- does the option take an argument (`nargs=None`) or none (`nargs=0`)? -/
def Kind.takes : Kind → Bool
  | .value | .int | .choice _ => true
  | _ => false

inductive Val where
  | none
  | bool (b : Bool)
  | num (n : Nat)
  | int (i : Int)
  | str (s : Str)
  deriving DecidableEq

structure Opt where
  names : List Str
  dest : Str
  kind : Kind
  default : Val
  deriving DecidableEq

/-- what is not modelled: the regular expression for negative numbers, and `int` -/
structure Env where
  negative : Str → Bool
  int : Str → Option Int

/-- `parser._option_string_actions` -/
def allNames (t : List Opt) : List (Opt × Str) := t.flatMap fun o => o.names.map fun n => (o, n)

def find (t : List Opt) (s : Str) : Option Opt := t.find? fun o => s ∈ o.names

/-- `s.partition('=')`; `none` if there is no `=` -/
def partition : Str → Str × Option Str
  | [] => ([], none)
  | c :: s => if c = '=' then ([], some s) else (c :: (partition s).1, (partition s).2)

/-- an option in a string of the command line: the option (none: it looks like one but there is none), its name, whether
there is a `=`, and the argument in the same string -/
structure Hit where
  opt : Option Opt
  name : Str
  sep : Bool
  arg : Option Str

/-- `_get_option_tuples` (argparse.py:2300-2340) -/
def optionTuples (t : List Opt) (s : Str) : List Hit :=
  if s.take 2 = ['-', '-'] then
    ((allNames t).filter fun p => (partition s).1.isPrefixOf p.2).map fun p =>
      ⟨some p.1, p.2, (partition s).2.isSome, (partition s).2⟩
  else (allNames t).filterMap fun p =>
    if p.2 = s.take 2 then some ⟨some p.1, p.2, false, some (s.drop 2)⟩
    else if s.isPrefixOf p.2 then some ⟨some p.1, p.2, false, none⟩
    else none

/-- `_parse_optional` (argparse.py:2243-2298); an error is the message about an ambiguous option -/
def parseOptional (e : Env) (t : List Opt) (s : Str) : Except Unit (Option Hit) :=
  if s.head? ≠ some '-' then .ok none
  else match find t s with
    | some o => .ok (some ⟨some o, s, false, none⟩)
    | none =>
      if s.length = 1 then .ok none
      else match (partition s).2, find t (partition s).1 with
        | some a, some o => .ok (some ⟨some o, (partition s).1, true, some a⟩)
        | _, _ => match optionTuples t s with
          | [h] => .ok (some h)
          | _ :: _ :: _ => .error ()
          | [] =>
            if e.negative s && !(allNames t).any (fun p => e.negative p.2) then .ok none
            else if ' ' ∈ s then .ok none
            else .ok (some ⟨none, s, false, none⟩)

/-- the character of `arg_strings_pattern` with the tuple of `option_string_indices` (argparse.py:1935-1961) -/
inductive Tok where
  | dashes
  | arg
  | opt (h : Hit)

def Tok.isOpt : Tok → Bool
  | .opt _ => true
  | _ => false

def classify (e : Env) (t : List Opt) : List Str → Except Unit (List (Str × Tok))
  | [] => .ok []
  | s :: ss =>
    if s = ['-', '-'] then .ok ((s, .dashes) :: ss.map fun x => (x, .arg))
    else match parseOptional e t s with
      | .error () => .error ()
      | .ok h => match classify e t ss with
        | .error () => .error ()
        | .ok r => .ok ((s, match h with | none => .arg | some h => .opt h) :: r)

/-- the namespace -/
structure NS where
  vals : Dict Str Val
  targets : List Str

/-- The process ends: with a message about the command line, or after `--help` or `--version`. -/
inductive Stop where
  | error
  | exit
  deriving DecidableEq

/-- `take_action` for an option: `_get_values` and the actions `store_true`, `count`, `store`, `help` and `version` -/
def take (e : Env) (o : Opt) (a : Option Str) (ns : NS) : Except Stop NS :=
  match o.kind, a with
  | .flag, _ => .ok { ns with vals := ns.vals.set o.dest (.bool true) }
  | .count, _ => .ok { ns with vals := ns.vals.set o.dest (match ns.vals.get? o.dest with | some (.num n) => .num (n + 1) | _ => .num 1) }
  | .exit, _ => .error .exit
  | .value, some a => .ok { ns with vals := ns.vals.set o.dest (.str a) }
  | .int, some a => match e.int a with
    | some i => .ok { ns with vals := ns.vals.set o.dest (.int i) }
    | none => .error .error
  | .choice cs, some a => if a ∈ cs then .ok { ns with vals := ns.vals.set o.dest (.str a) } else .error .error
  | _, none => .error .error

/-- the actions of a string, what was not recognised, and an option that waits for its argument -/
structure Found where
  acts : List (Opt × Option Str)
  extras : List Str
  waits : Option Opt

/-- options of one letter in one string: the loop of `consume_optional` with an `explicit_arg` for an option with one dash
(argparse.py:2003-2048) -/
def letters (t : List Opt) : Str → Opt → Bool → Except Stop Found
  | [], o, _ => if o.kind.takes then .ok ⟨[(o, some [])], [], none⟩ else .error .error
  | [c], o, sep =>
    if o.kind.takes then .ok ⟨[(o, some [c])], [], none⟩
    else if sep || c = '-' then .error .error
    else match find t ['-', c] with
      | none => .ok ⟨[(o, none)], [['-', c]], none⟩
      | some o' => .ok ⟨[(o, none)], [], some o'⟩
  | c :: d :: a, o, sep =>
    if o.kind.takes then .ok ⟨[(o, some (c :: d :: a))], [], none⟩
    else if sep || c = '-' then .error .error
    else match find t ['-', c] with
      | none => .ok ⟨[(o, none)], ['-' :: c :: d :: a], none⟩
      | some o' => match (if d = '=' then letters t a o' true else letters t (d :: a) o' false) with
        | .error x => .error x
        | .ok f => .ok { f with acts := (o, none) :: f.acts }

/-- the part of `consume_optional` (argparse.py:1986-2062) before the actions -/
def consume (t : List Opt) (s : Str) (h : Hit) : Except Stop Found :=
  match h.opt, h.arg with
  | none, _ => .ok ⟨[], [s], none⟩
  | some o, none => .ok ⟨[], [], some o⟩
  | some o, some a =>
    if h.name.take 2 = ['-', '-'] then
      if o.kind.takes then .ok ⟨[(o, some a)], [], none⟩ else .error .error
    else letters t a o h.sep

def takeAll (e : Env) : List (Opt × Option Str) → NS → Except Stop NS
  | [], ns => .ok ns
  | (o, a) :: as, ns => match take e o a ns with
    | .error x => .error x
    | .ok ns1 => takeAll e as ns1

/-- `_get_values` for `targets` (`nargs='*'`, `default=['build']`): the first `--` is removed -/
def targetsOf (ss : List Str) : List Str :=
  let r := ss.erase ['-', '-']
  if r = [] then ["build".toList] else r

/-- The loop of `_parse_known_args` (argparse.py:2095-2136) and the check of `parse_args` that nothing is left.  `done`:
`targets` were found.  The first argument is at least the number of rounds. -/
def loop (e : Env) (t : List Opt) : Nat → List (Str × Tok) → Bool → List Str → NS → Except Stop NS
  | 0, _, _, _, _ => .error .error
  | n + 1, toks, done, extras, ns =>
    if toks.any (fun p => p.2.isOpt) then
      match toks with
      | (s, .opt h) :: rest =>
        match consume t s h with
        | .error x => .error x
        | .ok f =>
          match f.waits with
          | none => match takeAll e f.acts ns with
            | .error x => .error x
            | .ok ns1 => loop e t n rest done (extras ++ f.extras) ns1
          | some o =>
            if o.kind.takes then
              match rest with
              | (a, .arg) :: rest' => match takeAll e (f.acts ++ [(o, some a)]) ns with
                | .error x => .error x
                | .ok ns1 => loop e t n rest' done (extras ++ f.extras) ns1
              | _ => .error .error
            else match takeAll e (f.acts ++ [(o, none)]) ns with
              | .error x => .error x
              | .ok ns1 => loop e t n rest done (extras ++ f.extras) ns1
      | _ =>
        let args := (toks.takeWhile fun p => !p.2.isOpt).map Prod.fst
        let rest := toks.dropWhile fun p => !p.2.isOpt
        if done then loop e t n rest true (extras ++ args) ns
        else loop e t n rest true extras { ns with targets := targetsOf args }
    else
      let ns1 := if done then ns else { ns with targets := targetsOf (toks.map Prod.fst) }
      if (if done then extras ++ toks.map Prod.fst else extras) = [] then .ok ns1 else .error .error

/-- `parser.parse_args(argv)` (argparse.py:1873-1916) -/
def parse (e : Env) (t : List Opt) (argv : List Str) : Except Stop NS :=
  match classify e t argv with
  | .error () => .error .error
  | .ok toks => loop e t (toks.length + 1) toks false [] ⟨t.map fun o => (o.dest, o.default), []⟩

def opt (names : List String) (dest : String) (k : Kind) (d : Val) : Opt := ⟨names.map String.toList, dest.toList, k, d⟩

/-- the options of `make_parser` (options.py:88-131); argparse adds `--help` -/
def builtin : List Opt :=
  [opt ["-h", "--help"] "help" .exit .none,
   opt ["--version"] "version" .exit .none,
   opt ["-v", "--verbose"] "verbose" .count (.num 0),
   opt ["-j", "--jobs"] "threadcount" .int (.int 1),
   opt ["--no-color"] "no_color" .flag (.bool false),
   opt ["--nocolor"] "nocolor" .flag (.bool false),
   opt ["--show-threads"] "show_threads" .flag (.bool false),
   opt ["--rebuild"] "force_rebuild" .flag (.bool false),
   opt ["--configure"] "force_configuration" .flag (.bool false),
   opt ["--buildroot"] "buildroot" .value (.str "build".toList),
   opt ["--state-file"] "state_file" .value .none,
   opt ["--log-file"] "log_file" .value (.str "fbuild.log".toList),
   opt ["--dump-state"] "dump_state" .flag (.bool false),
   opt ["--clean"] "clean_buildroot" .flag (.bool false),
   opt ["--delete-function"] "delete_function" .value .none,
   opt ["--delete-file"] "delete_file" .value .none,
   opt ["--do-not-save-database"] "do_not_save_database" .flag (.bool false),
   opt ["--explain-database"] "explain_database" .flag (.bool false),
   opt ["--database-engine"] "database_engine" (.choice ["pickle".toList, "sqlite".toList, "cache".toList]) (.str "pickle".toList),
   opt ["--no-warnings"] "no_warnings" .flag (.bool false)]

end Verif.Options
